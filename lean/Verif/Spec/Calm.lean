import Verif.Model.Writer

/-!
# Objects that panic only so, and hang only if they may

`P` says with which values an object may panic, `H` whether its calls may fail to return.  Otherwise the objects are expected to keep the contracts of
their interfaces: counts of bytes are not negative and not larger than what was asked for.
-/

set_option autoImplicit false

namespace Verif.Spec
variable {α β ω : Type}

/-- Ends well, with a panic of `P`, or, if `H`, never. -/
def Within (P : Panic → Prop) (H : Prop) (Q : α → Prop) : Res α → Prop
  | .ret a => Q a
  | .panic p => P p
  | .hang => H

/-- A run of `WriteTo`, against any destination that keeps to the contract of `io.Writer`; the object satisfies `Inv` at the end. -/
def WTWithin (P : Panic → Prop) (H : Prop) (Inv : β → Prop) : WT β → Prop
  | .done b n _ => 0 ≤ n ∧ Inv b
  | .write _ d cont => ∀ (n : Int) e, 0 ≤ n → n ≤ d.length → WTWithin P H Inv (cont n e)
  | .panic _ p => P p
  | .hang _ => H

/-- A run of `ReadFrom`, against any source that keeps to the contract of `io.Reader`.  (Buffers of `2^62` bytes do not exist.) -/
def RFWithin (P : Panic → Prop) (H : Prop) (Inv : ω → Prop) : RF ω → Prop
  | .done w n _ => 0 ≤ n ∧ Inv w
  | .read _ k cont => k < 2 ^ 62 ∧ ∀ (d : List Byte) e, d.length ≤ k → RFWithin P H Inv (cont d e)
  | .drain _ cont => ∀ (n : Int) e, 0 ≤ n → RFWithin P H Inv (cont n e)
  | .panic _ p => P p
  | .hang _ => H

/-- A Body.  `Inv n b` holds if it ends after at most `n` more reads (if `H`, the number has no meaning). -/
structure BodyWithin (P : Panic → Prop) (H : Prop) (Inv : Nat → β → Prop) (B : BodyOps β) : Prop where
  read : ∀ n b k, k < 2 ^ 62 → Inv n b → Within P H (fun a => a.1.length ≤ k ∧
    ∃ m, Inv m (B.read b k).1 ∧ (H ∨ m ≤ n ∧ (a.2 = none → 0 < k → m < n))) (B.read b k).2
  close : ∀ n b, Inv n b → Within P H (fun _ => True) (B.close b).2
  writeTo : B.isWriterTo = true → ∀ n b, Inv n b → WTWithin P H (fun b' => ∃ m, Inv m b' ∧ (H ∨ m ≤ n)) (B.writeTo b)

/-- A status that the Writers accept. -/
def StatusOk (code : Int) : Prop := 100 ≤ code ∧ code ≤ 999

/-- A ResponseWriter; `Fresh` holds if nothing has been sent, `Inv` always; it accepts the statuses of `C`, once. -/
structure ClientWithin (P : Panic → Prop) (H : Prop) (C : Int → Prop) (Fresh Inv : ω → Prop) (D : RW ω) : Prop where
  fresh : ∀ w, Fresh w → Inv w
  setHeader : ∀ w k v, (Fresh w → Fresh (D.setHeader w k v)) ∧ (Inv w → Inv (D.setHeader w k v))
  push : D.isPusher = true → ∀ w url, Inv w →
    Within P H (fun _ => Inv (D.push w url).1 ∧ (Fresh w → Fresh (D.push w url).1)) (D.push w url).2
  writeHeader : ∀ w code, Fresh w → C code → Within P H (fun _ => Inv (D.writeHeader w code).1) (D.writeHeader w code).2
  write : ∀ w d, Inv w → Within P H (fun a => 0 ≤ a.1 ∧ a.1 ≤ d.length ∧ Inv (D.write w d).1) (D.write w d).2
  flush : D.isFlusher = true → ∀ w, Inv w → Within P H (fun _ => Inv (D.flush w).1) (D.flush w).2
  readFrom : D.isReaderFrom = true → ∀ w, Inv w → RFWithin P H Inv (D.readFrom w)

end Verif.Spec
