import Verif.Spec.Success

/-!
# What the functions of the standard library may expect of a Body

Nothing here mentions these functions or the Bodies.
-/

set_option autoImplicit false

namespace Verif.Spec
variable {β S : Type}

/-- In states satisfying `P b C` it is going to deliver exactly `C`, with buffers of up to `K` bytes: every `Read` returns, with some bytes or with the
error that ends it, which comes after the last byte (or with it).  `E` are the errors that may end it. -/
structure Source (B : BodyOps β) (P : β → List Byte → Prop) (K : Nat) (E : Err → Prop) : Prop where
  read : ∀ b C k, 0 < k → k ≤ K → P b C → ∃ b' d er C', B.read b k = (b', .ret (d, er)) ∧ d.length ≤ k ∧ C = d ++ C' ∧ P b' C' ∧
    (er = none ∧ d ≠ [] ∨ ∃ e, er = some e ∧ E e ∧ C' = [])

/-- Body `h` of a family can be positioned: `P s C` says that it is going to deliver `C`, and then it is a Body with the content `data`. -/
structure Seeks (step : S → Op → S × Out) (h : Nat) (P : S → List Byte → Prop) (data : List Byte) : Prop where
  start : ∀ s C (off : Int), P s C → 0 ≤ off → off < 2 ^ 63 →
    ∃ s', step s (.seek h off 0) = (s', .seek (min off.toNat data.length : Nat) none) ∧ P s' (data.drop off.toNat)
  fin : ∀ s C, P s C → ∃ s', step s (.seek h 0 2) = (s', .seek data.length none) ∧ P s' []

/-- `ReadAt` of Body `h` reads `data`, in all states satisfying `I`. -/
structure ReadsAt (step : S → Op → S × Out) (h : Nat) (I : S → Prop) (data : List Byte) : Prop where
  readAt : ∀ s k (off : Int), I s → k < 2 ^ 62 → 0 ≤ off → off < 2 ^ 63 → ∃ s' e,
    step s (.readAt h k off) = (s', .read ((data.drop off.toNat).take k) e) ∧ I s' ∧
    (((data.drop off.toNat).take k).length < k → e = some .eof) ∧ (off.toNat + k < data.length → e = none) ∧ (e = none ∨ e = some .eof)

/-- What `n` and its rest have in common with the content of a `LimitReader`: it is going to deliver `C`, and then `R` is left. -/
def UpToLimit (P : β → List Byte → Prop) (R : List Byte) (s : β × Int) (C : List Byte) : Prop :=
  P s.1 (C ++ R) ∧ (s.2 = C.length ∨ C.length < s.2 ∧ R = [])

/-- Several of them, one after the other. -/
inductive InTurn (P : β → List Byte → Prop) : List β → List Byte → Prop
  | nil : InTurn P [] []
  | cons (b : β) (bs : List β) (C D : List Byte) : P b C → InTurn P bs D → InTurn P (b :: bs) (C ++ D)

/-- A position in a section of `data` that ends at `limit`. -/
def InSection (I : S → Prop) (data : List Byte) (limit : Int) (s : S × Int) (C : List Byte) : Prop :=
  I s.1 ∧ 0 ≤ s.2 ∧ C = (data.drop s.2.toNat).take (limit - s.2).toNat

end Verif.Spec
