import Verif.Spec.Delivery
import Verif.Spec.Positional

/-!
# When the source of a Body fails in the middle

Nothing here mentions the model of the Bodies, of the Writer, of `Serve` or of the Adaptor.
-/

set_option autoImplicit false

namespace Verif.Spec
variable {β σ : Type}

/-- A Body without `WriteTo` that in states satisfying `P b C` is going to deliver exactly `C`, with buffers of up to `K` bytes, and then fails with `e`. -/
structure Failing (B : BodyOps β) (P : β → List Byte → Prop) (K : Nat) (e : Err) : Prop where
  real : e ≠ .eof
  plain : B.isWriterTo = false
  read : ∀ b C k, 0 < k → k ≤ K → P b C → ∃ b' d er C', B.read b k = (b', .ret (d, er)) ∧ d.length ≤ k ∧ C = d ++ C' ∧ P b' C' ∧
    (er = none ∧ d ≠ [] ∨ er = some e ∧ C' = [])
  close : ∀ b C, P b C → ∃ r, (B.close b).2 = .ret r

/-- What a client sees that has no reason to doubt that the response is whole: a message that can be read to its end, and a connection that was not
cut (`net/http` cuts it when `ServeHTTP` panics). -/
def SeemsWhole (x : NetW × List MEv × Res Unit) : Prop := Framed x.1 ∧ x.2.2 = .ret ()

/-- An `io.ReaderAt` that can be read up to the end of `F`, and fails with `e` beyond it. -/
structure BreaksAt (R : Rdr σ) (F : List Byte) (e : Err) (Inv : σ → Prop) : Prop where
  readAt : ∀ st x (off : Int), Inv st → 0 ≤ off → off < 2 ^ 63 → ∃ st' er,
    R.readAt st x off = (st', .got ((F.drop off.toNat).take x) er) ∧ Inv st' ∧
    (((F.drop off.toNat).take x).length < x → er = some e) ∧ (off.toNat + x < F.length → er = none) ∧ (er = none ∨ er = some e)
  close : R.isCloser = true → ∀ st, ∃ r, (R.close st).2 = .ok r

/-- An `io.ReadSeeker` that can be read up to the end of `F`, and fails with `e` beyond it.  `At st p`: it stands at `p`. -/
structure BreaksSeeking (R : Rdr σ) (F : List Byte) (e : Err) (At : σ → Nat → Prop) : Prop where
  seek : ∀ st p (off : Int), At st p → 0 ≤ off → off < 2 ^ 63 → ∃ st' n, R.seek st off 0 = (st', .ok (n, none)) ∧ At st' off.toNat
  read : ∀ st p x, At st p → ∃ st' er, R.read st x = (st', .got ((F.drop p).take x) er) ∧ (∃ p', At st' p') ∧
    (((F.drop p).take x).length < x → er = some e) ∧ (p + x < F.length → er = none) ∧ (er = none ∨ er = some e)
  close : R.isCloser = true → ∀ st, ∃ r, (R.close st).2 = .ok r

end Verif.Spec
