import Verif.Spec.Positional

/-!
# What Bodies need of their Readers, and no more

A Body of length `n` over an `io.ReaderAt` or an `io.ReadSeeker` asks for one range after the other: `x` bytes from position `p`, always inside the
first `n`.  Nothing here mentions the model of these Bodies.
-/

set_option autoImplicit false

namespace Verif.Spec
variable {σ : Type}

/-- The ranges (position, number of bytes) lie inside `n` bytes; none begins at the end. -/
def Inside (n : Nat) (l : List (Nat × Nat)) : Prop := ∀ q ∈ l, q.1 < n ∧ q.1 + q.2 ≤ n

/-- `ReadAt`, asked for one range after the other, delivers what `F` has there, in full and without an error, except that `io.EOF` may come with the last
bytes of `F`. -/
def AtDelivers (R : Rdr σ) (F : List Byte) : σ → List (Nat × Nat) → Prop
  | _, [] => True
  | st, (p, x) :: l =>
    (∃ e, (R.readAt st x p).2 = .got ((F.drop p).take x) e ∧ (e = none ∨ (e = some .eof ∧ p + x = F.length))) ∧
    AtDelivers R F (R.readAt st x p).1 l

/-- The same for a `Seek` to the start of each range, and a `Read`. -/
def SeekDelivers (R : Rdr σ) (F : List Byte) : σ → List (Nat × Nat) → Prop
  | _, [] => True
  | st, (p, x) :: l =>
    (∃ m, (R.seek st p 0).2 = .ok (m, none)) ∧
    (∃ e, (R.read (R.seek st p 0).1 x).2 = .got ((F.drop p).take x) e ∧ (e = none ∨ (e = some .eof ∧ p + x = F.length))) ∧
    SeekDelivers R F (R.read (R.seek st p 0).1 x).1 l

/-- Asked for one range after the other, the seeker does not return an error before the end, and whenever it is asked for all the rest, it delivers as
many bytes.  (It may well panic.) -/
def SeekLasts (R : Rdr σ) (n : Nat) : σ → List (Nat × Nat) → Prop
  | _, [] => True
  | st, (p, x) :: l =>
    match R.seek st p 0 with
    | (st', .panics _) => SeekLasts R n st' l
    | (_, .ok (_, some _)) => False
    | (st', .ok (_, none)) =>
      (∀ d e, (R.read st' x).2 = .got d e → d.length ≤ x → e ≠ none ∨ p + x = n → p + d.length = n) ∧ SeekLasts R n (R.read st' x).1 l

end Verif.Spec
