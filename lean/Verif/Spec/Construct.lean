import Verif.Spec.Observe

/-! # What is expected of the constructors

Nothing here mentions the model. -/

set_option autoImplicit false

namespace Verif.Spec

section
variable {S : Type} (step : S → Op → S × Out)

/-- After any calls, every Body of the family has the methods `ReadAt` and `Seek`. -/
def Positional (s : S) : Prop :=
  ∀ ops : List Op, ∀ h, Exists step (Verif.run step s ops).1 h → ∀ k off off' whence,
    (step (Verif.run step s ops).1 (.readAt h k off)).2 ≠ .unsupported ∧
    (step (Verif.run step s ops).1 (.seek h off' whence)).2 ≠ .unsupported

/-- After any calls, no Body of the family has the methods `ReadAt` or `Seek`. -/
def Streaming (s : S) : Prop :=
  ∀ ops : List Op, ∀ h k off off' whence,
    (step (Verif.run step s ops).1 (.readAt h k off)).2 = .unsupported ∧
    (step (Verif.run step s ops).1 (.seek h off' whence)).2 = .unsupported
end

/-- Every line feed becomes carriage return, line feed; nothing else changes. -/
def crlf (l : List Byte) : List Byte := l.flatMap fun ch => if ch = 10 then [13, 10] else [ch]

/-- The reverse: the carriage return before every line feed is removed. -/
def uncrlf : List Byte → List Byte
  | [] => []
  | 13 :: 10 :: l => 10 :: uncrlf l
  | c :: l => c :: uncrlf l

end Verif.Spec
