import Verif.Basic

/-! # Decimal numerals -/

set_option autoImplicit false

namespace Verif.Spec

/-- The value of a string of decimal digits. -/
def natValue : GoStr → Option Nat :=
  List.foldl (fun a b => a.bind fun a => if 48 ≤ b.toNat ∧ b.toNat ≤ 57 then some (10 * a + (b.toNat - 48)) else none) (some 0)

/-- The value of a decimal numeral: digits, at least one, perhaps after a minus sign. -/
def decimal : GoStr → Option Int
  | [] => none
  | 45 :: s => if s = [] then none else (natValue s).map fun n => -(n : Int)
  | s => (natValue s).map fun n => (n : Int)

end Verif.Spec
