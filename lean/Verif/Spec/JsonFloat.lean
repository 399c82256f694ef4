import Verif.Model.JsonFloat

/-! # What is assumed of floating-point numbers and their digits, and how they are to be written -/

set_option autoImplicit false

namespace Verif.Spec.Json
open Verif.Json

/-- The number that digits stand for. -/
def _root_.Verif.Json.Flt.value (x : Flt) : Rat := (decimal (x.digits.map fun b => Char.ofNat b.toNat) : Rat) * (10 : Rat) ^ (x.dp - x.digits.length)

/-- The digits are those of the number: read by someone who rounds as `rnd` does they are the number again.  (`strconv` finds the shortest.) -/
structure Reads (rnd : Rat → Rat) (x : Flt) : Prop where
  digits : ∀ b ∈ x.digits, 48 ≤ b.toNat ∧ b.toNat ≤ 57
  /-- the first one is not zero -/
  first : x.digits.head? ≠ some 48
  /-- zero has no digits -/
  zero : x.digits = [] ↔ x.abs = 0
  zeroPoint : x.digits = [] → x.dp = 0
  /-- `float64` has exponents of up to three digits -/
  range : x.dp.natAbs < 999
  rounds : rnd x.value = x.abs

/-- No fewer digits are read as the number.  This is what `strconv` promises. -/
def Shortest (rnd : Rat → Rat) (x : Flt) : Prop :=
  Reads rnd x ∧ ∀ y : Flt, y.abs = x.abs → Reads rnd y → x.digits.length ≤ y.digits.length

/-- A finite `float64`, without its sign. -/
def Float64 (v : Rat) : Prop := ∃ (n : Nat) (k : Int), n < 2 ^ 53 ∧ (-1074 ≤ k ∧ k ≤ 971) ∧ v = n * (2 : Rat) ^ k

/-- Rounding keeps the order of numbers, and does not confound those that are far from each other. -/
structure Rounding (rnd : Rat → Rat) : Prop where
  mono : ∀ a b, 0 ≤ a → a ≤ b → rnd a ≤ rnd b
  apart : rnd (10 ^ 10) < rnd (10 ^ 21)

/-- Digits, a point and digits: no exponent. -/
def Plain (t : GoStr) : Prop := ∀ b ∈ t, b ≠ 101 ∧ b ≠ 69

/-- One digit, perhaps more after a point, and an exponent, which has a sign and no leading zero. -/
def Scientific (t : GoStr) : Prop :=
  ∃ a d e s n, t = a ++ [d] ++ e ++ [101, s] ++ n ∧ (a = [] ∨ a = [45]) ∧ (49 ≤ d.toNat ∧ d.toNat ≤ 57) ∧
    (e = [] ∨ ∃ f, f ≠ [] ∧ e = 46 :: f ∧ ∀ b ∈ f, 48 ≤ b.toNat ∧ b.toNat ≤ 57) ∧ (s = 43 ∨ s = 45) ∧
    n ≠ [] ∧ (∀ b ∈ n, 48 ≤ b.toNat ∧ b.toNat ≤ 57) ∧ n.head? ≠ some 48

end Verif.Spec.Json
