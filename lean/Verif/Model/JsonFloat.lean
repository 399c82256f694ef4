import Verif.Model.Json

/-!
# Floating-point numbers in JSON

`floatEncoder` of `encoding/json` (Go 1.17, `encode.go`), and `fmtE` and `fmtF` of `strconv` (`ftoa.go`) without a precision.  `FromJSON` and `FromPrettyJSON`
(`/repo/body/body.go:158-171`) use it for floats in the value.  The search for the shortest decimal digits that read back as the number is not modelled: they are
given with the number (`digits`, `dp`), and what is assumed of them is in `Spec/JsonFloat.lean`.  The value of a float, without its sign, is a rational number.
-/

set_option autoImplicit false

namespace Verif.Json

/-- A finite number: its sign, its value without it, and the decimal digits that `strconv` finds for it, with the position of the point in (or before, or after) them. -/
structure Flt where
  neg : Bool := false
  abs : Rat
  digits : GoStr
  dp : Int

/-- `%f` (`strconv.fmtF`); the precision is `max(digs.nd-digs.dp, 0)`. -/
def fmtF (x : Flt) : GoStr :=
  let prec := (x.digits.length - x.dp).toNat
  (if x.neg then [45] else []) ++
  (if x.dp > 0 then x.digits.take x.dp.toNat ++ List.replicate (x.dp.toNat - x.digits.length) 48 else [48]) ++
  (if prec > 0 then
    46 :: (List.range prec).map fun (i : Nat) =>
      let j := x.dp + i
      if 0 ≤ j ∧ j < x.digits.length then x.digits.getD j.toNat 48 else 48
  else [])

/-- The digits of an exponent, at least two. -/
def expDigits (n : Nat) : GoStr :=
  if n < 10 then [48, (n + 48).toUInt8]
  else if n < 100 then [(n / 10 + 48).toUInt8, (n % 10 + 48).toUInt8]
  else [(n / 100 + 48).toUInt8, (n / 10 % 10 + 48).toUInt8, (n % 10 + 48).toUInt8]

/-- `%e` (`strconv.fmtE`); the precision is `digs.nd-1`. -/
def fmtE (x : Flt) : GoStr :=
  let exp := if x.digits.length = 0 then 0 else x.dp - 1
  (if x.neg then [45] else []) ++ [x.digits.headD 48] ++ (if x.digits.length > 1 then 46 :: x.digits.drop 1 else []) ++
  101 :: (if exp < 0 then 45 else 43) :: expDigits exp.natAbs

/-- "clean up e-09 to e-9" -/
def cleanExp (b : GoStr) : GoStr :=
  let n := b.length
  if n ≥ 4 ∧ b.getD (n - 4) 0 = 101 ∧ b.getD (n - 3) 0 = 45 ∧ b.getD (n - 2) 0 = 48 then b.take (n - 2) ++ [b.getD (n - 1) 0] else b

/-- `floatEncoder.encode` for a finite number; `rnd` makes a `float64` (or `float32`) of a constant. -/
def floatText (rnd : Rat → Rat) (x : Flt) : GoStr :=
  if x.abs ≠ 0 ∧ (x.abs < rnd (1 / 10 ^ 6) ∨ x.abs ≥ rnd (10 ^ 21)) then cleanExp (fmtE x) else fmtF x

/-- A `float64` (or `float32`). -/
inductive GoFloat where
  | finite (x : Flt)
  /-- not a number, or infinite -/
  | special

/-- `UnsupportedValueError` -/
def unsupportedValue : Err := .ext 1

/-- A float as part of a value: as the number with that text, and without one it cannot be encoded. -/
def ofFloat (rnd : Rat → Rat) : GoFloat → JVal
  | .finite x => .number (floatText rnd x)
  | .special => .bad unsupportedValue

end Verif.Json
