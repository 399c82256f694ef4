/-!
# `float64`

Finite values are rational numbers; the result of an operation is the exact result, rounded (IEEE 754, to nearest, ties to even).  The range of the exponent is
not limited here: the values in question are 0 or between 10^-9 and 2^65, far from both ends of it.
-/

set_option autoImplicit false

namespace Verif

/-- The integer nearest to `q`; of two, the even one. -/
def roundEven (q : Rat) : Int :=
  let n := q.floor
  if q - n < 1 / 2 then n
  else if 1 / 2 < q - n then n + 1
  else if n % 2 = 0 then n
  else n + 1

/-- For `x > 0` the `e` with `2^e ≤ x < 2^(e+1)`. -/
def ilog2 (x : Rat) : Int :=
  let l : Int := (Nat.log2 x.num.toNat : Int) - Nat.log2 x.den
  if (2 : Rat) ^ l ≤ x then l else l - 1

/-- The `float64` nearest to `x ≥ 0`: 53 significant bits. -/
def f64 (x : Rat) : Rat :=
  if x = 0 then 0
  else
    let k := ilog2 x - 52
    roundEven (x / (2 : Rat) ^ k) * (2 : Rat) ^ k

end Verif
