import Verif.Basic

/-! # `strconv.Itoa` and `strconv.FormatInt(…, 10)`

Used at `/repo/handler/adaptor.go:82`, `/repo/response/builder.go:349`, `/repo/response/pagegen.go:28, 36, 43`.  Go's library
function is modelled by what it computes, the decimal representation; its code is not followed. -/

set_option autoImplicit false

namespace Verif

/-- The decimal digits of `n`, most significant first; `fuel > n` is enough. -/
def digits : Nat → Nat → GoStr
  | 0, _ => []
  | fuel + 1, n => if n < 10 then [(48 + n).toUInt8] else digits fuel (n / 10) ++ [(48 + n % 10).toUInt8]

/-- `strconv.Itoa(i)`, `strconv.FormatInt(i, 10)`. -/
def itoa (i : Int) : GoStr := if i < 0 then 45 :: digits (i.natAbs + 1) i.natAbs else digits (i.natAbs + 1) i.natAbs

end Verif
