import Verif.Spec.Decimal

/-! # Reading the descriptions of Responses back -/

set_option autoImplicit false

namespace Verif.Spec

/-- The rest of a string that begins with `p`. -/
def afterPrefix (p s : GoStr) : Option GoStr := if p.isPrefixOf s then some (s.drop p.length) else none

/-- The parts of a string before, and from, the first blank. -/
def word (s : GoStr) : GoStr × GoStr := (s.takeWhile (· ≠ 32), s.dropWhile (· ≠ 32))

/-- Read `[HTTP <code> - <n> bytes]` or `[HTTP <code> - unknown length]`: the code, and the length if there is one. -/
def readDescription (s : GoStr) : Option (Int × Option Int) := do
  let s ← afterPrefix (lit "[HTTP ") s
  let code ← decimal (word s).1
  let s ← afterPrefix (lit " - ") (word s).2
  if s = lit "unknown length]" then some (code, none)
  else
    let n ← decimal (word s).1
    if (word s).2 = lit " bytes]" then some (code, some n) else none

end Verif.Spec
