import Verif.Spec.Describe

/-! # Reading the text of a PanicError -/

set_option autoImplicit false

namespace Verif.Spec

/-- The parts of a string before and after the first colon, which is followed by a blank. -/
def atColon (s : GoStr) : Option (GoStr × GoStr) := (afterPrefix (lit ": ") (s.dropWhile (· ≠ 58))).map fun r => (s.takeWhile (· ≠ 58), r)

/-- What a PanicError says: the type and the text of the value. -/
def readPanicText (s : GoStr) : Option (GoStr × GoStr) := (afterPrefix (lit "panic called with value of type ") s).bind atColon

/-- A value of one of the types with one text for each value. -/
inductive Plain where
  | nil
  | bool (b : Bool)
  | int (i : Int)
  | str (s : GoStr)
deriving DecidableEq

/-- What value it is. -/
def readPanic (s : GoStr) : Option Plain :=
  (readPanicText s).bind fun x =>
    if x.1 = lit "<nil>" then some .nil
    else if x.1 = lit "bool" then (if x.2 = lit "true" then some (.bool true) else if x.2 = lit "false" then some (.bool false) else none)
    else if x.1 = lit "int" then (decimal x.2).map .int
    else if x.1 = lit "string" then some (.str x.2)
    else none

end Verif.Spec
