import Verif.Model.Strconv

/-!
# The text of a PanicError

`PanicError.Error` (`/repo/handler/onpanic.go:11-13`) is `fmt.Sprintf("panic called with value of type %T: %+v", v, v)`.  Modelled are the panic values that programs
use: nil, strings, booleans, integers, slices of strings, and, for any other type, the name of the type and what `fmt` makes of the value.
-/

set_option autoImplicit false

namespace Verif

/-- The argument of `panic`. -/
inductive PanicVal where
  | nil
  | bool (b : Bool)
  | int (i : Int)
  | str (s : GoStr)
  | strs (l : List GoStr)
  /-- the name of its type, and its text -/
  | other (type text : GoStr)
deriving DecidableEq

/-- `%T`. -/
def PanicVal.typeName : PanicVal → GoStr
  | .nil => lit "<nil>"
  | .bool _ => lit "bool"
  | .int _ => lit "int"
  | .str _ => lit "string"
  | .strs _ => lit "[]string"
  | .other t _ => t

/-- The elements of a slice, with blanks between them. -/
def joined : List GoStr → GoStr
  | [] => []
  | [s] => s
  | s :: l => s ++ lit " " ++ joined l

/-- `%+v`. -/
def PanicVal.plusV : PanicVal → GoStr
  | .nil => lit "<nil>"
  | .bool b => if b then lit "true" else lit "false"
  | .int i => itoa i
  | .str s => s
  | .strs l => lit "[" ++ joined l ++ lit "]"
  | .other _ s => s

/-- `PanicError.Error` (`/repo/handler/onpanic.go:11-13`). -/
def panicText (v : PanicVal) : GoStr := lit "panic called with value of type " ++ v.typeName ++ lit ": " ++ v.plusV

end Verif
