import Verif.Model.Mock
import Verif.Model.Quote
import Verif.Model.Strconv

/-!
# Model of the texts of `/repo/internal/mockreader`

`Expectation.StringTo`, `GoStringTo` and what they use (`op.go`, `util.go`), and the message of `ExpectationFailedError` (`errors.go`).
The buffer pool is left out: `String` and `GoString` return what is written to a fresh buffer (`Get` returns an empty one).
`fmt.Sprintf("%T[%+v]", x, x)` for errors and FileInfos is a parameter (`TextEnv`), and so is `strconv.IsPrint`.
-/

set_option autoImplicit false

namespace Verif

/-- What is outside of the repository. -/
structure TextEnv where
  isPrint : Nat → Bool
  fileInfo : FileInfo → GoStr
  err : Err → GoStr

/-- `"∅"`. -/
def emptySign : GoStr := [0xE2, 0x88, 0x85]

/-- `Op.GoString` (`op.go:31-33`), by the table at `op.go:21-29`. -/
def MockOp.goString : MockOp → GoStr
  | .unknown => lit "UnknownOp"
  | .mark => lit "MarkOp"
  | .stat => lit "StatOp"
  | .read => lit "ReadOp"
  | .readAt => lit "ReadAtOp"
  | .seek => lit "SeekOp"
  | .close => lit "CloseOp"

/-- `Op.String` (`op.go:35-37`). -/
def MockOp.string : MockOp → GoStr
  | .unknown => lit "<unknown>"
  | .mark => lit "Mark"
  | .stat => lit "Stat"
  | .read => lit "Read"
  | .readAt => lit "ReadAt"
  | .seek => lit "Seek"
  | .close => lit "Close"

/-- `whenceString` (`util.go:18-29`). -/
def whenceString (whence : Int) : GoStr :=
  if whence = 0 then lit "io.SeekStart"
  else if whence = 1 then lit "io.SeekCurrent"
  else if whence = 2 then lit "io.SeekEnd"
  else itoa whence

/-- `formatAny` (`util.go:39-44`), of a value that may be nil. -/
def formatAny {α : Type} (text : α → GoStr) : Option α → GoStr
  | none => lit "nil"
  | some a => text a

/-- `formatBytesTo` (`util.go:46-55`); `%#02x` of a byte is `0x` and two digits. -/
def formatBytes (p : List Byte) : GoStr :=
  lit "[" ++ (p.mapIdx fun i ch => (if i > 0 then lit "," else []) ++ (lit "0x" ++ [lowerHex (ch.toNat / 16), lowerHex (ch.toNat % 16)])).flatten ++ lit "]"

namespace Expectation

/-- `GoStringTo` (`mockreader.go:96-152`): the text, without the output part and the closing brace. -/
def goStringHead (E : TextEnv) (x : Expectation) : GoStr :=
  lit "Expectation{" ++ x.op.goString ++ lit " | " ++
    match x.op with
    | .mark => quote E.isPrint x.input3
    | .stat => emptySign
    | .read => formatBytes (x.input0.take x.input0.len)
    | .readAt => formatBytes (x.input0.take x.input0.len) ++ lit ", " ++ itoa x.input1
    | .seek => itoa x.input1 ++ lit ", " ++ itoa x.input2
    | .close => emptySign
    | .unknown => []

/-- The local `tail` in `GoStringTo` and `StringTo`. -/
def tail (x : Expectation) : Nat :=
  match x.op with
  | .mark => 0
  | .stat => 3
  | .read => 2
  | .readAt => 2
  | .seek => 2
  | .close => 1
  | .unknown => 0

/-- The outputs, as far as they are shown. -/
def outputs (E : TextEnv) (x : Expectation) (nothing : GoStr) : GoStr :=
  match x.tail with
  | 0 => nothing
  | 1 => formatAny E.err x.output2
  | 2 => itoa x.output0 ++ lit ", " ++ formatAny E.err x.output2
  | _ => formatAny E.fileInfo x.output1 ++ lit ", " ++ formatAny E.err x.output2

/-- `GoString` (`mockreader.go:225-231`). -/
def goString (E : TextEnv) (x : Expectation) : GoStr :=
  x.goStringHead E ++ (if x.hasOutput then lit " | " ++ x.outputs E (emptySign) else []) ++ lit "}"

/-- `StringTo` (`mockreader.go:154-223`): the call. -/
def callString (E : TextEnv) (x : Expectation) : GoStr :=
  match x.op with
  | .mark => lit "Mark(" ++ quote E.isPrint x.input3 ++ lit ")"
  | .stat => lit "Stat()"
  | .read => lit "Read([" ++ itoa x.input0.len ++ lit " bytes])"
  | .readAt => lit "ReadAt([" ++ itoa x.input0.len ++ lit " bytes], " ++ itoa x.input1 ++ lit ")"
  | .seek => lit "Seek(" ++ itoa x.input1 ++ lit ", " ++ whenceString x.input2 ++ lit ")"
  | .close => lit "Close()"
  | .unknown => lit "Nothing"

/-- `String` (`mockreader.go:233-239`). -/
def string (E : TextEnv) (x : Expectation) : GoStr :=
  x.callString E ++ (if x.hasOutput then lit " => (" ++ x.outputs E [] ++ lit ")" else [])

end Expectation

/-- `ExpectationFailedError.Error` (`errors.go:13-15`); the quotes are `«` and `»`. -/
def failedText (E : TextEnv) (index : Nat) (expect actual : Expectation) : GoStr :=
  lit "MockReader expectation #" ++ itoa index ++ lit " failed: expected " ++ [0xC2, 0xAB] ++ expect.string E ++ [0xC2, 0xBB] ++ lit "; got " ++
    [0xC2, 0xAB] ++ actual.string E ++ [0xC2, 0xBB]

end Verif
