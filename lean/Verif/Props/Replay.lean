import Verif.Model.Construct
import Verif.Props.Mock

/-!
# The tests of this repository, replayed on the model

These are tests of the *model*, not proofs of properties: the calls and scripts of `/repo/body/*_test.go`, run on the model of the
bodies over the model of `mockreader`.
-/

set_option autoImplicit false

namespace Verif.Replay
open Verif Spec

/-- The byte slice with these bytes. -/
def buf (l : List Byte) : Buf := { len := l.length, at_ := fun i => l[i]?.getD 0 }

/-- `make([]byte, len)` with these bytes at its front. -/
def bufOf (len : Nat) (l : List Byte) : Buf := { len := len, at_ := fun i => l[i]?.getD 0 }

/-- A line of a script that can be written. -/
def line (e : Res Expectation) : Expectation := match e with | .ret e => e | _ => {}

/-- `ExpectRead`, `ExpectReadAt` of as many bytes as are given, and no error. -/
def eRead (l : List Byte) : Expectation := line (Expectation.read (buf l) l.length none)
def eReadAt (l : List Byte) (off : Int) : Expectation := line (Expectation.readAt (buf l) off l.length none)
def eSeek (off : Int) : Expectation := .seek off 0 off none
def eMark (s : String) : Expectation := .mark (lit s)

/-- A step of a test: a mark on the MockReader, or a call on the Body and what it must return. -/
inductive TStep where
  | mark (s : String)
  | call (op : Op) (out : Out)

/-- Put a Reader in another state. -/
def setRdr {σ : Type} (st : σ) : ReaderFam σ → ReaderFam σ
  | .readerAt s => .readerAt { s with common := { s.common with rdr := st } }
  | .seeker s => .seeker { s with common := { s.common with rdr := st } }
  | .buffered s => .buffered { s with common := { s.common with rdr := st } }

/-- Run a test over a MockReader: did every step go as expected? -/
def goes (R : Rdr MockPtr) : ReaderFam MockPtr → List TStep → ReaderFam MockPtr × Bool
  | f, [] => (f, true)
  | f, .mark s :: t =>
    let r := f.rdr.mark (lit s)
    match r.2 with
    | .ok _ => goes R (setRdr r.1 f) t
    | _ => (f, false)
  | f, .call op out :: t =>
    let r := f.step R 10 op
    if r.2 = out then goes R r.1 t else (r.1, false)

/-- The whole test: `FromReader` succeeds, every step goes as expected, and the script is used up. -/
def passes (R : Rdr MockPtr) (script : List Expectation) (steps : List TStep) : Bool :=
  match (fromReaderAndLength R (some (Mock.new script)) (-1)).2 with
  | .ret (.ok f) =>
    let r := goes R f steps
    r.2 && (match r.1.rdr with | some m => decide (m.index = script.length) | none => false)
  | _ => false

/-- Run a test over an in-memory Body. -/
def memGoes (f : MemFam) : List TStep → Bool
  | [] => true
  | .mark _ :: t => memGoes f t
  | .call op out :: t =>
    let r := f.step op
    decide (r.2 = out) && memGoes r.1 t

/-! ## Steps (`/repo/body/util_test.go`) -/

def rd (k : Nat) (d : List Byte) (e : Option Err := none) : TStep := .call (.read 0 k) (.read d e)
def at_ (k : Nat) (off : Int) (d : List Byte) (e : Option Err := none) : TStep := .call (.readAt 0 k off) (.read d e)
def sk (off wh n : Int) (e : Option Err := none) : TStep := .call (.seek 0 off wh) (.seek n e)
def rem (n : Int) : TStep := .call (.remaining 0) (.remaining n)

/-- `runShortBodyReadTests` (`util_test.go:315-471`). -/
def shortRead (length : Int) : List TStep :=
  [.mark "Read-Begin", rem length, rd 0 [], rd 1 [97], rd 1 [98], rd 1 [99], rd 1 [100], rem 0, rd 0 [], rd 1 [] (some .eof), rem 0,
    rd 0 [] (some .eof), .mark "Read-End"]

/-- `runShortBodySeekTests` (`util_test.go:473-606`). -/
def shortSeek : List TStep :=
  [.mark "Seek-Begin", sk 0 0 0, rd 1 [97], sk 2 1 3, sk (-2) 1 1, sk (-2) 2 2, rd 4 [99, 100] (some .eof), sk 0 42 (-1) (some (.unknownWhence 42)),
    sk (-5) 0 (-1) (some (.negStart (-5))), sk (-7) 2 (-1) (some (.negComputed (-3))), sk 42 2 4, .mark "Seek-End"]

/-- `runShortBodyReadAtTests` (`util_test.go:608-689`). -/
def shortReadAt : List TStep :=
  [.mark "ReadAt-Begin", at_ 1 0 [97], at_ 0 4 [], at_ 1 4 [] (some .eof), at_ 4 2 [99, 100] (some .eof), .mark "ReadAt-End"]

/-- `runEmptyBodyReadTests`, `runEmptyBodySeekTests`, `runEmptyBodyReadAtTests` (`util_test.go:76-313`). -/
def emptySteps : List TStep :=
  [.mark "Read-Begin", rem 0, rd 0 [], rd 1 [] (some .eof), rem 0, rd 0 [] (some .eof), .mark "Read-End",
    .mark "Seek-Begin", sk 0 0 0, rd 0 [], sk 0 1 0, sk 0 2 0, sk 2 0 0, sk 2 1 0, sk 2 2 0, sk 0 42 (-1) (some (.unknownWhence 42)),
    sk (-5) 0 (-1) (some (.negStart (-5))), sk (-6) 1 (-1) (some (.negComputed (-6))), sk (-7) 2 (-1) (some (.negComputed (-7))), .mark "Seek-End",
    .mark "ReadAt-Begin", at_ 0 0 [], at_ 1 0 [] (some .eof), .mark "ReadAt-End"]

/-- `runBodyCloseTests` (`util_test.go:691-701`). -/
def closing : List TStep := [.mark "Close-Begin", .call (.close 0) (.closed none), .mark "Close-End"]

/-- `runBodyAfterCloseTests` (`util_test.go:703-757`); `pos`: the Body is a ReaderAt and a Seeker. -/
def afterClose (pos : Bool) : List TStep :=
  [.mark "AfterClose-Begin", rem 0, rd 0 [] (some .closed)] ++
    (if pos then [at_ 0 0 [] (some .closed), sk 0 0 (-1) (some .closed)] else []) ++
    [.call (.close 0) (.closed (some .closed)), .mark "AfterClose-End"]

/-- `runShortBodyTests` (`util_test.go:62-74`), for a Body that is a ReaderAt and a Seeker, or neither. -/
def short (pos : Bool) (length : Int := 4) : List TStep :=
  [.mark "ShortBody-Begin"] ++ shortRead length ++ (if pos then shortSeek ++ shortReadAt else []) ++ closing ++ afterClose pos ++ [.mark "ShortBody-End"]

def empty : List TStep := [.mark "EmptyBody-Begin"] ++ emptySteps ++ closing ++ afterClose true ++ [.mark "EmptyBody-End"]

/-! ## Scripts -/

def fi : FileInfo := { name := lit "input.txt", size := 4, mode := 0o444 }

/-- The script of the tests in `/repo/body/readerat_test.go` after the measuring. -/
def atScript : List Expectation :=
  [eMark "ShortBody-Begin", eMark "Read-Begin", eReadAt [] 0, eReadAt [97] 0, eReadAt [98] 1, eReadAt [99] 2, eReadAt [100] 3, eMark "Read-End",
    eMark "Seek-Begin", eReadAt [97] 0, eReadAt [99, 100] 2, eMark "Seek-End", eMark "ReadAt-Begin", eReadAt [97] 0, eReadAt [99, 100] 2,
    eMark "ReadAt-End", eMark "Close-Begin", .close none, eMark "Close-End", eMark "AfterClose-Begin", eMark "AfterClose-End", eMark "ShortBody-End"]

/-- The script of the tests in `/repo/body/seeker_test.go` after the measuring. -/
def seekScript : List Expectation :=
  [eMark "ShortBody-Begin", eMark "Read-Begin", eSeek 0, eRead [], eSeek 0, eRead [97], eSeek 1, eRead [98], eSeek 2, eRead [99], eSeek 3, eRead [100],
    eMark "Read-End", eMark "Seek-Begin", eSeek 0, eRead [97], eSeek 2, eRead [99, 100], eMark "Seek-End", eMark "ReadAt-Begin", eSeek 0, eRead [97],
    eSeek 2, eRead [99, 100], eMark "ReadAt-End", eMark "Close-Begin", .close none, eMark "Close-End", eMark "AfterClose-Begin",
    eMark "AfterClose-End", eMark "ShortBody-End"]

/-- The script of the tests in `/repo/body/buffered_test.go` after the measuring; `e` is the one `Read`. -/
def bufScript (e : Res Expectation) : List Expectation :=
  [eMark "ShortBody-Begin", eMark "Read-Begin", line e, eMark "Read-End", eMark "Close-Begin", .close none, eMark "Close-End",
    eMark "AfterClose-Begin", eMark "AfterClose-End", eMark "ShortBody-End"]

def measured : List Expectation := [.seek 0 2 4 none, .seek 0 0 0 none]

/-- `TestReaderAtBody_WithSeekAndStat`, `_WithSeekNoStat`, `_WithStatNoSeek` (`readerat_test.go:10-139`). -/
example : passes (wrapper true true true) (.stat (some fi) none :: atScript) (short true) = true := by decide +kernel
example : passes (wrapper false true true) (measured ++ atScript) (short true) = true := by decide +kernel
example : passes (wrapper true false true) (.stat (some fi) none :: atScript) (short true) = true := by decide +kernel

/-- `TestSeekerBody_WithStat`, `_NoStat` (`seeker_test.go:10-108`). -/
example : passes (wrapper true true false) (.stat (some fi) none :: seekScript) (short true) = true := by decide +kernel
example : passes (wrapper false true false) (measured ++ seekScript) (short true) = true := by decide +kernel

/-- `TestBufferedBody_WithStatNoReadAtNoSeek`, `_WithReadAtNoSeekNoStat`, `_NoReadAtNoSeekNoStat` (`buffered_test.go:10-106`). -/
example : passes (wrapper true false false) (.stat (some fi) none :: bufScript (Expectation.read (buf [97, 98, 99, 100]) 4 none)) (short false) = true := by
  decide +kernel
example : passes (wrapper false false true) (bufScript (Expectation.read (bufOf 65536 [97, 98, 99, 100]) 4 (some .eof))) (short false (-1)) = true := by
  decide +kernel
example : passes (wrapper false false false) (bufScript (Expectation.read (bufOf 65536 [97, 98, 99, 100]) 4 (some .eof))) (short false (-1)) = true := by
  decide +kernel

/-- `TestBytesBody` (`bytes_test.go`), `TestEmptyBody` (`empty_test.go`), `TestClosedBody` (`closed_test.go`). -/
example : memGoes (fromBytes []) empty = true := by decide +kernel
example : memGoes (fromBytes [97, 98, 99, 100]) (short true) = true := by decide +kernel
example : memGoes emptyFam empty = true := by decide +kernel
example : ((afterClose true).all fun | .mark _ => true | .call op out => decide ((ClosedBody.step {} op).2 = out)) = true := by decide +kernel

/-- `TestFromPrettyJSON` (`body_test.go`): what `json.Encoder` makes of `[]int{1, 2, 3}` is given here. -/
example : fromPrettyJSON (fun pretty => .ok (if pretty then lit "[\n  1,\n  2,\n  3\n]\n" else lit "[1,2,3]\n")) =
    .ret (fromBytes (lit "[\r\n  1,\r\n  2,\r\n  3\r\n]\r\n")) := by decide +kernel

/-- The replay does tell: with another script the tests fail. -/
example : passes (wrapper true true true) (.stat (some fi) none :: seekScript) (short true) = false := by decide +kernel

/-- A line that was not made by `ExpectRead` and promises more than fits: the slice expression in the mock panics, and so the caller. -/
example : ((wrapper true true true).read (some ⟨[{ op := .read, input0 := { len := 2 }, output0 := 3, hasOutput := true }], 0⟩) 2).2 = .panics .bounds := by
  rfl

end Verif.Replay
