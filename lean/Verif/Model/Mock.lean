import Verif.Model.Reader

/-!
# Model of `/repo/internal/mockreader`

The scripted Reader used by the tests of this repository.  Simplifications: the mutex (one call is one
atomic step; see `Model/MockConc.lean`);
the content of a caller's buffer before the call is not represented (it is not looked at).  The texts of expectations
(`GoStringTo`, `StringTo`, `op.go`, and the message of `ExpectationFailedError`) are in `Model/MockText.lean`.
-/

set_option autoImplicit false

namespace Verif

/-- A `[]byte`: its length and its bytes.  (A list would do, but some scripts have buffers of 65536 bytes.) -/
structure Buf where
  len : Nat := 0
  at_ : Nat → Byte := fun _ => 0

/-- The first `n` bytes. -/
def Buf.take (p : Buf) (n : Nat) : List Byte := (List.range n).map p.at_

/-- `FileInfo` (`/repo/internal/mockreader/fileinfo.go:8-13`). -/
structure FileInfo where
  name : GoStr := []
  size : Int := 0
  mode : UInt32 := 0
  modTime : Int := 0
deriving DecidableEq, Repr

/-- `FileInfo.IsDir` (`/repo/internal/mockreader/fileinfo.go:31-33`): `fs.ModeDir` is the highest bit. -/
def FileInfo.isDir (fi : FileInfo) : Bool := fi.mode &&& 0x80000000 != 0

/-- `/repo/internal/mockreader/op.go:9-19`. -/
inductive MockOp where
  | unknown | mark | stat | read | readAt | seek | close
deriving DecidableEq, Repr

/-- `Expectation` (`/repo/internal/mockreader/mockreader.go:15-25`).  The zero value is the default. -/
structure Expectation where
  op : MockOp := .unknown
  input0 : Buf := {}
  input1 : Int := 0
  input2 : Int := 0
  input3 : GoStr := []
  output0 : Int := 0
  output1 : Option FileInfo := none
  output2 : Option Err := none
  hasOutput : Bool := false

namespace Expectation

/-- `ExpectMark` (`mockreader.go:27-33`). -/
def mark (str : GoStr) : Expectation := { op := .mark, input3 := str, hasOutput := true }

/-- `ExpectStat` (`mockreader.go:35-42`). -/
def stat (fi : Option FileInfo) (err : Option Err) : Expectation :=
  { op := .stat, output1 := fi, output2 := err, hasOutput := true }

/-- `ExpectRead` (`mockreader.go:44-54`). -/
def read (p : Buf) (n : Int) (err : Option Err) : Res Expectation :=
  if ¬ n ≥ 0 then .panic .badArg
  else if ¬ n ≤ p.len then .panic .badArg
  else .ret { op := .read, input0 := p, output0 := n, output2 := err, hasOutput := true }

/-- `ExpectReadAt` (`mockreader.go:56-67`). -/
def readAt (p : Buf) (offset n : Int) (err : Option Err) : Res Expectation :=
  if ¬ n ≥ 0 then .panic .badArg
  else if ¬ n ≤ p.len then .panic .badArg
  else .ret { op := .readAt, input0 := p, input1 := offset, output0 := n, output2 := err, hasOutput := true }

/-- `ExpectSeek` (`mockreader.go:69-78`). -/
def seek (offset whence newOffset : Int) (err : Option Err) : Expectation :=
  { op := .seek, input1 := offset, input2 := whence, output0 := newOffset, output2 := err, hasOutput := true }

/-- `ExpectClose` (`mockreader.go:80-86`). -/
def close (err : Option Err) : Expectation := { op := .close, output2 := err, hasOutput := true }

/-- `Matches` (`mockreader.go:88-94`). -/
def isMatch (x y : Expectation) : Bool :=
  decide (x.op = y.op) && decide (x.input1 = y.input1) && decide (x.input2 = y.input2) &&
    decide (x.input3 = y.input3) && decide (x.input0.len = y.input0.len)

end Expectation

/-- `MockReader` (`mockreader.go:247-251`). -/
structure Mock where
  expect : List Expectation
  index : Nat := 0

/-- `New` (`mockreader.go:243-245`). -/
def Mock.new (list : List Expectation) : Mock := { expect := list }

/-- A `*MockReader`, which may be nil. -/
abbrev MockPtr := Option Mock

/-- How a call on a MockReader ended. -/
inductive MRes (α : Type) where
  | ok (a : α)
  /-- `panic(ExpectationFailedError{index, expect, actual})` -/
  | failed (index : Nat) (expect actual : Expectation)
  /-- slice bounds out of range -/
  | bounds

namespace MockPtr

/-- `next` (`mockreader.go:253-269`). -/
def next : MockPtr → MockPtr × Nat × Expectation
  | none => (none, 0, {})
  | some r =>
    let index := r.index
    let length := r.expect.length
    if index ≥ length then (some r, length, {})
    else (some { r with index := r.index + 1 }, index, r.expect[index]?.getD {})

/-- `Mark` (`mockreader.go:271-284`). -/
def mark (r : MockPtr) (str : GoStr) : MockPtr × MRes Unit :=
  match r with
  | none => (none, .ok ())
  | some r =>
    let q := next (some r)
    let actual : Expectation := { op := .mark, input3 := str }
    if !q.2.2.isMatch actual then (q.1, .failed q.2.1 q.2.2 actual)
    else (q.1, .ok ())

/-- `Stat` (`mockreader.go:286-298`). -/
def stat (r : MockPtr) : MockPtr × MRes (Option FileInfo × Option Err) :=
  let q := next r
  let actual : Expectation := { op := .stat }
  if !q.2.2.isMatch actual then (q.1, .failed q.2.1 q.2.2 actual)
  else (q.1, .ok (q.2.2.output1, q.2.2.output2))

/-- The end of `Read` and `ReadAt` (`mockreader.go:309-314`, `:326-331`): the count, what was copied to the front of `p`, and the error. -/
def deliver (expect : Expectation) (p : Buf) : MRes (Int × List Byte × Option Err) :=
  let n := expect.output0
  let err := expect.output2
  if n > 0 then
    if n ≤ p.len ∧ n ≤ expect.input0.len then .ok (n, expect.input0.take n.toNat, err) else .bounds
  else .ok (n, [], err)

/-- `Read` (`mockreader.go:300-315`), `len(p) = k`. -/
def read (r : MockPtr) (k : Nat) : MockPtr × MRes (Int × List Byte × Option Err) :=
  let q := next r
  let actual : Expectation := { op := .read, input0 := { len := k } }
  if !q.2.2.isMatch actual then (q.1, .failed q.2.1 q.2.2 actual)
  else (q.1, deliver q.2.2 { len := k })

/-- `ReadAt` (`mockreader.go:317-332`), `len(p) = k`. -/
def readAt (r : MockPtr) (k : Nat) (offset : Int) : MockPtr × MRes (Int × List Byte × Option Err) :=
  let q := next r
  let actual : Expectation := { op := .readAt, input0 := { len := k }, input1 := offset }
  if !q.2.2.isMatch actual then (q.1, .failed q.2.1 q.2.2 actual)
  else (q.1, deliver q.2.2 { len := k })

/-- `Seek` (`mockreader.go:334-346`). -/
def seek (r : MockPtr) (offset whence : Int) : MockPtr × MRes (Int × Option Err) :=
  let q := next r
  let actual : Expectation := { op := .seek, input1 := offset, input2 := whence }
  if !q.2.2.isMatch actual then (q.1, .failed q.2.1 q.2.2 actual)
  else (q.1, .ok (q.2.2.output0, q.2.2.output2))

/-- `Close` (`mockreader.go:348-359`). -/
def close (r : MockPtr) : MockPtr × MRes (Option Err) :=
  let q := next r
  let actual : Expectation := { op := .close }
  if !q.2.2.isMatch actual then (q.1, .failed q.2.1 q.2.2 actual)
  else (q.1, .ok q.2.2.output2)

end MockPtr

/-! ## As a Reader -/

/-- A panic of a MockReader, seen by its caller (`ExpectationFailedError` is an error). -/
def mockPanic (index : Nat) : Panic := .error (.ext index)

/-- A call of `Read`/`ReadAt`, seen by its caller. -/
def MRes.toRead : MRes (Int × List Byte × Option Err) → RResp
  | .ok (n, d, e) => if n < 0 then .negative else .got d e
  | .failed i _ _ => .panics (mockPanic i)
  | .bounds => .panics .bounds

/-- A call of another method, seen by its caller. -/
def MRes.toX {α : Type} : MRes α → XResp α
  | .ok a => .ok a
  | .failed i _ _ => .panics (mockPanic i)
  | .bounds => .panics .bounds

/-- A call of `Stat` followed by `Size()` on what it returned (if there was no error), as in `/repo/body/body.go:303-308`. -/
def MRes.toStat : MRes (Option FileInfo × Option Err) → XResp (Int × Option Err)
  | .ok (some fi, e) => .ok (fi.size, e)
  | .ok (none, some e) => .ok (0, some e)
  | .ok (none, none) => .panics .nilDeref
  | .failed i _ _ => .panics (mockPanic i)
  | .bounds => .panics .bounds

/-- `Wrapper000` … `Wrapper111` (`/repo/internal/mockreader/wrapper*.go`): the first digit is `Stat`, the second `Seek`, the third
`ReadAt`; all have `Read` and `Close`, and pass every call on to `Inner`. -/
def wrapper (stat seek readAt : Bool) : Rdr MockPtr where
  read s k := let r := s.read k; (r.1, r.2.toRead)
  readAt s k off := let r := s.readAt k off; (r.1, r.2.toRead)
  seek s off wh := let r := s.seek off wh; (r.1, r.2.toX)
  stat s := let r := s.stat; (r.1, r.2.toStat)
  close s := let r := s.close; (r.1, r.2.toX)
  isReaderAt := readAt
  isSeeker := seek
  isFile := stat
  isCloser := true

end Verif
