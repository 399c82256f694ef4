import Verif.Model.Slices
import Verif.Model.Bytes

/-!
# Model of `/repo/body/bytes.go`, with slices

As `Model/Bytes.lean`, but `body.data` is a slice, which is the one that was passed to `FromBytes`, and `Read` and `ReadAt` are handed a slice.  A Writer does
not change what it is given.
-/

set_option autoImplicit false

namespace Verif

/-- `/repo/body/bytes.go:12-18`. -/
structure SBytesBody where
  data : BSlice
  offset : Int := 0
  eof : Bool := false
  closed : Bool := false
deriving DecidableEq, Repr

namespace SBytesBody

/-- `/repo/body/bytes.go:20-29`. -/
def bytesRemaining (b : SBytesBody) : Int :=
  if b.closed then 0 else b.data.len - b.offset

/-- `/repo/body/bytes.go:31-59`. -/
def read (m : BMem) (b : SBytesBody) (p : BSlice) : BMem × SBytesBody × MOut :=
  if b.closed then (m, b, .read 0 (some .closed))
  else if b.eof then (m, b, .read 0 (some .eof))
  else
    let avail : Int := b.data.len - b.offset
    let eof := decide ((p.len : Int) > avail)
    let n : Int := if eof then avail else p.len
    let err := if eof then some Err.eof else none
    let i := b.offset
    let j := i + n
    match p.sub 0 n, b.data.sub i j with
    | some dst, some src => (m.copy dst src, { b with offset := j, eof := eof }, .read n err)
    | _, _ => (m, b, .other (.panic .bounds))

/-- `/repo/body/bytes.go:61-74`. -/
def close (b : SBytesBody) : SBytesBody × Out :=
  if b.closed then (b, .closed (some .closed))
  else ({ data := .nil, offset := 0, eof := true, closed := true }, .closed none)

/-- `/repo/body/bytes.go:76-110`. -/
def seek (b : SBytesBody) (offset whence : Int) : SBytesBody × Out :=
  if b.closed then (b, .seek (-1) (some .closed))
  else
    let bodyLen : Int := b.data.len
    if whence = 0 ∧ offset < 0 then (b, .seek (-1) (some (.negStart offset)))
    else if whence ≠ 0 ∧ whence ≠ 1 ∧ whence ≠ 2 then
      (b, .seek (-1) (some (.unknownWhence whence)))
    else
      let offset :=
        if whence = 0 then offset
        else if whence = 1 then i64 (offset + b.offset)
        else i64 (offset + bodyLen)
      if offset < 0 then (b, .seek (-1) (some (.negComputed offset)))
      else
        let offset := if offset > bodyLen then bodyLen else offset
        ({ b with offset := offset, eof := false }, .seek offset none)

/-- `/repo/body/bytes.go:112-142`. -/
def readAt (m : BMem) (b : SBytesBody) (p : BSlice) (offset : Int) : BMem × MOut :=
  if b.closed then (m, .read 0 (some .closed))
  else if offset < 0 then (m, .read 0 (some (.negReadAt offset)))
  else
    let bodyLen : Int := b.data.len
    let offset := if offset > bodyLen then bodyLen else offset
    let avail := bodyLen - offset
    let short := decide ((p.len : Int) > avail)
    let n : Int := if short then avail else p.len
    let err := if short then some Err.eof else none
    let i := offset
    let j := i + n
    match p.sub 0 n, b.data.sub i j with
    | some dst, some src => (m.copy dst src, .read n err)
    | _, _ => (m, .other (.panic .bounds))

/-- `/repo/body/bytes.go:144-165`.  Also returns the slice that `Write` was handed. -/
def writeTo (m : BMem) (b : SBytesBody) (w : WriteFn) : SBytesBody × Out × Option BSlice :=
  if b.closed then (b, .wrote none 0 (some .closed), none)
  else if b.eof then (b, .wrote none 0 none, none)
  else
    let i := b.offset
    let j : Int := b.data.len
    let avail := j - i
    match b.data.sub i j with
    | none => (b, .panic .bounds, none)
    | some d =>
      match w (m.bytes d) with
      | .panics p => (b, .panic p, some d)
      | .ok (n, err) =>
        if ¬ n ≥ 0 then (b, .panic .badWriter, some d)
        else if ¬ n ≤ avail then (b, .panic .badWriter, some d)
        else ({ b with offset := b.offset + n, eof := true }, .wrote (some (m.bytes d)) n err, some d)

/-- `/repo/body/bytes.go:175-181`: the same slice. -/
def dupe (b : SBytesBody) : SBytesBody :=
  { data := b.data, offset := b.offset, eof := b.eof, closed := b.closed }

/-- One call. -/
def step (s : List SBytesBody) (x : MCall) : BMem × List SBytesBody × MOut :=
  match s[x.op.h]? with
  | none => (x.mem, s, .other .unsupported)
  | some b =>
    match x.op with
    | .read h _ => let r := b.read x.mem x.p; (r.1, s.set h r.2.1, r.2.2)
    | .readAt _ _ off => let r := b.readAt x.mem x.p off; (r.1, s, r.2)
    | .seek h off wh => let r := b.seek off wh; (x.mem, s.set h r.1, .other r.2)
    | .remaining _ => (x.mem, s, .other (.remaining b.bytesRemaining))
    | .writeTo h w => let r := b.writeTo x.mem w; (x.mem, s.set h r.1, .other r.2.1)
    | .copy _ => if b.closed then (x.mem, s, .other .copiedClosed) else (x.mem, s ++ [b.dupe], .other (.copied s.length))
    | .close h => let r := b.close; (x.mem, s.set h r.1, .other r.2)
    | .unwrap _ => (x.mem, s, .other (.unwrap false))

/-- `FromBytes(data)` with `len(data) > 0` (`/repo/body/body.go:129-134`). -/
def init (data : BSlice) : List SBytesBody := [{ data := data }]

end SBytesBody
end Verif
