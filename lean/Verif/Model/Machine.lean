import Verif.Model.Bytes
import Verif.Model.Positional
import Verif.Model.Buffered

/-!
# The Bodies in machine arithmetic

`Model/Bytes.lean`, `Model/Positional.lean` and `Model/Buffered.lean` compute with unbounded integers (except in the sums of `Seek` and
the rounding).  Here the methods of `/repo/body/bytes.go`, `/repo/body/readerat.go`, `/repo/body/seeker.go` and
`/repo/body/buffered.go` are modelled once more, with every `int64` sum and difference wrapping at 64 bits, every `int` sum,
difference and conversion wrapping at the `w` bits of `int` (32 or 64, as the platform has it), and the reference counts wrapping at
32 bits.  A conversion from `int` to `int64` never changes the value and is left out.  `make` panics when the length asked for is
negative or too large for an `int` (this is `runtime.makeslice`; not having that much memory is still not modelled).

In `Read` of `buffered.go` the locals `bufLen` and `endBuffer` are variables of their own here.
-/

set_option autoImplicit false

namespace Verif

/-- The `int` with the same low `w` bits as `x`. -/
def iw (w : Nat) (x : Int) : Int := Int.bmod x (2 ^ w)

/-- The `int32` with the same low 32 bits as `x`. -/
def i32 (x : Int) : Int := Int.bmod x (2 ^ 32)

/-! ## bytes.go -/

namespace BytesBody

/-- `/repo/body/bytes.go:20-29`. -/
def bytesRemainingM (w : Nat) (b : BytesBody) : Int :=
  if b.closed then 0 else iw w (b.data.length - b.offset)

/-- `/repo/body/bytes.go:31-59`: all in `int`. -/
def readM (w : Nat) (b : BytesBody) (k : Nat) : BytesBody × Out :=
  if b.closed then (b, .read [] (some .closed))
  else if b.eof then (b, .read [] (some .eof))
  else
    let avail := iw w (b.data.length - b.offset)
    let eof := decide ((k : Int) > avail)
    let n := if eof then avail else k
    let err := if eof then some Err.eof else none
    let i := b.offset
    let j := iw w (i + n)
    match goSlice (List.replicate k (0 : Byte)) 0 n, goSlice b.data i j with
    | some _, some d => ({ b with offset := j, eof := eof }, .read d err)
    | _, _ => (b, .panic .bounds)

/-- `/repo/body/bytes.go:76-110`: in `int64`; at the end `body.offset = int(offset)`. -/
def seekM (w : Nat) (b : BytesBody) (offset whence : Int) : BytesBody × Out :=
  if b.closed then (b, .seek (-1) (some .closed))
  else
    let bodyLen : Int := b.data.length
    if whence = 0 ∧ offset < 0 then (b, .seek (-1) (some (.negStart offset)))
    else if whence ≠ 0 ∧ whence ≠ 1 ∧ whence ≠ 2 then
      (b, .seek (-1) (some (.unknownWhence whence)))
    else
      let offset :=
        if whence = 0 then offset
        else if whence = 1 then i64 (offset + b.offset)
        else i64 (offset + bodyLen)
      if offset < 0 then (b, .seek (-1) (some (.negComputed offset)))
      else
        let offset := if offset > bodyLen then bodyLen else offset
        ({ b with offset := iw w offset, eof := false }, .seek offset none)

/-- `/repo/body/bytes.go:112-142`: `avail` in `int64`, `n`, `i` and `j` in `int`. -/
def readAtM (w : Nat) (b : BytesBody) (k : Nat) (offset : Int) : Out :=
  if b.closed then .read [] (some .closed)
  else if offset < 0 then .read [] (some (.negReadAt offset))
  else
    let bodyLen : Int := b.data.length
    let offset := if offset > bodyLen then bodyLen else offset
    let avail := i64 (bodyLen - offset)
    let short := decide ((k : Int) > avail)
    let n := if short then iw w avail else k
    let err := if short then some Err.eof else none
    let i := iw w offset
    let j := iw w (i + n)
    match goSlice (List.replicate k (0 : Byte)) 0 n, goSlice b.data i j with
    | some _, some d => .read d err
    | _, _ => .panic .bounds

/-- `/repo/body/bytes.go:144-165`: all in `int`. -/
def writeToM (w : Nat) (b : BytesBody) (f : WriteFn) : BytesBody × Out :=
  if b.closed then (b, .wrote none 0 (some .closed))
  else if b.eof then (b, .wrote none 0 none)
  else
    let i := b.offset
    let j : Int := b.data.length
    let avail := iw w (j - i)
    match goSlice b.data i j with
    | none => (b, .panic .bounds)
    | some d =>
      match f d with
      | .panics p => (b, .panic p)
      | .ok (n, err) =>
        if ¬ n ≥ 0 then (b, .panic .badWriter)
        else if ¬ n ≤ avail then (b, .panic .badWriter)
        else ({ b with offset := iw w (b.offset + iw w n), eof := true }, .wrote (some d) n err)

/-- One call. -/
def stepM (w : Nat) (s : List BytesBody) (op : Op) : List BytesBody × Out :=
  match s[op.h]? with
  | none => (s, .unsupported)
  | some b =>
    match op with
    | .read h k => let r := b.readM w k; (s.set h r.1, r.2)
    | .readAt _ k off => (s, b.readAtM w k off)
    | .seek h off wh => let r := b.seekM w off wh; (s.set h r.1, r.2)
    | .remaining _ => (s, .remaining (b.bytesRemainingM w))
    | .writeTo h f => let r := b.writeToM w f; (s.set h r.1, r.2)
    | .copy _ => if b.closed then (s, .copiedClosed) else (s ++ [b.dupe], .copied s.length)
    | .close h => let r := b.close; (s.set h r.1, r.2)
    | .unwrap _ => (s, .unwrap false)

end BytesBody

/-- One call on a family made by `FromBytes`/`FromString`/`Empty`; there is no arithmetic in `empty.go` and `closed.go`. -/
def MemFam.stepM (w : Nat) : MemFam → Op → MemFam × Out
  | .empty s, op => let r := EmptyBody.step s op; (.empty r.1, r.2)
  | .bytes s, op => let r := BytesBody.stepM w s op; (.bytes r.1, r.2)

/-! ## readerat.go -/

namespace ReaderAtBody
variable {σ : Type}

/-- `common.ref()` (`/repo/body/readerat.go:20-24`). -/
def refM (c : PosCommon σ) : PosCommon σ := { c with refcnt := i32 (c.refcnt + 1) }

/-- `common.unref()` (`/repo/body/readerat.go:26-47`). -/
def unrefM (R : Rdr σ) (c : PosCommon σ) : PosCommon σ × XResp (Option Err) :=
  let c := { c with refcnt := i32 (c.refcnt - 1) }
  if c.refcnt > 0 then (c, .ok none)
  else
    let r := if c.hasR && R.isCloser then R.close c.rdr else (c.rdr, .ok none)
    match r.2 with
    | .panics p => ({ c with rdr := r.1 }, .panics p)
    | .ok e => ({ rdr := r.1, hasR := false, length := 0, refcnt := 0 }, .ok e)

/-- `body.BytesRemaining()` (`/repo/body/readerat.go:72-86`). -/
def bytesRemainingM (s : PosSys σ) (b : PosBody) : Int :=
  if b.closed then 0
  else
    let length := commonRemaining s.common
    let offset := b.offset
    if offset ≥ length then 0 else i64 (length - offset)

/-- `body.Read(p)` (`/repo/body/readerat.go:88-141`): all in `int64`. -/
def readM (R : Rdr σ) (s : PosSys σ) (h : Nat) (b : PosBody) (k : Nat) : PosSys σ × Out :=
  if b.closed then (s, .read [] (some .closed))
  else match b.err with
  | some e => (s, .read [] (some e))
  | none =>
    let length := s.common.length
    let offset := if b.offset > length then length else b.offset
    let avail := i64 (length - offset)
    let eof := decide ((k : Int) > avail)
    let x := if eof then avail else k
    let r := if avail > 0 then
        match goSlice (List.replicate k (0 : Byte)) 0 x with
        | none => (s.common, .panic .bounds)
        | some p => commonReadAt R s.common p.length offset
      else (s.common, .ret ([], none))
    match r.2 with
    | .panic p => ({ s with common := r.1 }, .panic p)
    | .hang => ({ s with common := r.1 }, .hang)
    | .ret (d, err) =>
      let err := if eof && err.isNone then some .eof else err
      let offset := i64 (offset + d.length)
      let b := { b with offset := offset }
      match err with
      | none => ({ common := r.1, heap := s.heap.set h b }, .read d none)
      | some e =>
        let b := { b with err := some e }
        let c := if offset < r.1.length then { r.1 with length := offset } else r.1
        ({ common := c, heap := s.heap.set h b }, .read d (some e))

/-- `body.Close()` (`/repo/body/readerat.go:143-157`). -/
def closeM (R : Rdr σ) (s : PosSys σ) (h : Nat) (b : PosBody) : PosSys σ × Out :=
  if b.closed then (s, .closed (some .closed))
  else
    let r := unrefM R s.common
    ({ common := r.1, heap := s.heap.set h { err := none, offset := 0, closed := true } },
      match r.2 with | .ok e => .closed e | .panics p => .panic p)

/-- `body.ReadAt(p, offset)` (`/repo/body/readerat.go:196-235`): all in `int64`. -/
def readAtM (R : Rdr σ) (s : PosSys σ) (b : PosBody) (k : Nat) (offset : Int) : PosSys σ × Out :=
  if b.closed then (s, .read [] (some .closed))
  else if offset < 0 then (s, .read [] (some (.negReadAt offset)))
  else
    let length := s.common.length
    let offset := if offset > length then length else offset
    let avail := i64 (length - offset)
    let eof := decide ((k : Int) > avail)
    let x := if eof then avail else k
    let r := if avail > 0 then
        match goSlice (List.replicate k (0 : Byte)) 0 x with
        | none => (s.common, .panic .bounds)
        | some p => commonReadAt R s.common p.length offset
      else (s.common, .ret ([], none))
    match r.2 with
    | .panic p => ({ s with common := r.1 }, .panic p)
    | .hang => ({ s with common := r.1 }, .hang)
    | .ret (d, err) => ({ s with common := r.1 }, .read d (if eof && err.isNone then some .eof else err))

/-- `body.Copy()` (`/repo/body/readerat.go:237-253`). -/
def copyM (s : PosSys σ) (b : PosBody) : PosSys σ × Out :=
  if b.closed then (s, .copiedClosed)
  else
    let dupe : PosBody := { err := b.err, offset := b.offset, closed := b.closed }
    ({ common := refM s.common, heap := s.heap ++ [dupe] }, .copied s.heap.length)

/-- One call.  The sums of `Seek` already wrap in `seek`. -/
def stepM (R : Rdr σ) (s : PosSys σ) (op : Op) : PosSys σ × Out :=
  match s.heap[op.h]? with
  | none => (s, .unsupported)
  | some b =>
    match op with
    | .read h k => readM R s h b k
    | .readAt _ k off => readAtM R s b k off
    | .seek h off wh => seek s h b off wh
    | .remaining _ => (s, .remaining (bytesRemainingM s b))
    | .copy _ => copyM s b
    | .close h => closeM R s h b
    | .unwrap _ => (s, unwrap s b)
    | .writeTo _ _ => (s, .unsupported)

end ReaderAtBody

/-! ## seeker.go -/

namespace SeekerBody
variable {σ : Type}

/-- `common.ref()` (`/repo/body/seeker.go:19-24`). -/
def refM (c : PosCommon σ) : PosCommon σ := { c with refcnt := i32 (c.refcnt + 1) }

/-- `common.unref()` (`/repo/body/seeker.go:26-46`). -/
def unrefM (R : Rdr σ) (c : PosCommon σ) : PosCommon σ × XResp (Option Err) :=
  let c := { c with refcnt := i32 (c.refcnt - 1) }
  if c.refcnt > 0 then (c, .ok none)
  else
    let r := if c.hasR && R.isCloser then R.close c.rdr else (c.rdr, .ok none)
    match r.2 with
    | .panics p => ({ c with rdr := r.1 }, .panics p)
    | .ok e => ({ rdr := r.1, hasR := false, length := 0, refcnt := 0 }, .ok e)

/-- `body.BytesRemaining()` (`/repo/body/seeker.go:76-85`). -/
def bytesRemainingM (s : PosSys σ) (b : PosBody) : Int :=
  if b.closed then 0 else i64 (s.common.length - b.offset)

/-- `body.Read(p)` (`/repo/body/seeker.go:87-141`): all in `int64`. -/
def readM (R : Rdr σ) (s : PosSys σ) (h : Nat) (b : PosBody) (k : Nat) : PosSys σ × Out :=
  if b.closed then (s, .read [] (some .closed))
  else match b.err with
  | some e => (s, .read [] (some e))
  | none =>
    let length := s.common.length
    let offset := if b.offset > length then length else b.offset
    let avail := i64 (length - offset)
    let eof := decide ((k : Int) > avail)
    let x := if eof then avail else k
    let r := if avail > 0 then
        match goSlice (List.replicate k (0 : Byte)) 0 x with
        | none => (s.common, .panic .bounds)
        | some p => commonReadAt R s.common p.length offset
      else (s.common, .ret ([], none))
    match r.2 with
    | .panic p => ({ s with common := r.1 }, .panic p)
    | .hang => ({ s with common := r.1 }, .hang)
    | .ret (d, err) =>
      let err := if eof && err.isNone then some .eof else err
      let offset := i64 (offset + d.length)
      let b := { b with offset := offset }
      match err with
      | none => ({ common := r.1, heap := s.heap.set h b }, .read d none)
      | some e =>
        let b := { b with err := some e }
        let c := if offset < r.1.length then { r.1 with length := offset } else r.1
        ({ common := c, heap := s.heap.set h b }, .read d (some e))

/-- `body.Close()` (`/repo/body/seeker.go:143-157`). -/
def closeM (R : Rdr σ) (s : PosSys σ) (h : Nat) (b : PosBody) : PosSys σ × Out :=
  if b.closed then (s, .closed (some .closed))
  else
    let r := unrefM R s.common
    ({ common := r.1, heap := s.heap.set h { err := none, offset := 0, closed := true } },
      match r.2 with | .ok e => .closed e | .panics p => .panic p)

/-- `body.ReadAt(p, offset)` (`/repo/body/seeker.go:196-237`): all in `int64`. -/
def readAtM (R : Rdr σ) (s : PosSys σ) (b : PosBody) (k : Nat) (offset : Int) : PosSys σ × Out :=
  if b.closed then (s, .read [] (some .closed))
  else if offset < 0 then (s, .read [] (some (.negReadAt offset)))
  else
    let length := s.common.length
    let offset := if offset > length then length else offset
    let avail := i64 (length - offset)
    let eof := decide ((k : Int) > avail)
    let x := if eof then avail else k
    let r := if avail > 0 then
        match goSlice (List.replicate k (0 : Byte)) 0 x with
        | none => (s.common, .panic .bounds)
        | some p => commonReadAt R s.common p.length offset
      else (s.common, .ret ([], none))
    match r.2 with
    | .panic p => ({ s with common := r.1 }, .panic p)
    | .hang => ({ s with common := r.1 }, .hang)
    | .ret (d, err) => ({ s with common := r.1 }, .read d (if eof && err.isNone then some .eof else err))

/-- `body.Copy()` (`/repo/body/seeker.go:239-255`). -/
def copyM (s : PosSys σ) (b : PosBody) : PosSys σ × Out :=
  if b.closed then (s, .copiedClosed)
  else
    let dupe : PosBody := { err := b.err, offset := b.offset, closed := b.closed }
    ({ common := refM s.common, heap := s.heap ++ [dupe] }, .copied s.heap.length)

/-- One call.  The sums of `Seek` already wrap in `seek`. -/
def stepM (R : Rdr σ) (s : PosSys σ) (op : Op) : PosSys σ × Out :=
  match s.heap[op.h]? with
  | none => (s, .unsupported)
  | some b =>
    match op with
    | .read h k => readM R s h b k
    | .readAt _ k off => readAtM R s b k off
    | .seek h off wh => seek s h b off wh
    | .remaining _ => (s, .remaining (bytesRemainingM s b))
    | .copy _ => copyM s b
    | .close h => closeM R s h b
    | .unwrap _ => (s, unwrap s b)
    | .writeTo _ _ => (s, .unsupported)

end SeekerBody

/-! ## buffered.go -/

namespace BufSys
variable {σ : Type}

/-- `common.ref(body)` (`/repo/body/buffered.go:24-32`). -/
def refM (s : BufSys σ) (h : Nat) (b : BufBody) : BufSys σ :=
  let c := s.common
  let c := { c with bodies := if h ∈ c.bodies then c.bodies else c.bodies ++ [h] }
  let c := if b.offset = c.start then { c with refcnt := i32 (c.refcnt + 1) } else c
  { s with common := c }

/-- One iteration of the loop of `updateStart` (`/repo/body/buffered.go:85-93`). -/
def scanM (acc : Int × Int) (off : Int) : Int × Int :=
  let acc := if acc.2 ≤ 0 ∨ off < acc.1 then (off, 0) else acc
  if off = acc.1 then (acc.1, i32 (acc.2 + 1)) else acc

/-- `common.updateStart()` (`/repo/body/buffered.go:82-103`). -/
def updateStartM (s : BufSys σ) : BufSys σ × Option Panic :=
  let r := s.offsets.foldl scanM (0, 0)
  let old := s.common.start
  if ¬ r.1 ≥ old then (s, some .internal)
  else if ¬ r.2 ≥ 1 then (s, some .internal)
  else match goSlice s.common.bytes (i64 (r.1 - old)) s.common.bytes.length with
    | none => (s, some .bounds)
    | some bytes => ({ s with common := { s.common with bytes := bytes, start := r.1, refcnt := r.2 } }, none)

/-- `common.advance(oldOffset, newOffset)` (`/repo/body/buffered.go:66-80`). -/
def advanceM (s : BufSys σ) (oldOffset newOffset : Int) : BufSys σ × Option Panic :=
  let beginBuffer := s.common.start
  let endBuffer := i64 (beginBuffer + s.common.bytes.length)
  if ¬ oldOffset ≥ beginBuffer then (s, some .internal)
  else if ¬ newOffset ≥ oldOffset then (s, some .internal)
  else if ¬ endBuffer ≥ newOffset then (s, some .internal)
  else if oldOffset = beginBuffer ∧ newOffset ≠ beginBuffer then
    let s := { s with common := { s.common with refcnt := i32 (s.common.refcnt - 1) } }
    if s.common.refcnt ≤ 0 then s.updateStartM else (s, none)
  else (s, none)

/-- `common.unref(body)` (`/repo/body/buffered.go:34-64`). -/
def unrefM (R : Rdr σ) (s : BufSys σ) (h : Nat) (b : BufBody) : BufSys σ × Option Err × Option Panic :=
  let s := { s with common := { s.common with bodies := s.common.bodies.filter (· ≠ h) } }
  if s.common.bodies.length > 0 then
    if b.offset = s.common.start then
      let s := { s with common := { s.common with refcnt := i32 (s.common.refcnt - 1) } }
      if s.common.refcnt ≤ 0 then
        let r := s.updateStartM
        (r.1, none, r.2)
      else (s, none, none)
    else (s, none, none)
  else
    let hadR := s.common.hasR
    let c := { s.common with hasR := false, err := none, bodies := [], bytes := [], length := 0, start := 0 }
    if hadR && R.isCloser then
      let r := R.close c.rdr
      match r.2 with
      | .ok e => ({ s with common := { c with rdr := r.1 } }, e, none)
      | .panics p => ({ s with common := { c with rdr := r.1 } }, none, some p)
    else ({ s with common := c }, none, none)

/-- `body.BytesRemaining()` (`/repo/body/buffered.go:113-139`). -/
def bytesRemainingM (s : BufSys σ) (b : BufBody) : Int :=
  if b.closed then 0
  else if b.eof then 0
  else if s.common.length < 0 then -1
  else
    let beginOffset := b.offset
    let endOffset := s.common.length
    let beginOffset := if beginOffset > endOffset then endOffset else beginOffset
    i64 (endOffset - beginOffset)

/-- `int64(uint64(n+blockSize-1) &^ uint64(blockSize-1))` (`/repo/body/buffered.go:166`). -/
def roundUpM (n : Int) : Int :=
  (BitVec.ofInt 64 (i64 (i64 (n + blockSize) - 1)) &&& ~~~ (BitVec.ofInt 64 (blockSize - 1))).toInt

/-- The loop (`/repo/body/buffered.go:185-207`) with its variables `bufLen`, `numToRead` and `endBuffer`; `cap` is `len(bufNew)`.
The result has the last `endBuffer`. -/
def readLoopM (R : Rdr σ) (cap : Int) (fuel : Nat) (c : BufCommon σ) (bufLen numToRead endBuffer : Int) :
    BufCommon σ × Int × Option Out :=
  if ¬ numToRead > 0 then (c, endBuffer, none)
  else match fuel with
    | 0 => (c, endBuffer, some .hang)
    | fuel + 1 =>
      let i := bufLen
      let x := numToRead
      let j := i64 (i + x)
      if ¬ (0 ≤ i ∧ i ≤ j ∧ j ≤ cap) then (c, endBuffer, some (.panic .bounds))
      else if !c.hasR then (c, endBuffer, some (.panic .nilDeref))
      else
        let r := R.read c.rdr (j - i).toNat
        let c := { c with rdr := r.1 }
        match r.2 with
        | .panics p => (c, endBuffer, some (.panic p))
        | .negative => (c, endBuffer, some (.panic .badReader))
        | .got d err =>
          if ¬ (d.length : Int) ≤ x then (c, endBuffer, some (.panic .badReader))
          else
            let bufLen := i64 (bufLen + d.length)
            let numToRead := i64 (numToRead - d.length)
            let c := { c with bytes := c.bytes ++ d }
            let endBuffer := i64 (c.start + bufLen)
            match err with
            | some e => ({ c with length := endBuffer, err := some e }, endBuffer, none)
            | none => readLoopM R cap fuel c bufLen numToRead endBuffer

/-- The block `if common.err == nil && endOffset > endBuffer { … }` (`/repo/body/buffered.go:164-213`), `int` having `w` bits.  The
result has `endBuffer`. -/
def fillM (R : Rdr σ) (w : Nat) (fuel : Nat) (c : BufCommon σ) (endOffset : Int) : BufCommon σ × Int × Option Out :=
  let beginBuffer := c.start
  let endBuffer := i64 (beginBuffer + c.bytes.length)
  if c.err = none ∧ endOffset > endBuffer then
    let numToRead := roundUpM (i64 (endOffset - endBuffer))
    if c.length ≥ 0 ∧ ¬ endBuffer ≤ c.length then (c, endBuffer, some (.panic .internal))
    else
      let remain := i64 (c.length - endBuffer)
      let eof := decide (c.length ≥ 0 ∧ numToRead ≥ remain)
      let numToRead := if eof then remain else numToRead
      let bufLen := i64 (endBuffer - beginBuffer)
      let bufCap := i64 (bufLen + numToRead)
      -- make([]byte, bufCap), bufNew[0:bufLen], common.bytes[0:bufLen]
      if ¬ (0 ≤ bufCap ∧ bufCap < 2 ^ (w - 1)) then (c, endBuffer, some (.panic .bounds))
      else if ¬ (0 ≤ bufLen ∧ bufLen ≤ bufCap ∧ bufLen ≤ c.bytes.length) then (c, endBuffer, some (.panic .bounds))
      else
        let r := readLoopM R bufCap fuel c bufLen numToRead endBuffer
        match r.2.2 with
        | some o => (r.1, r.2.1, some o)
        | none =>
          if eof ∧ r.1.err = none then
            ({ r.1 with length := r.2.1, err := some .eof }, r.2.1, none)
          else (r.1, r.2.1, none)
  else (c, endBuffer, none)

/-- The end of `Read` (`/repo/body/buffered.go:215-228`) with its variables `beginOffset`, `endOffset`, `beginBuffer`, `endBuffer`. -/
def finishReadM (w : Nat) (s : BufSys σ) (h : Nat) (b : BufBody) (k : Nat) (beginOffset endOffset beginBuffer endBuffer : Int) :
    BufSys σ × Out :=
  let short := decide (endOffset > endBuffer)
  let endOffset := if short then endBuffer else endOffset
  let err := if short then s.common.err else none
  let b := if short then { b with eof := true } else b
  let s := { s with heap := s.heap.set h b }
  let i := iw w (i64 (beginOffset - beginBuffer))
  let j := iw w (i64 (endOffset - beginBuffer))
  let n := iw w (j - i)
  match goSlice (List.replicate k (0 : Byte)) 0 n, goSlice s.common.bytes i j with
  | some _, some d =>
    let s := { s with heap := s.heap.set h { b with offset := endOffset } }
    let r := s.advanceM beginOffset endOffset
    match r.2 with
    | some p => (r.1, .panic p)
    | none => (r.1, .read d err)
  | _, _ => (s, .panic .bounds)

/-- `body.Read(p)` (`/repo/body/buffered.go:141-229`). -/
def readM (R : Rdr σ) (w fuel : Nat) (s : BufSys σ) (h : Nat) (b : BufBody) (k : Nat) : BufSys σ × Out :=
  if b.closed then (s, .read [] (some .closed))
  else if b.eof then (s, .read [] s.common.err)
  else
    let beginBuffer := s.common.start
    let beginOffset := b.offset
    let endOffset := i64 (beginOffset + k)
    if ¬ beginOffset ≥ beginBuffer then (s, .panic .internal)
    else
      let r := fillM R w fuel s.common endOffset
      let s := { s with common := r.1 }
      match r.2.2 with
      | some o => (s, o)
      | none => s.finishReadM w h b k beginOffset endOffset beginBuffer r.2.1

/-- `body.Close()` (`/repo/body/buffered.go:231-245`). -/
def closeM (R : Rdr σ) (s : BufSys σ) (h : Nat) (b : BufBody) : BufSys σ × Out :=
  if b.closed then (s, .closed (some .closed))
  else
    let r := unrefM R s h b
    match r.2.2 with
    | some p => (r.1, .panic p)
    | none => ({ r.1 with heap := r.1.heap.set h { offset := 0, eof := false, closed := true } }, .closed r.2.1)

/-- `body.Copy()` (`/repo/body/buffered.go:247-263`). -/
def copyM (s : BufSys σ) (b : BufBody) : BufSys σ × Out :=
  if b.closed then (s, .copiedClosed)
  else if !s.common.hasR then (s, .panic .nilDeref)
  else
    let dupe : BufBody := { offset := b.offset, eof := b.eof, closed := b.closed }
    let h := s.heap.length
    ({ s with heap := s.heap ++ [dupe] }.refM h dupe, .copied h)

/-- One call. -/
def stepM (R : Rdr σ) (w fuel : Nat) (s : BufSys σ) (op : Op) : BufSys σ × Out :=
  match s.heap[op.h]? with
  | none => (s, .unsupported)
  | some b =>
    match op with
    | .read h k => s.readM R w fuel h b k
    | .remaining _ => (s, .remaining (s.bytesRemainingM b))
    | .copy _ => s.copyM b
    | .close h => s.closeM R h b
    | .unwrap _ => (s, s.unwrap b)
    | .readAt _ _ _ => (s, .unsupported)
    | .seek _ _ _ => (s, .unsupported)
    | .writeTo _ _ => (s, .unsupported)

end BufSys
end Verif
