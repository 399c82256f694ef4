import Verif.Model.Reader

/-!
# Model of `/repo/body/buffered.go`

A family of stream-backed bodies: one `bufferedCommon` and the `bufferedBody` objects that were ever
created over it; a body's index in `heap` is its pointer.

Simplifications: mutexes (every method is one atomic step here, interleavings are the subject of
`Model/Concurrent.lean`); `int64`/`int32` arithmetic is unbounded except for the rounding, whose 64-bit
`&^` is modelled as such (`roundUp`; `Model/Machine.lean` has the rest, see C71); `make` does not run out of memory; the set `bodies` is a list
without order significance (`Props/Buffered.lean` proves that its order does not matter).
-/

set_option autoImplicit false

namespace Verif

/-- `/repo/body/buffered.go:11`. -/
def blockSize : Int := 65536

/-- `/repo/body/buffered.go:13-22`; `r` is split into "non-nil" and the reader's state. -/
structure BufCommon (σ : Type) where
  hasR : Bool := true
  rdr : σ
  err : Option Err := none
  bodies : List Nat := []
  bytes : List Byte := []
  length : Int
  start : Int := 0
  refcnt : Int := 0

/-- `/repo/body/buffered.go:105-111`.  After `Close`, `common` is nil; the model keeps no pointer
because a family has only one common. -/
structure BufBody where
  offset : Int := 0
  eof : Bool := false
  closed : Bool := false
deriving DecidableEq, Repr

/-- A family: the shared part and all bodies ever made over it. -/
structure BufSys (σ : Type) where
  common : BufCommon σ
  heap : List BufBody

namespace BufSys
variable {σ : Type}

/-- `common.ref(body)` (`/repo/body/buffered.go:24-32`). -/
def ref (s : BufSys σ) (h : Nat) (b : BufBody) : BufSys σ :=
  let c := s.common
  let c := { c with bodies := if h ∈ c.bodies then c.bodies else c.bodies ++ [h] }
  let c := if b.offset = c.start then { c with refcnt := c.refcnt + 1 } else c
  { s with common := c }

/-- The offsets of the bodies in the set, in iteration order. -/
def offsets (s : BufSys σ) : List Int := s.common.bodies.filterMap (fun i => (s.heap[i]?).map (·.offset))

/-- One iteration of the loop of `updateStart` (`/repo/body/buffered.go:85-93`), on
`(beginBufferNew, refcnt)`. -/
def scan (acc : Int × Int) (off : Int) : Int × Int :=
  let acc := if acc.2 ≤ 0 ∨ off < acc.1 then (off, 0) else acc
  if off = acc.1 then (acc.1, acc.2 + 1) else acc

/-- `common.updateStart()` (`/repo/body/buffered.go:82-103`). -/
def updateStart (s : BufSys σ) : BufSys σ × Option Panic :=
  let r := s.offsets.foldl scan (0, 0)
  let old := s.common.start
  if ¬ r.1 ≥ old then (s, some .internal)
  else if ¬ r.2 ≥ 1 then (s, some .internal)
  else match goSlice s.common.bytes (r.1 - old) s.common.bytes.length with
    | none => (s, some .bounds)
    | some bytes => ({ s with common := { s.common with bytes := bytes, start := r.1, refcnt := r.2 } }, none)

/-- `common.advance(oldOffset, newOffset)` (`/repo/body/buffered.go:66-80`). -/
def advance (s : BufSys σ) (oldOffset newOffset : Int) : BufSys σ × Option Panic :=
  let beginBuffer := s.common.start
  let endBuffer := beginBuffer + s.common.bytes.length
  if ¬ oldOffset ≥ beginBuffer then (s, some .internal)
  else if ¬ newOffset ≥ oldOffset then (s, some .internal)
  else if ¬ endBuffer ≥ newOffset then (s, some .internal)
  else if oldOffset = beginBuffer ∧ newOffset ≠ beginBuffer then
    let s := { s with common := { s.common with refcnt := s.common.refcnt - 1 } }
    if s.common.refcnt ≤ 0 then s.updateStart else (s, none)
  else (s, none)

/-- `common.unref(body)` (`/repo/body/buffered.go:34-64`): new state, `Close` error, panic. -/
def unref (R : Rdr σ) (s : BufSys σ) (h : Nat) (b : BufBody) : BufSys σ × Option Err × Option Panic :=
  let s := { s with common := { s.common with bodies := s.common.bodies.filter (· ≠ h) } }
  if s.common.bodies.length > 0 then
    if b.offset = s.common.start then
      let s := { s with common := { s.common with refcnt := s.common.refcnt - 1 } }
      if s.common.refcnt ≤ 0 then
        let r := s.updateStart
        (r.1, none, r.2)
      else (s, none, none)
    else (s, none, none)
  else
    let hadR := s.common.hasR
    let c := { s.common with hasR := false, err := none, bodies := [], bytes := [], length := 0, start := 0 }
    if hadR && R.isCloser then
      let r := R.close c.rdr
      match r.2 with
      | .ok e => ({ s with common := { c with rdr := r.1 } }, e, none)
      | .panics p => ({ s with common := { c with rdr := r.1 } }, none, some p)
    else ({ s with common := c }, none, none)

/-- `body.BytesRemaining()` (`/repo/body/buffered.go:113-139`). -/
def bytesRemaining (s : BufSys σ) (b : BufBody) : Int :=
  if b.closed then 0
  else if b.eof then 0
  else if s.common.length < 0 then -1
  else
    let beginOffset := b.offset
    let endOffset := s.common.length
    let beginOffset := if beginOffset > endOffset then endOffset else beginOffset
    endOffset - beginOffset

/-- `int64(uint64(n+blockSize-1) &^ uint64(blockSize-1))` (`/repo/body/buffered.go:166`), in 64-bit
arithmetic. -/
def roundUp (n : Int) : Int :=
  (BitVec.ofInt 64 (n + blockSize - 1) &&& ~~~ (BitVec.ofInt 64 (blockSize - 1))).toInt

/-- The loop `for numToRead > 0 { … }` (`/repo/body/buffered.go:185-207`).  The local `bufLen` is
`len(common.bytes)` and `endBuffer` is `start + bufLen` throughout.  `none`: the loop ended normally;
`some o`: the call ended here (panic, or no progress within `fuel` iterations). -/
def readLoop (R : Rdr σ) (fuel : Nat) (c : BufCommon σ) (numToRead : Int) : BufCommon σ × Option Out :=
  if ¬ numToRead > 0 then (c, none)
  else match fuel with
    | 0 => (c, some .hang)
    | fuel + 1 =>
      if !c.hasR then (c, some (.panic .nilDeref))
      else
        let r := R.read c.rdr numToRead.toNat
        let c := { c with rdr := r.1 }
        match r.2 with
        | .panics p => (c, some (.panic p))
        | .negative => (c, some (.panic .badReader))
        | .got d err =>
          if ¬ (d.length : Int) ≤ numToRead then (c, some (.panic .badReader))
          else
            let c := { c with bytes := c.bytes ++ d }
            match err with
            | some e => ({ c with length := c.start + c.bytes.length, err := some e }, none)
            | none => readLoop R fuel c (numToRead - d.length)

/-- The block `if common.err == nil && endOffset > endBuffer { … }` (`/repo/body/buffered.go:164-213`). -/
def fill (R : Rdr σ) (fuel : Nat) (c : BufCommon σ) (endOffset : Int) : BufCommon σ × Option Out :=
  let endBuffer := c.start + c.bytes.length
  if c.err = none ∧ endOffset > endBuffer then
    let numToRead := roundUp (endOffset - endBuffer)
    if c.length ≥ 0 ∧ ¬ endBuffer ≤ c.length then (c, some (.panic .internal))
    else
      let remain := c.length - endBuffer
      let eof := decide (c.length ≥ 0 ∧ numToRead ≥ remain)
      let numToRead := if eof then remain else numToRead
      let r := readLoop R fuel c numToRead
      match r.2 with
      | some o => (r.1, some o)
      | none =>
        if eof ∧ r.1.err = none then
          ({ r.1 with length := r.1.start + r.1.bytes.length, err := some .eof }, none)
        else (r.1, none)
  else (c, none)

/-- The end of `Read` (`/repo/body/buffered.go:215-228`), after the buffer was filled. -/
def finishRead (s : BufSys σ) (h : Nat) (b : BufBody) (k : Nat) : BufSys σ × Out :=
  let beginBuffer := s.common.start
  let endBuffer := beginBuffer + s.common.bytes.length
  let beginOffset := b.offset
  let short := decide (beginOffset + k > endBuffer)
  let endOffset := if short then endBuffer else beginOffset + k
  let err := if short then s.common.err else none
  let b := if short then { b with eof := true } else b
  let s := { s with heap := s.heap.set h b }
  let i := beginOffset - beginBuffer
  let j := endOffset - beginBuffer
  match goSlice (List.replicate k (0 : Byte)) 0 (j - i), goSlice s.common.bytes i j with
  | some _, some d =>
    let s := { s with heap := s.heap.set h { b with offset := endOffset } }
    let r := s.advance beginOffset endOffset
    match r.2 with
    | some p => (r.1, .panic p)
    | none => (r.1, .read d err)
  | _, _ => (s, .panic .bounds)

/-- `body.Read(p)` (`/repo/body/buffered.go:141-229`). -/
def read (R : Rdr σ) (fuel : Nat) (s : BufSys σ) (h : Nat) (b : BufBody) (k : Nat) : BufSys σ × Out :=
  if b.closed then (s, .read [] (some .closed))
  else if b.eof then (s, .read [] s.common.err)
  else if ¬ b.offset ≥ s.common.start then (s, .panic .internal)
  else
    let r := fill R fuel s.common (b.offset + k)
    let s := { s with common := r.1 }
    match r.2 with
    | some o => (s, o)
    | none => s.finishRead h b k

/-- `body.Close()` (`/repo/body/buffered.go:231-245`). -/
def close (R : Rdr σ) (s : BufSys σ) (h : Nat) (b : BufBody) : BufSys σ × Out :=
  if b.closed then (s, .closed (some .closed))
  else
    let r := unref R s h b
    match r.2.2 with
    | some p => (r.1, .panic p)
    | none => ({ r.1 with heap := r.1.heap.set h { offset := 0, eof := false, closed := true } }, .closed r.2.1)

/-- `body.Copy()` (`/repo/body/buffered.go:247-263`).  The panic is the assignment to the nil map `common.bodies` (`:28`); the model
has no separate "`bodies` is nil" because it becomes nil together with `r` (`:51`, `:53`). -/
def copy (s : BufSys σ) (b : BufBody) : BufSys σ × Out :=
  if b.closed then (s, .copiedClosed)
  else if !s.common.hasR then (s, .panic .nilDeref)
  else
    let dupe : BufBody := { offset := b.offset, eof := b.eof, closed := b.closed }
    let h := s.heap.length
    ({ s with heap := s.heap ++ [dupe] }.ref h dupe, .copied h)

/-- `body.Unwrap()` (`/repo/body/buffered.go:265-279`). -/
def unwrap (s : BufSys σ) (b : BufBody) : Out :=
  if b.closed then .unwrap false else .unwrap s.common.hasR

/-- One call.  A buffered body has no `ReadAt`, `Seek` or `WriteTo`. -/
def step (R : Rdr σ) (fuel : Nat) (s : BufSys σ) (op : Op) : BufSys σ × Out :=
  match s.heap[op.h]? with
  | none => (s, .unsupported)
  | some b =>
    match op with
    | .read h k => s.read R fuel h b k
    | .remaining _ => (s, .remaining (s.bytesRemaining b))
    | .copy _ => s.copy b
    | .close h => s.close R h b
    | .unwrap _ => (s, s.unwrap b)
    | .readAt _ _ _ => (s, .unsupported)
    | .seek _ _ _ => (s, .unsupported)
    | .writeTo _ _ => (s, .unsupported)

/-- The buffered case of `FromReaderAndLength` (`/repo/body/body.go:343-352`): a common with one
reference, and the first body. -/
def init (rdr : σ) (length : Int) : BufSys σ :=
  let s : BufSys σ := { common := { rdr := rdr, length := length }, heap := [{}] }
  s.ref 0 {}

end BufSys
end Verif
