import Verif.Model.Reader

/-!
# Model of `/repo/body/readerat.go` and `/repo/body/seeker.go`

Families of bodies over an `io.ReaderAt` or an `io.ReadSeeker`: one shared `common` and the bodies
that were ever created over it; a body's index in `heap` is its pointer.  The two files are modelled
separately (namespaces `ReaderAtBody` and `SeekerBody`); only the state types, which have the same
fields, are shared.

Simplifications: mutexes (every method is one atomic step; interleavings are the subject of
`Model/Concurrent.lean`); `refcnt` does not overflow
`int32` (`Model/Machine.lean` has that, see C71); an external reader does not scribble on `p` beyond the count it returns.
-/

set_option autoImplicit false

namespace Verif

/-- `readerAtCommon` (`/repo/body/readerat.go:12-18`; `hasR` is "`r` and `at` are non-nil") and
`seekerCommon` (`/repo/body/seeker.go:12-17`; `hasR` is "`s` is non-nil"). -/
structure PosCommon (σ : Type) where
  hasR : Bool := true
  rdr : σ
  length : Int
  refcnt : Int := 0

/-- `readerAtBody` (`/repo/body/readerat.go:64-70`) and `seekerBody` (`/repo/body/seeker.go:68-74`). -/
structure PosBody where
  err : Option Err := none
  offset : Int := 0
  closed : Bool := false
deriving DecidableEq, Repr

/-- A family. -/
structure PosSys (σ : Type) where
  common : PosCommon σ
  heap : List PosBody

namespace ReaderAtBody
variable {σ : Type}

/-- `common.ref()` (`/repo/body/readerat.go:20-24`). -/
def ref (c : PosCommon σ) : PosCommon σ := { c with refcnt := c.refcnt + 1 }

/-- `common.unref()` (`/repo/body/readerat.go:26-47`). -/
def unref (R : Rdr σ) (c : PosCommon σ) : PosCommon σ × XResp (Option Err) :=
  let c := { c with refcnt := c.refcnt - 1 }
  if c.refcnt > 0 then (c, .ok none)
  else
    let r := if c.hasR && R.isCloser then R.close c.rdr else (c.rdr, .ok none)
    match r.2 with
    | .panics p => ({ c with rdr := r.1 }, .panics p)
    | .ok e => ({ rdr := r.1, hasR := false, length := 0, refcnt := 0 }, .ok e)

/-- `common.BytesRemaining()` (`/repo/body/readerat.go:49-54`). -/
def commonRemaining (c : PosCommon σ) : Int := c.length

/-- `common.readAt(p, offset)` (`/repo/body/readerat.go:56-62`), `len(p) = x`. -/
def commonReadAt (R : Rdr σ) (c : PosCommon σ) (x : Nat) (offset : Int) :
    PosCommon σ × Res (List Byte × Option Err) :=
  if !c.hasR then (c, .panic .nilDeref)
  else
    let r := R.readAt c.rdr x offset
    let c := { c with rdr := r.1 }
    match r.2 with
    | .panics p => (c, .panic p)
    | .negative => (c, .panic .badReader)
    | .got d err => if ¬ d.length ≤ x then (c, .panic .badReader) else (c, .ret (d, err))

/-- `body.BytesRemaining()` (`/repo/body/readerat.go:72-86`). -/
def bytesRemaining (s : PosSys σ) (b : PosBody) : Int :=
  if b.closed then 0
  else
    let length := commonRemaining s.common
    let offset := b.offset
    if offset ≥ length then 0 else length - offset

/-- `body.Read(p)` (`/repo/body/readerat.go:88-141`), `len(p) = k`. -/
def read (R : Rdr σ) (s : PosSys σ) (h : Nat) (b : PosBody) (k : Nat) : PosSys σ × Out :=
  if b.closed then (s, .read [] (some .closed))
  else match b.err with
  | some e => (s, .read [] (some e))
  | none =>
    let length := s.common.length
    let offset := if b.offset > length then length else b.offset
    let avail := length - offset
    let eof := decide ((k : Int) > avail)
    let x := if eof then avail else k
    let r := if avail > 0 then
        match goSlice (List.replicate k (0 : Byte)) 0 x with
        | none => (s.common, .panic .bounds)
        | some p => commonReadAt R s.common p.length offset
      else (s.common, .ret ([], none))
    match r.2 with
    | .panic p => ({ s with common := r.1 }, .panic p)
    | .hang => ({ s with common := r.1 }, .hang)
    | .ret (d, err) =>
      let err := if eof && err.isNone then some .eof else err
      let offset := offset + d.length
      let b := { b with offset := offset }
      match err with
      | none => ({ common := r.1, heap := s.heap.set h b }, .read d none)
      | some e =>
        let b := { b with err := some e }
        let c := if offset < r.1.length then { r.1 with length := offset } else r.1
        ({ common := c, heap := s.heap.set h b }, .read d (some e))

/-- `body.Close()` (`/repo/body/readerat.go:143-157`). -/
def close (R : Rdr σ) (s : PosSys σ) (h : Nat) (b : PosBody) : PosSys σ × Out :=
  if b.closed then (s, .closed (some .closed))
  else
    let r := unref R s.common
    ({ common := r.1, heap := s.heap.set h { err := none, offset := 0, closed := true } },
      match r.2 with | .ok e => .closed e | .panics p => .panic p)

/-- `body.Seek(offset, whence)` (`/repo/body/readerat.go:159-194`); the additions are `int64`. -/
def seek (s : PosSys σ) (h : Nat) (b : PosBody) (offset whence : Int) : PosSys σ × Out :=
  if b.closed then (s, .seek (-1) (some .closed))
  else
    let length := commonRemaining s.common
    if whence = 0 ∧ offset < 0 then (s, .seek (-1) (some (.negStart offset)))
    else if whence ≠ 0 ∧ whence ≠ 1 ∧ whence ≠ 2 then (s, .seek (-1) (some (.unknownWhence whence)))
    else
      let offset :=
        if whence = 0 then offset
        else if whence = 1 then i64 (offset + b.offset)
        else i64 (offset + length)
      if offset < 0 then (s, .seek (-1) (some (.negComputed offset)))
      else
        let offset := if offset > length then length else offset
        ({ s with heap := s.heap.set h { b with err := none, offset := offset } }, .seek offset none)

/-- `body.ReadAt(p, offset)` (`/repo/body/readerat.go:196-235`). -/
def readAt (R : Rdr σ) (s : PosSys σ) (b : PosBody) (k : Nat) (offset : Int) : PosSys σ × Out :=
  if b.closed then (s, .read [] (some .closed))
  else if offset < 0 then (s, .read [] (some (.negReadAt offset)))
  else
    let length := s.common.length
    let offset := if offset > length then length else offset
    let avail := length - offset
    let eof := decide ((k : Int) > avail)
    let x := if eof then avail else k
    let r := if avail > 0 then
        match goSlice (List.replicate k (0 : Byte)) 0 x with
        | none => (s.common, .panic .bounds)
        | some p => commonReadAt R s.common p.length offset
      else (s.common, .ret ([], none))
    match r.2 with
    | .panic p => ({ s with common := r.1 }, .panic p)
    | .hang => ({ s with common := r.1 }, .hang)
    | .ret (d, err) => ({ s with common := r.1 }, .read d (if eof && err.isNone then some .eof else err))

/-- `body.Copy()` (`/repo/body/readerat.go:237-253`). -/
def copy (s : PosSys σ) (b : PosBody) : PosSys σ × Out :=
  if b.closed then (s, .copiedClosed)
  else
    let dupe : PosBody := { err := b.err, offset := b.offset, closed := b.closed }
    ({ common := ref s.common, heap := s.heap ++ [dupe] }, .copied s.heap.length)

/-- `body.Unwrap()` (`/repo/body/readerat.go:255-266`). -/
def unwrap (s : PosSys σ) (b : PosBody) : Out :=
  if b.closed then .unwrap false else .unwrap s.common.hasR

/-- One call.  These bodies have no `WriteTo`. -/
def step (R : Rdr σ) (s : PosSys σ) (op : Op) : PosSys σ × Out :=
  match s.heap[op.h]? with
  | none => (s, .unsupported)
  | some b =>
    match op with
    | .read h k => read R s h b k
    | .readAt _ k off => readAt R s b k off
    | .seek h off wh => seek s h b off wh
    | .remaining _ => (s, .remaining (bytesRemaining s b))
    | .copy _ => copy s b
    | .close h => close R s h b
    | .unwrap _ => (s, unwrap s b)
    | .writeTo _ _ => (s, .unsupported)

/-- The ReaderAt case of `FromReaderAndLength` (`/repo/body/body.go:326-335`). -/
def init (rdr : σ) (length : Int) : PosSys σ :=
  { common := ref { rdr := rdr, length := length }, heap := [{}] }

end ReaderAtBody

namespace SeekerBody
variable {σ : Type}

/-- `common.ref()` (`/repo/body/seeker.go:19-24`). -/
def ref (c : PosCommon σ) : PosCommon σ := { c with refcnt := c.refcnt + 1 }

/-- `common.unref()` (`/repo/body/seeker.go:26-46`). -/
def unref (R : Rdr σ) (c : PosCommon σ) : PosCommon σ × XResp (Option Err) :=
  let c := { c with refcnt := c.refcnt - 1 }
  if c.refcnt > 0 then (c, .ok none)
  else
    let r := if c.hasR && R.isCloser then R.close c.rdr else (c.rdr, .ok none)
    match r.2 with
    | .panics p => ({ c with rdr := r.1 }, .panics p)
    | .ok e => ({ rdr := r.1, hasR := false, length := 0, refcnt := 0 }, .ok e)

/-- `common.BytesRemaining()` (`/repo/body/seeker.go:48-53`). -/
def commonRemaining (c : PosCommon σ) : Int := c.length

/-- `common.readAt(p, offset)` (`/repo/body/seeker.go:55-66`), `len(p) = x`. -/
def commonReadAt (R : Rdr σ) (c : PosCommon σ) (x : Nat) (offset : Int) :
    PosCommon σ × Res (List Byte × Option Err) :=
  if !c.hasR then (c, .panic .nilDeref)
  else
    let q := R.seek c.rdr offset 0
    let c := { c with rdr := q.1 }
    match q.2 with
    | .panics p => (c, .panic p)
    | .ok (_, some e) => (c, .ret ([], some e))
    | .ok (_, none) =>
      let r := R.read c.rdr x
      let c := { c with rdr := r.1 }
      match r.2 with
      | .panics p => (c, .panic p)
      | .negative => (c, .panic .badReader)
      | .got d err => if ¬ d.length ≤ x then (c, .panic .badReader) else (c, .ret (d, err))

/-- `body.BytesRemaining()` (`/repo/body/seeker.go:76-85`). -/
def bytesRemaining (s : PosSys σ) (b : PosBody) : Int :=
  if b.closed then 0 else s.common.length - b.offset

/-- `body.Read(p)` (`/repo/body/seeker.go:87-141`), `len(p) = k`. -/
def read (R : Rdr σ) (s : PosSys σ) (h : Nat) (b : PosBody) (k : Nat) : PosSys σ × Out :=
  if b.closed then (s, .read [] (some .closed))
  else match b.err with
  | some e => (s, .read [] (some e))
  | none =>
    let length := s.common.length
    let offset := if b.offset > length then length else b.offset
    let avail := length - offset
    let eof := decide ((k : Int) > avail)
    let x := if eof then avail else k
    let r := if avail > 0 then
        match goSlice (List.replicate k (0 : Byte)) 0 x with
        | none => (s.common, .panic .bounds)
        | some p => commonReadAt R s.common p.length offset
      else (s.common, .ret ([], none))
    match r.2 with
    | .panic p => ({ s with common := r.1 }, .panic p)
    | .hang => ({ s with common := r.1 }, .hang)
    | .ret (d, err) =>
      let err := if eof && err.isNone then some .eof else err
      let offset := offset + d.length
      let b := { b with offset := offset }
      match err with
      | none => ({ common := r.1, heap := s.heap.set h b }, .read d none)
      | some e =>
        let b := { b with err := some e }
        let c := if offset < r.1.length then { r.1 with length := offset } else r.1
        ({ common := c, heap := s.heap.set h b }, .read d (some e))

/-- `body.Close()` (`/repo/body/seeker.go:143-157`). -/
def close (R : Rdr σ) (s : PosSys σ) (h : Nat) (b : PosBody) : PosSys σ × Out :=
  if b.closed then (s, .closed (some .closed))
  else
    let r := unref R s.common
    ({ common := r.1, heap := s.heap.set h { err := none, offset := 0, closed := true } },
      match r.2 with | .ok e => .closed e | .panics p => .panic p)

/-- `body.Seek(offset, whence)` (`/repo/body/seeker.go:159-194`); the additions are `int64`. -/
def seek (s : PosSys σ) (h : Nat) (b : PosBody) (offset whence : Int) : PosSys σ × Out :=
  if b.closed then (s, .seek (-1) (some .closed))
  else
    let length := commonRemaining s.common
    if whence = 0 ∧ offset < 0 then (s, .seek (-1) (some (.negStart offset)))
    else if whence ≠ 0 ∧ whence ≠ 1 ∧ whence ≠ 2 then (s, .seek (-1) (some (.unknownWhence whence)))
    else
      let offset :=
        if whence = 0 then offset
        else if whence = 1 then i64 (offset + b.offset)
        else i64 (offset + length)
      if offset < 0 then (s, .seek (-1) (some (.negComputed offset)))
      else
        let offset := if offset > length then length else offset
        ({ s with heap := s.heap.set h { b with err := none, offset := offset } }, .seek offset none)

/-- `body.ReadAt(p, offset)` (`/repo/body/seeker.go:196-237`). -/
def readAt (R : Rdr σ) (s : PosSys σ) (b : PosBody) (k : Nat) (offset : Int) : PosSys σ × Out :=
  if b.closed then (s, .read [] (some .closed))
  else if offset < 0 then (s, .read [] (some (.negReadAt offset)))
  else
    let length := s.common.length
    let offset := if offset > length then length else offset
    let avail := length - offset
    let eof := decide ((k : Int) > avail)
    let x := if eof then avail else k
    let r := if avail > 0 then
        match goSlice (List.replicate k (0 : Byte)) 0 x with
        | none => (s.common, .panic .bounds)
        | some p => commonReadAt R s.common p.length offset
      else (s.common, .ret ([], none))
    match r.2 with
    | .panic p => ({ s with common := r.1 }, .panic p)
    | .hang => ({ s with common := r.1 }, .hang)
    | .ret (d, err) => ({ s with common := r.1 }, .read d (if eof && err.isNone then some .eof else err))

/-- `body.Copy()` (`/repo/body/seeker.go:239-255`). -/
def copy (s : PosSys σ) (b : PosBody) : PosSys σ × Out :=
  if b.closed then (s, .copiedClosed)
  else
    let dupe : PosBody := { err := b.err, offset := b.offset, closed := b.closed }
    ({ common := ref s.common, heap := s.heap ++ [dupe] }, .copied s.heap.length)

/-- `body.Unwrap()` (`/repo/body/seeker.go:257-268`). -/
def unwrap (s : PosSys σ) (b : PosBody) : Out :=
  if b.closed then .unwrap false else .unwrap s.common.hasR

/-- One call.  These bodies have no `WriteTo`. -/
def step (R : Rdr σ) (s : PosSys σ) (op : Op) : PosSys σ × Out :=
  match s.heap[op.h]? with
  | none => (s, .unsupported)
  | some b =>
    match op with
    | .read h k => read R s h b k
    | .readAt _ k off => readAt R s b k off
    | .seek h off wh => seek s h b off wh
    | .remaining _ => (s, .remaining (bytesRemaining s b))
    | .copy _ => copy s b
    | .close h => close R s h b
    | .unwrap _ => (s, unwrap s b)
    | .writeTo _ _ => (s, .unsupported)

/-- The Seeker case of `FromReaderAndLength` (`/repo/body/body.go:337-345`). -/
def init (rdr : σ) (length : Int) : PosSys σ :=
  { common := ref { rdr := rdr, length := length }, heap := [{}] }

end SeekerBody
end Verif
