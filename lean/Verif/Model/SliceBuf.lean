import Verif.Model.Slices
import Verif.Model.Buffered

/-!
# Model of `/repo/body/buffered.go`, with slices

As `Model/Buffered.lean`, but `common.bytes` is a slice, `Read` is handed a slice, and so is the Reader.  `own` lists the arrays made by the family; it is
not in the code, and is used for talking about it only.
-/

set_option autoImplicit false

namespace Verif

/-- `/repo/body/buffered.go:13-22`. -/
structure SBufCommon (σ : Type) where
  hasR : Bool := true
  rdr : σ
  err : Option Err := none
  bodies : List Nat := []
  bytes : BSlice := .nil
  length : Int
  start : Int := 0
  refcnt : Int := 0

/-- A family, and the memory. -/
structure SBufSys (σ : Type) where
  mem : BMem
  own : List Nat := []
  common : SBufCommon σ
  heap : List BufBody

namespace SBufSys
variable {σ : Type}

/-- `common.ref(body)` (`buffered.go:24-32`). -/
def ref (s : SBufSys σ) (h : Nat) (b : BufBody) : SBufSys σ :=
  let c := s.common
  let c := { c with bodies := if h ∈ c.bodies then c.bodies else c.bodies ++ [h] }
  let c := if b.offset = c.start then { c with refcnt := c.refcnt + 1 } else c
  { s with common := c }

def offsets (s : SBufSys σ) : List Int := s.common.bodies.filterMap (fun i => (s.heap[i]?).map (·.offset))

/-- `common.updateStart()` (`buffered.go:82-103`). -/
def updateStart (s : SBufSys σ) : SBufSys σ × Option Panic :=
  let r := s.offsets.foldl BufSys.scan (0, 0)
  let old := s.common.start
  if ¬ r.1 ≥ old then (s, some .internal)
  else if ¬ r.2 ≥ 1 then (s, some .internal)
  else match s.common.bytes.sub (r.1 - old) s.common.bytes.len with                        -- `common.bytes[i:]`
    | none => (s, some .bounds)
    | some bytes => ({ s with common := { s.common with bytes := bytes, start := r.1, refcnt := r.2 } }, none)

/-- `common.advance(oldOffset, newOffset)` (`buffered.go:66-80`). -/
def advance (s : SBufSys σ) (oldOffset newOffset : Int) : SBufSys σ × Option Panic :=
  let beginBuffer := s.common.start
  let endBuffer := beginBuffer + s.common.bytes.len
  if ¬ oldOffset ≥ beginBuffer then (s, some .internal)
  else if ¬ newOffset ≥ oldOffset then (s, some .internal)
  else if ¬ endBuffer ≥ newOffset then (s, some .internal)
  else if oldOffset = beginBuffer ∧ newOffset ≠ beginBuffer then
    let s := { s with common := { s.common with refcnt := s.common.refcnt - 1 } }
    if s.common.refcnt ≤ 0 then s.updateStart else (s, none)
  else (s, none)

/-- `common.unref(body)` (`buffered.go:34-64`). -/
def unref (R : Rdr σ) (s : SBufSys σ) (h : Nat) (b : BufBody) : SBufSys σ × Option Err × Option Panic :=
  let s := { s with common := { s.common with bodies := s.common.bodies.filter (· ≠ h) } }
  if s.common.bodies.length > 0 then
    if b.offset = s.common.start then
      let s := { s with common := { s.common with refcnt := s.common.refcnt - 1 } }
      if s.common.refcnt ≤ 0 then
        let r := s.updateStart
        (r.1, none, r.2)
      else (s, none, none)
    else (s, none, none)
  else
    let hadR := s.common.hasR
    let c := { s.common with hasR := false, err := none, bodies := [], bytes := BSlice.nil, length := 0, start := 0 }
    if hadR && R.isCloser then
      let r := R.close c.rdr
      match r.2 with
      | .ok e => ({ s with common := { c with rdr := r.1 } }, e, none)
      | .panics p => ({ s with common := { c with rdr := r.1 } }, none, some p)
    else ({ s with common := c }, none, none)

/-- `body.BytesRemaining()` (`buffered.go:113-139`). -/
def bytesRemaining (s : SBufSys σ) (b : BufBody) : Int :=
  if b.closed then 0
  else if b.eof then 0
  else if s.common.length < 0 then -1
  else
    let beginOffset := b.offset
    let endOffset := s.common.length
    let beginOffset := if beginOffset > endOffset then endOffset else beginOffset
    endOffset - beginOffset

/-- The loop `for numToRead > 0 { … }` (`buffered.go:185-207`), with the locals `bufNew` and `bufLen`. -/
def readLoop (R : Rdr σ) (w : Scratch σ) (fuel : Nat) (m : BMem) (c : SBufCommon σ) (bufNew : BSlice) (bufLen numToRead : Int) :
    BMem × SBufCommon σ × Option MOut :=
  if ¬ numToRead > 0 then (m, c, none)
  else match fuel with
    | 0 => (m, c, some (.other .hang))
    | fuel + 1 =>
      match bufNew.sub bufLen (bufLen + numToRead) with
      | none => (m, c, some (.other (.panic .bounds)))
      | some p =>
        if !c.hasR then (m, c, some (.other (.panic .nilDeref)))
        else
          let r := R.readInto w m c.rdr p
          let m := r.1
          let c := { c with rdr := r.2.1 }
          match r.2.2 with
          | .panics q => (m, c, some (.other (.panic q)))
          | .ret n err =>
            if ¬ n ≥ 0 then (m, c, some (.other (.panic .badReader)))
            else if ¬ n ≤ numToRead then (m, c, some (.other (.panic .badReader)))
            else match bufNew.sub 0 (bufLen + n) with
              | none => (m, c, some (.other (.panic .bounds)))
              | some bytes =>
                let c := { c with bytes := bytes }
                match err with
                | some e => (m, { c with length := c.start + (bufLen + n), err := some e }, none)
                | none => readLoop R w fuel m c bufNew (bufLen + n) (numToRead - n)

/-- The block `if common.err == nil && endOffset > endBuffer { … }` (`buffered.go:164-213`); also returns the array it made. -/
def fill (R : Rdr σ) (w : Scratch σ) (fuel : Nat) (m : BMem) (c : SBufCommon σ) (endOffset : Int) : BMem × SBufCommon σ × Option MOut × List Nat :=
  let endBuffer := c.start + c.bytes.len
  if c.err = none ∧ endOffset > endBuffer then
    let numToRead := BufSys.roundUp (endOffset - endBuffer)
    if c.length ≥ 0 ∧ ¬ endBuffer ≤ c.length then (m, c, some (.other (.panic .internal)), [])
    else
      let remain := c.length - endBuffer
      let eof := decide (c.length ≥ 0 ∧ numToRead ≥ remain)
      let numToRead := if eof then remain else numToRead
      let bufLen : Int := c.bytes.len                                                          -- `endBuffer - beginBuffer`
      let bufCap := bufLen + numToRead
      if bufCap < 0 then (m, c, some (.other (.panic .bounds)), [])                             -- `make` panics
      else
        let (m, bufNew) := m.make bufCap.toNat
        match bufNew.sub 0 bufLen, c.bytes.sub 0 bufLen with
        | some dst, some src =>
          let m := m.copy dst src
          let c := { c with bytes := dst }                                                    -- `bufNew[0:bufLen]`
          let r := readLoop R w fuel m c bufNew bufLen numToRead
          match r.2.2 with
          | some o => (r.1, r.2.1, some o, [bufNew.arr])
          | none =>
            if eof ∧ r.2.1.err = none then
              (r.1, { r.2.1 with length := r.2.1.start + r.2.1.bytes.len, err := some .eof }, none, [bufNew.arr])
            else (r.1, r.2.1, none, [bufNew.arr])
        | _, _ => (m, c, some (.other (.panic .bounds)), [bufNew.arr])
  else (m, c, none, [])

/-- The end of `Read` (`buffered.go:215-228`). -/
def finishRead (s : SBufSys σ) (h : Nat) (b : BufBody) (p : BSlice) : SBufSys σ × MOut :=
  let beginBuffer := s.common.start
  let endBuffer := beginBuffer + s.common.bytes.len
  let beginOffset := b.offset
  let short := decide (beginOffset + p.len > endBuffer)
  let endOffset := if short then endBuffer else beginOffset + p.len
  let err := if short then s.common.err else none
  let b := if short then { b with eof := true } else b
  let s := { s with heap := s.heap.set h b }
  let i := beginOffset - beginBuffer
  let j := endOffset - beginBuffer
  match p.sub 0 (j - i), s.common.bytes.sub i j with
  | some dst, some src =>
    let s := { s with mem := s.mem.copy dst src, heap := s.heap.set h { b with offset := endOffset } }
    let r := s.advance beginOffset endOffset
    match r.2 with
    | some q => (r.1, .other (.panic q))
    | none => (r.1, .read (j - i) err)
  | _, _ => (s, .other (.panic .bounds))

/-- `body.Read(p)` (`buffered.go:141-229`). -/
def read (R : Rdr σ) (w : Scratch σ) (fuel : Nat) (s : SBufSys σ) (h : Nat) (b : BufBody) (p : BSlice) : SBufSys σ × MOut :=
  if b.closed then (s, .read 0 (some .closed))
  else if b.eof then (s, .read 0 s.common.err)
  else if ¬ b.offset ≥ s.common.start then (s, .other (.panic .internal))
  else
    let r := fill R w fuel s.mem s.common (b.offset + p.len)
    let s := { s with mem := r.1, common := r.2.1, own := s.own ++ r.2.2.2 }
    match r.2.2.1 with
    | some o => (s, o)
    | none => s.finishRead h b p

/-- `body.Close()` (`buffered.go:231-245`). -/
def close (R : Rdr σ) (s : SBufSys σ) (h : Nat) (b : BufBody) : SBufSys σ × Out :=
  if b.closed then (s, .closed (some .closed))
  else
    let r := unref R s h b
    match r.2.2 with
    | some p => (r.1, .panic p)
    | none => ({ r.1 with heap := r.1.heap.set h { offset := 0, eof := false, closed := true } }, .closed r.2.1)

/-- `body.Copy()` (`buffered.go:247-263`). -/
def copy (s : SBufSys σ) (b : BufBody) : SBufSys σ × Out :=
  if b.closed then (s, .copiedClosed)
  else if !s.common.hasR then (s, .panic .nilDeref)
  else
    let dupe : BufBody := { offset := b.offset, eof := b.eof, closed := b.closed }
    let h := s.heap.length
    ({ s with heap := s.heap ++ [dupe] }.ref h dupe, .copied h)

/-- `body.Unwrap()` (`buffered.go:265-279`). -/
def unwrap (s : SBufSys σ) (b : BufBody) : Out :=
  if b.closed then .unwrap false else .unwrap s.common.hasR

/-- One call. -/
def step (R : Rdr σ) (w : Scratch σ) (fuel : Nat) (s : SBufSys σ) (x : MCall) : SBufSys σ × MOut :=
  let s := { s with mem := x.mem }
  match s.heap[x.op.h]? with
  | none => (s, .other .unsupported)
  | some b =>
    match x.op with
    | .read h _ => s.read R w fuel h b x.p
    | .remaining _ => (s, .other (.remaining (s.bytesRemaining b)))
    | .copy _ => let r := s.copy b; (r.1, .other r.2)
    | .close h => let r := s.close R h b; (r.1, .other r.2)
    | .unwrap _ => (s, .other (s.unwrap b))
    | .readAt _ _ _ => (s, .other .unsupported)
    | .seek _ _ _ => (s, .other .unsupported)
    | .writeTo _ _ => (s, .other .unsupported)

/-- The buffered case of `FromReaderAndLength` (`/repo/body/body.go:343-352`). -/
def init (m : BMem) (rdr : σ) (length : Int) : SBufSys σ :=
  let s : SBufSys σ := { mem := m, common := { rdr := rdr, length := length }, heap := [{}] }
  s.ref 0 {}

end SBufSys
end Verif
