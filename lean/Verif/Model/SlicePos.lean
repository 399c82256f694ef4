import Verif.Model.Slices
import Verif.Model.Positional

/-!
# Model of `/repo/body/readerat.go` and `/repo/body/seeker.go`, with slices

As `Model/Positional.lean`, but `Read` and `ReadAt` are handed a slice, and so is the Reader: it gets a part of the caller's own.  The other methods do not
have to do with slices and are those of `Model/Positional.lean`.
-/

set_option autoImplicit false

namespace Verif
variable {σ : Type}

namespace ReaderAtBody

/-- `common.readAt(p, offset)` (`/repo/body/readerat.go:56-62`). -/
def commonReadAtInto (R : Rdr σ) (w : Scratch σ) (m : BMem) (c : PosCommon σ) (p : BSlice) (offset : Int) : BMem × PosCommon σ × Res (Int × Option Err) :=
  if !c.hasR then (m, c, .panic .nilDeref)
  else
    let r := R.readAtInto w m c.rdr p offset
    let m := r.1
    let c := { c with rdr := r.2.1 }
    match r.2.2 with
    | .panics q => (m, c, .panic q)
    | .ret n err =>
      if ¬ n ≥ 0 then (m, c, .panic .badReader)
      else if ¬ n ≤ p.len then (m, c, .panic .badReader)
      else (m, c, .ret (n, err))

/-- `body.Read(p)` (`/repo/body/readerat.go:88-141`). -/
def readInto (R : Rdr σ) (w : Scratch σ) (m : BMem) (s : PosSys σ) (h : Nat) (b : PosBody) (p : BSlice) : BMem × PosSys σ × MOut :=
  if b.closed then (m, s, .read 0 (some .closed))
  else match b.err with
  | some e => (m, s, .read 0 (some e))
  | none =>
    let length := s.common.length
    let offset := if b.offset > length then length else b.offset
    let avail := length - offset
    let eof := decide ((p.len : Int) > avail)
    let x := if eof then avail else p.len
    let r := if avail > 0 then
        match p.sub 0 x with
        | none => (m, s.common, .panic .bounds)
        | some q => commonReadAtInto R w m s.common q offset
      else (m, s.common, .ret (0, none))
    match r.2.2 with
    | .panic q => (r.1, { s with common := r.2.1 }, .other (.panic q))
    | .hang => (r.1, { s with common := r.2.1 }, .other .hang)
    | .ret (n, err) =>
      let err := if eof && err.isNone then some .eof else err
      let offset := offset + n
      let b := { b with offset := offset }
      match err with
      | none => (r.1, { common := r.2.1, heap := s.heap.set h b }, .read n none)
      | some e =>
        let b := { b with err := some e }
        let c := if offset < r.2.1.length then { r.2.1 with length := offset } else r.2.1
        (r.1, { common := c, heap := s.heap.set h b }, .read n (some e))

/-- `body.ReadAt(p, offset)` (`/repo/body/readerat.go:196-235`). -/
def readAtInto (R : Rdr σ) (w : Scratch σ) (m : BMem) (s : PosSys σ) (b : PosBody) (p : BSlice) (offset : Int) : BMem × PosSys σ × MOut :=
  if b.closed then (m, s, .read 0 (some .closed))
  else if offset < 0 then (m, s, .read 0 (some (.negReadAt offset)))
  else
    let length := s.common.length
    let offset := if offset > length then length else offset
    let avail := length - offset
    let eof := decide ((p.len : Int) > avail)
    let x := if eof then avail else p.len
    let r := if avail > 0 then
        match p.sub 0 x with
        | none => (m, s.common, .panic .bounds)
        | some q => commonReadAtInto R w m s.common q offset
      else (m, s.common, .ret (0, none))
    match r.2.2 with
    | .panic q => (r.1, { s with common := r.2.1 }, .other (.panic q))
    | .hang => (r.1, { s with common := r.2.1 }, .other .hang)
    | .ret (n, err) => (r.1, { s with common := r.2.1 }, .read n (if eof && err.isNone then some .eof else err))

/-- One call. -/
def stepInto (R : Rdr σ) (w : Scratch σ) (s : PosSys σ) (x : MCall) : BMem × PosSys σ × MOut :=
  match s.heap[x.op.h]? with
  | none => (x.mem, s, .other .unsupported)
  | some b =>
    match x.op with
    | .read h _ => readInto R w x.mem s h b x.p
    | .readAt _ _ off => readAtInto R w x.mem s b x.p off
    | .seek h off wh => let r := seek s h b off wh; (x.mem, r.1, .other r.2)
    | .remaining _ => (x.mem, s, .other (.remaining (bytesRemaining s b)))
    | .copy _ => let r := copy s b; (x.mem, r.1, .other r.2)
    | .close h => let r := close R s h b; (x.mem, r.1, .other r.2)
    | .unwrap _ => (x.mem, s, .other (unwrap s b))
    | .writeTo _ _ => (x.mem, s, .other .unsupported)

end ReaderAtBody

namespace SeekerBody

/-- `common.readAt(p, offset)` (`/repo/body/seeker.go:55-66`). -/
def commonReadAtInto (R : Rdr σ) (w : Scratch σ) (m : BMem) (c : PosCommon σ) (p : BSlice) (offset : Int) : BMem × PosCommon σ × Res (Int × Option Err) :=
  if !c.hasR then (m, c, .panic .nilDeref)
  else
    let q := R.seek c.rdr offset 0
    let c := { c with rdr := q.1 }
    match q.2 with
    | .panics p => (m, c, .panic p)
    | .ok (_, some e) => (m, c, .ret (0, some e))
    | .ok (_, none) =>
      let r := R.readInto w m c.rdr p
      let m := r.1
      let c := { c with rdr := r.2.1 }
      match r.2.2 with
      | .panics q => (m, c, .panic q)
      | .ret n err =>
        if ¬ n ≥ 0 then (m, c, .panic .badReader)
        else if ¬ n ≤ p.len then (m, c, .panic .badReader)
        else (m, c, .ret (n, err))

/-- `body.Read(p)` (`/repo/body/seeker.go:87-141`). -/
def readInto (R : Rdr σ) (w : Scratch σ) (m : BMem) (s : PosSys σ) (h : Nat) (b : PosBody) (p : BSlice) : BMem × PosSys σ × MOut :=
  if b.closed then (m, s, .read 0 (some .closed))
  else match b.err with
  | some e => (m, s, .read 0 (some e))
  | none =>
    let length := s.common.length
    let offset := if b.offset > length then length else b.offset
    let avail := length - offset
    let eof := decide ((p.len : Int) > avail)
    let x := if eof then avail else p.len
    let r := if avail > 0 then
        match p.sub 0 x with
        | none => (m, s.common, .panic .bounds)
        | some q => commonReadAtInto R w m s.common q offset
      else (m, s.common, .ret (0, none))
    match r.2.2 with
    | .panic q => (r.1, { s with common := r.2.1 }, .other (.panic q))
    | .hang => (r.1, { s with common := r.2.1 }, .other .hang)
    | .ret (n, err) =>
      let err := if eof && err.isNone then some .eof else err
      let offset := offset + n
      let b := { b with offset := offset }
      match err with
      | none => (r.1, { common := r.2.1, heap := s.heap.set h b }, .read n none)
      | some e =>
        let b := { b with err := some e }
        let c := if offset < r.2.1.length then { r.2.1 with length := offset } else r.2.1
        (r.1, { common := c, heap := s.heap.set h b }, .read n (some e))

/-- `body.ReadAt(p, offset)` (`/repo/body/seeker.go:196-237`). -/
def readAtInto (R : Rdr σ) (w : Scratch σ) (m : BMem) (s : PosSys σ) (b : PosBody) (p : BSlice) (offset : Int) : BMem × PosSys σ × MOut :=
  if b.closed then (m, s, .read 0 (some .closed))
  else if offset < 0 then (m, s, .read 0 (some (.negReadAt offset)))
  else
    let length := s.common.length
    let offset := if offset > length then length else offset
    let avail := length - offset
    let eof := decide ((p.len : Int) > avail)
    let x := if eof then avail else p.len
    let r := if avail > 0 then
        match p.sub 0 x with
        | none => (m, s.common, .panic .bounds)
        | some q => commonReadAtInto R w m s.common q offset
      else (m, s.common, .ret (0, none))
    match r.2.2 with
    | .panic q => (r.1, { s with common := r.2.1 }, .other (.panic q))
    | .hang => (r.1, { s with common := r.2.1 }, .other .hang)
    | .ret (n, err) => (r.1, { s with common := r.2.1 }, .read n (if eof && err.isNone then some .eof else err))

/-- One call. -/
def stepInto (R : Rdr σ) (w : Scratch σ) (s : PosSys σ) (x : MCall) : BMem × PosSys σ × MOut :=
  match s.heap[x.op.h]? with
  | none => (x.mem, s, .other .unsupported)
  | some b =>
    match x.op with
    | .read h _ => readInto R w x.mem s h b x.p
    | .readAt _ _ off => readAtInto R w x.mem s b x.p off
    | .seek h off wh => let r := seek s h b off wh; (x.mem, r.1, .other r.2)
    | .remaining _ => (x.mem, s, .other (.remaining (bytesRemaining s b)))
    | .copy _ => let r := copy s b; (x.mem, r.1, .other r.2)
    | .close h => let r := close R s h b; (x.mem, r.1, .other r.2)
    | .unwrap _ => (x.mem, s, .other (unwrap s b))
    | .writeTo _ _ => (x.mem, s, .other .unsupported)

end SeekerBody
end Verif
