import Verif.Model.IoCopy

/-!
# Functions of the standard library that use a Body

`io.ReadAll`, `io.ReadAtLeast`, `io.ReadFull`, `io.LimitReader`, `io.CopyN`, `io.MultiReader`, `io.NewSectionReader` and `http.ServeContent` (Go 1.17,
from knowledge of io/io.go, io/multi.go and net/http/fs.go).  They use a Body only through the methods that `Model/IoCopy.lean` and `Basic.lean` have.

Simplifications: `io.Copy` of a `LimitedReader` takes a buffer no larger than the limit, which makes no difference because the `LimitedReader` cuts the
buffer to the limit anyway.  `http.ServeContent` is modelled with the ranges already parsed, and at most one of them; the preconditions (`If-Match` and so
on), the headers it sets and the text of its error pages are left out.
-/

set_option autoImplicit false

namespace Verif
variable {β ω S : Type}

/-- `io.ErrUnexpectedEOF`. -/
def errUnexpectedEOF : Err := .ext 3
/-- `io.ErrShortBuffer`. -/
def errShortBuffer : Err := .ext 4

/-- The loop of `io.ReadAll`: `buf` has been read, the slice has capacity `cap`.  `grow n` is the capacity that `append` gives to a full slice of `n` bytes. -/
def readAllLoop (B : BodyOps β) (grow : Nat → Nat) : Nat → β → List Byte → Nat → β × RAns
  | 0, b, _, _ => (b, .hang)
  | fuel + 1, b, buf, cap =>
    let cap := if buf.length = cap then grow cap else cap
    match B.read b (cap - buf.length) with
    | (b, .panic p) => (b, .panic p)
    | (b, .hang) => (b, .hang)
    | (b, .ret (d, err)) =>
      if cap < buf.length + d.length then (b, .panic .bounds)
      else match err with
        | some e => (b, .ret (buf ++ d, if e = .eof then none else some e))
        | none => readAllLoop B grow fuel b (buf ++ d) cap

/-- `io.ReadAll(body)`. -/
def readAll (B : BodyOps β) (grow : Nat → Nat) (fuel : Nat) (b : β) : β × RAns := readAllLoop B grow fuel b [] 512

/-- The loop of `io.ReadAtLeast`; `buf` has been read so far. -/
def atLeastLoop (B : BodyOps β) (size least : Nat) : Nat → β → List Byte → β × RAns
  | 0, b, _ => (b, .hang)
  | fuel + 1, b, buf =>
    if least ≤ buf.length then (b, .ret (buf, none))
    else match B.read b (size - buf.length) with
      | (b, .panic p) => (b, .panic p)
      | (b, .hang) => (b, .hang)
      | (b, .ret (d, none)) => atLeastLoop B size least fuel b (buf ++ d)
      | (b, .ret (d, some e)) =>
        let buf := buf ++ d
        if least ≤ buf.length then (b, .ret (buf, none))
        else if 0 < buf.length ∧ e = .eof then (b, .ret (buf, some errUnexpectedEOF))
        else (b, .ret (buf, some e))

/-- `io.ReadAtLeast(body, p, least)`, `len(p) = size`. -/
def readAtLeast (B : BodyOps β) (fuel : Nat) (b : β) (size least : Nat) : β × RAns :=
  if size < least then (b, .ret ([], some errShortBuffer)) else atLeastLoop B size least fuel b []

/-- `io.ReadFull(body, p)`, `len(p) = size`. -/
def readFull (B : BodyOps β) (fuel : Nat) (b : β) (size : Nat) : β × RAns := readAtLeast B fuel b size size

/-- `io.LimitReader(body, n)`; the state is the Body's and what is left of `n`.  (It has no `Close`.) -/
def limited (B : BodyOps β) : BodyOps (β × Int) where
  read s k :=
    if s.2 ≤ 0 then (s, .ret ([], some .eof))
    else
      let k := if s.2 < k then s.2.toNat else k
      match B.read s.1 k with
      | (b, .ret (d, e)) => ((b, s.2 - d.length), .ret (d, e))
      | (b, .panic p) => ((b, s.2), .panic p)
      | (b, .hang) => ((b, s.2), .hang)
  close s := (s, .ret none)
  remaining s := s.2
  isWriterTo := false
  writeTo s := .hang s

/-- `io.CopyN(dst, body, n)`. -/
def copyN (D : RW ω) (B : BodyOps β) (fuel : Nat) (b : β) (w : ω) (n : Int) : β × ω × WAns :=
  match ioCopy D (limited B) fuel (b, n) w with
  | (s, w, .ret (written, err)) =>
    if written = n then (s.1, w, .ret (n, none))
    else if written < n ∧ err = none then (s.1, w, .ret (written, some .eof))
    else (s.1, w, .ret (written, err))
  | (s, w, .panic p) => (s.1, w, .panic p)
  | (s, w, .hang) => (s.1, w, .hang)

/-- `Read` of `io.MultiReader(bodies...)`; the state is the list of those not finished. -/
def multiRead (B : BodyOps β) : List β → Nat → List β × RAns
  | [], _ => ([], .ret ([], some .eof))
  | b :: bs, k =>
    match B.read b k with
    | (b, .panic p) => (b :: bs, .panic p)
    | (b, .hang) => (b :: bs, .hang)
    | (b, .ret (d, e)) =>
      if e = some .eof then
        if 0 < d.length then (bs, .ret (d, if bs.isEmpty then some .eof else none))
        else multiRead B bs k
      else (b :: bs, .ret (d, e))

/-- `io.MultiReader(bodies...)`.  (It has no `Close`.) -/
def multi (B : BodyOps β) : BodyOps (List β) where
  read := multiRead B
  close s := (s, .ret none)
  remaining _ := -1
  isWriterTo := false
  writeTo s := .hang s

/-- `Read` of `io.NewSectionReader(body, off, n)` with `limit = off + n`; the state is the family's and the position. -/
def sectionOf (step : S → Op → S × Out) (h : Nat) (limit : Int) : BodyOps (S × Int) where
  read s k :=
    if limit ≤ s.2 then (s, .ret ([], some .eof))
    else
      let k := if limit - s.2 < k then (limit - s.2).toNat else k
      match step s.1 (.readAt h k s.2) with
      | (s', .read d e) => ((s', s.2 + d.length), .ret (d, e))
      | (s', .panic p) => ((s', s.2), .panic p)
      | (s', .hang) => ((s', s.2), .hang)
      | (s', _) => ((s', s.2), .panic .nilDeref)
  close s := (s, .ret none)
  remaining s := limit - s.2
  isWriterTo := false
  writeTo s := .hang s

/-- `body.Seek(off, whence)` as `http.ServeContent` uses it. -/
def seekOn (step : S → Op → S × Out) (h : Nat) (s : S) (off whence : Int) : S × Res (Int × Option Err) :=
  match step s (.seek h off whence) with
  | (s', .seek n e) => (s', .ret (n, e))
  | (s', .panic p) => (s', .panic p)
  | (s', .hang) => (s', .hang)
  | (s', _) => (s', .panic .nilDeref)

/-- The end of `serveContent`: the status, and `n` bytes unless the request is a HEAD request. -/
def sendContent (D : RW ω) (step : S → Op → S × Out) (drains : Bool) (h fuel : Nat) (isHEAD : Bool) (code : Int) (n : Int) (s : S) (w : ω) :
    S × ω × Res Unit :=
  match D.writeHeader w code with
  | (w, .panic p) => (s, w, .panic p)
  | (w, .hang) => (s, w, .hang)
  | (w, .ret ()) =>
    if isHEAD then (s, w, .ret ())
    else match copyN D (BodyOps.ofFam step drains h) fuel s w n with
      | (s, w, .ret _) => (s, w, .ret ())
      | (s, w, .panic p) => (s, w, .panic p)
      | (s, w, .hang) => (s, w, .hang)

/-- An error page of `http.ServeContent`, without its text. -/
def sendError (D : RW ω) (code : Int) (s : S) (w : ω) : S × ω × Res Unit :=
  let r := D.writeHeader w code
  (s, r.1, r.2)

/-- `serveContent` after the size is known and the content rewound: `sniff` if the type of the content has to be found out from its beginning; `range` is
the range asked for, if any (start and length, within the size). -/
def serveContentFrom (D : RW ω) (step : S → Op → S × Out) (drains : Bool) (h fuel : Nat) (isHEAD sniff : Bool) (range : Option (Int × Int))
    (size : Int) (s : S) (w : ω) : S × ω × Res Unit :=
  let pre : S × Res (Option Err) :=
    if sniff then
      match readFull (BodyOps.ofFam step drains h) fuel s 512 with
      | (s, .panic p) => (s, .panic p)
      | (s, .hang) => (s, .hang)
      | (s, .ret _) => match seekOn step h s 0 0 with
        | (s, .ret (_, e)) => (s, .ret e)
        | (s, .panic p) => (s, .panic p)
        | (s, .hang) => (s, .hang)
    else (s, .ret none)
  match pre with
  | (s, .panic p) => (s, w, .panic p)
  | (s, .hang) => (s, w, .hang)
  | (s, .ret (some _)) => sendError D 500 s w
  | (s, .ret none) =>
    match range with
    | none => sendContent D step drains h fuel isHEAD 200 size s w
    | some (start, len) =>
      match seekOn step h s start 0 with
      | (s, .panic p) => (s, w, .panic p)
      | (s, .hang) => (s, w, .hang)
      | (s, .ret (_, some _)) => sendError D 416 s w
      | (s, .ret (_, none)) => sendContent D step drains h fuel isHEAD 206 len s w

/-- `http.ServeContent(w, req, …, body)`; `ranges size` are the ranges that the request asks for, of a content of that size. -/
def serveContent (D : RW ω) (step : S → Op → S × Out) (drains : Bool) (h fuel : Nat) (isHEAD sniff : Bool) (ranges : Int → Option (Int × Int))
    (s : S) (w : ω) : S × ω × Res Unit :=
  match seekOn step h s 0 2 with
  | (s, .panic p) => (s, w, .panic p)
  | (s, .hang) => (s, w, .hang)
  | (s, .ret (_, some _)) => sendError D 500 s w
  | (s, .ret (size, none)) =>
    match seekOn step h s 0 0 with
    | (s, .panic p) => (s, w, .panic p)
    | (s, .hang) => (s, w, .hang)
    | (s, .ret (_, some _)) => sendError D 500 s w
    | (s, .ret (_, none)) => serveContentFrom D step drains h fuel isHEAD sniff (ranges size) size s w

end Verif
