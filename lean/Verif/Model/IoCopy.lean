import Verif.Model.Construct

/-!
# ResponseWriters, Bodies as sources, and `io.Copy`

`http.ResponseWriter`s and Bodies met by `Response.Serve` are arbitrary objects.  Their methods are functions on an
arbitrary state.  Methods which call back (`ReadFrom` reads from the source, `WriteTo` writes to the destination) are
interaction trees: what the method does next depends on the answers it has got so far.  A tree is well-founded, so a method
that would go on for ever is represented by trees that are cut off at any depth by `hang`.

Not modelled: negative counts from a Body's `Read`; a `ReadFrom` which uses its source otherwise than by `Read`.
-/

set_option autoImplicit false

namespace Verif

/-- The outcome of `Body.Read`. -/
abbrev RAns := Res (List Byte × Option Err)

/-- The outcome of `Write`, `ReadFrom`, `WriteTo`, `io.Copy`. -/
abbrev WAns := Res (Int × Option Err)

/-- A run of `WriteTo(dst)` in progress; `b` is the object at that point. -/
inductive WT (β : Type) where
  /-- returns `(n, err)` -/
  | done (b : β) (n : Int) (err : Option Err)
  /-- calls `dst.Write(d)` and goes on with its answer -/
  | write (b : β) (d : List Byte) (cont : Int → Option Err → WT β)
  | panic (b : β) (p : Panic)
  | hang (b : β)

/-- A run of `ReadFrom(src)` in progress. -/
inductive RF (ω : Type) where
  /-- returns `(n, err)` -/
  | done (w : ω) (n : Int) (err : Option Err)
  /-- calls `src.Read(p)` with `len(p) = k` and goes on with its answer -/
  | read (w : ω) (k : Nat) (cont : List Byte → Option Err → RF ω)
  /-- calls `io.Copy(io.Discard, src)` and goes on with its answer -/
  | drain (w : ω) (cont : Int → Option Err → RF ω)
  | panic (w : ω) (p : Panic)
  | hang (w : ω)

/-- A Body, as far as `Serve` is concerned (`/repo/body/body.go:34-93`). -/
structure BodyOps (β : Type) where
  read : β → Nat → β × RAns
  close : β → β × Res (Option Err)
  remaining : β → Int
  /-- implements `io.WriterTo` -/
  isWriterTo : Bool
  writeTo : β → WT β

/-- An `http.ResponseWriter` and its optional interfaces.  `Header()` returns a map (not nil); `setHeader` is the assignment
`w.Header()[k] = v`. -/
structure RW (ω : Type) where
  setHeader : ω → GoStr → List GoStr → ω
  writeHeader : ω → Int → ω × Res Unit
  write : ω → List Byte → ω × WAns
  flush : ω → ω × Res Unit
  push : ω → GoStr → ω × Res (Option Err)
  readFrom : ω → RF ω
  isPusher : Bool
  isReaderFrom : Bool
  isFlusher : Bool
  isCloseNotifier : Bool
  isHijacker : Bool

variable {β ω : Type}

/-- Run `WriteTo` against a destination's `Write`. -/
def runWT (write : ω → List Byte → ω × WAns) : WT β → ω → β × ω × WAns
  | .done b n err, w => (b, w, .ret (n, err))
  | .write b d cont, w =>
    match write w d with
    | (w, .ret (n, err)) => runWT write (cont n err) w
    | (w, .panic p) => (b, w, .panic p)
    | (w, .hang) => (b, w, .hang)
  | .panic b p, w => (b, w, .panic p)
  | .hang b, w => (b, w, .hang)

/-- The loop of `io.Discard.ReadFrom` (Go 1.17, io/io.go): reads 8 KiB at a time until an error. -/
def discardLoop (B : BodyOps β) : Nat → β → Int → β × WAns
  | 0, b, _ => (b, .hang)
  | fuel + 1, b, n =>
    match B.read b 8192 with
    | (b, .ret (d, none)) => discardLoop B fuel b (n + d.length)
    | (b, .ret (d, some e)) => (b, .ret (n + d.length, if e = .eof then none else some e))
    | (b, .panic p) => (b, .panic p)
    | (b, .hang) => (b, .hang)

/-- `io.Copy(io.Discard, src)`. -/
def discardAll (B : BodyOps β) (fuel : Nat) (b : β) : β × WAns :=
  if B.isWriterTo then
    let r := runWT (ω := Unit) (fun w d => (w, .ret (d.length, none))) (B.writeTo b) ()
    (r.1, r.2.2)
  else discardLoop B fuel b 0

/-- Run `ReadFrom` against a source. -/
def runRF (B : BodyOps β) (fuel : Nat) : RF ω → β → β × ω × WAns
  | .done w n err, b => (b, w, .ret (n, err))
  | .read w k cont, b =>
    match B.read b k with
    | (b, .ret (d, err)) => runRF B fuel (cont d err) b
    | (b, .panic p) => (b, w, .panic p)
    | (b, .hang) => (b, w, .hang)
  | .drain w cont, b =>
    match discardAll B fuel b with
    | (b, .ret (n, err)) => runRF B fuel (cont n err) b
    | (b, .panic p) => (b, w, .panic p)
    | (b, .hang) => (b, w, .hang)
  | .panic w p, b => (b, w, .panic p)
  | .hang w, b => (b, w, .hang)

/-- The loop of `io.Copy` (Go 1.17, io/io.go, `copyBuffer`) with its buffer of 32 KiB. -/
def copyLoop (D : RW ω) (B : BodyOps β) : Nat → β → ω → Int → β × ω × WAns
  | 0, b, w, _ => (b, w, .hang)
  | fuel + 1, b, w, written =>
    match B.read b 32768 with
    | (b, .panic p) => (b, w, .panic p)
    | (b, .hang) => (b, w, .hang)
    | (b, .ret (d, er)) =>
      if d.length > 0 then
        if d.length > 32768 then (b, w, .panic .bounds)
        else match D.write w d with
          | (w, .panic p) => (b, w, .panic p)
          | (w, .hang) => (b, w, .hang)
          | (w, .ret (nw, ew)) =>
            let bad := decide (nw < 0 ∨ d.length < nw)
            let ew := if bad && ew.isNone then some .invalidWrite else ew
            let nw := if bad then 0 else nw
            let written := written + nw
            match ew with
            | some e => (b, w, .ret (written, some e))
            | none =>
              if (d.length : Int) ≠ nw then (b, w, .ret (written, some .shortWrite))
              else match er with
                | some e => (b, w, .ret (written, if e = .eof then none else some e))
                | none => copyLoop D B fuel b w written
      else match er with
        | some e => (b, w, .ret (written, if e = .eof then none else some e))
        | none => copyLoop D B fuel b w written

/-- `io.Copy(dst, src)` (Go 1.17, io/io.go). -/
def ioCopy (D : RW ω) (B : BodyOps β) (fuel : Nat) (b : β) (w : ω) : β × ω × WAns :=
  if B.isWriterTo then runWT D.write (B.writeTo b) w
  else if D.isReaderFrom then runRF B fuel (D.readFrom w) b
  else copyLoop D B fuel b w 0

/-! ## The Bodies of this repository as sources -/

/-- Body `h` of a family, as far as `Serve` is concerned.  `WriteTo` of the Bodies of this repository calls `Write` at most
once, with data that does not depend on the answer (`BytesBody.writeTo`); a `Write` that panics leaves the Body as it was
(`memFam_writeTo_faithful` in `Proofs/Source.lean`: this tree does what the call does, whatever the writer does). -/
def BodyOps.ofFam {S : Type} (step : S → Op → S × Out) (drains : Bool) (h : Nat) : BodyOps S where
  read s k := match step s (.read h k) with
    | (s', .read d e) => (s', .ret (d, e))
    | (s', .panic p) => (s', .panic p)
    | (s', .hang) => (s', .hang)
    | (s', _) => (s', .panic .nilDeref)
  close s := match step s (.close h) with
    | (s', .closed e) => (s', .ret e)
    | (s', .panic p) => (s', .panic p)
    | (s', .hang) => (s', .hang)
    | (s', _) => (s', .panic .nilDeref)
  remaining s := match step s (.remaining h) with
    | (_, .remaining n) => n
    | _ => 0
  isWriterTo := drains
  writeTo s := match step s (.writeTo h (fun _ => .ok (0, none))) with
    | (s', .wrote none n err) => .done s' n err
    | (_, .wrote (some d) _ _) => .write s d fun n err =>
      match step s (.writeTo h (fun _ => .ok (n, err))) with
      | (s', .wrote _ n err) => .done s' n err
      | (s', .panic p) => .panic s' p
      | (s', _) => .panic s' .nilDeref
    | (s', .panic p) => .panic s' p
    | (s', _) => .panic s' .nilDeref

/-- A nil Body: every call panics. -/
def BodyOps.nil : BodyOps Unit where
  read b _ := (b, .panic .nilDeref)
  close b := (b, .panic .nilDeref)
  remaining _ := 0
  isWriterTo := false
  writeTo b := .panic b .nilDeref

/-! ## Recording -/

/-- What a ResponseWriter experienced. -/
inductive WEv where
  /-- `Header()[k] = v` -/
  | set (k : GoStr) (v : List GoStr)
  /-- `WriteHeader(code)` was called -/
  | status (code : Int)
  /-- `Write(d)` was called and ended so -/
  | write (d : List Byte) (r : WAns)
  /-- `Flush()` was called -/
  | flush
  /-- `Push(url)` was called and ended so -/
  | push (url : GoStr) (r : Res (Option Err))
  /-- `ReadFrom` was called -/
  | readFrom
  /-- `ReadFrom` got these bytes from a `Read` of its source -/
  | took (d : List Byte)
  /-- `ReadFrom` returned -/
  | readFromDone (n : Int) (err : Option Err)
deriving DecidableEq, Repr

/-- State of an object that keeps a log. -/
structure Logged (ε ω : Type) where
  inner : ω
  log : List ε := []

/-- `ReadFrom` of a recording writer. -/
def RF.record : RF ω → List WEv → RF (Logged WEv ω)
  | .done w n err, l => .done ⟨w, l ++ [.readFromDone n err]⟩ n err
  | .read w k cont, l => .read ⟨w, l⟩ k fun d e => (cont d e).record (l ++ [.took d])
  | .drain w cont, l => .drain ⟨w, l⟩ fun n e => (cont n e).record l
  | .panic w p, l => .panic ⟨w, l⟩ p
  | .hang w, l => .hang ⟨w, l⟩

/-- The same ResponseWriter, keeping a log.  Used only to talk about the calls. -/
def RW.record (D : RW ω) : RW (Logged WEv ω) where
  setHeader s k v := ⟨D.setHeader s.inner k v, s.log ++ [.set k v]⟩
  writeHeader s code := let r := D.writeHeader s.inner code; (⟨r.1, s.log ++ [.status code]⟩, r.2)
  write s d := let r := D.write s.inner d; (⟨r.1, s.log ++ [.write d r.2]⟩, r.2)
  flush s := let r := D.flush s.inner; (⟨r.1, s.log ++ [.flush]⟩, r.2)
  push s url := let r := D.push s.inner url; (⟨r.1, s.log ++ [.push url r.2]⟩, r.2)
  readFrom s := (D.readFrom s.inner).record (s.log ++ [.readFrom])
  isPusher := D.isPusher
  isReaderFrom := D.isReaderFrom
  isFlusher := D.isFlusher
  isCloseNotifier := D.isCloseNotifier
  isHijacker := D.isHijacker

/-- What a Body experienced. -/
inductive BEv where
  /-- `Read(p)`, `len(p) = k` -/
  | read (k : Nat) (r : RAns)
  /-- its `WriteTo` handed these bytes to the destination, which answered so -/
  | gave (d : List Byte) (n : Int) (err : Option Err)
  /-- its `WriteTo` returned -/
  | writeToDone (n : Int) (err : Option Err)
  /-- `Close()` -/
  | close (r : Res (Option Err))
deriving DecidableEq, Repr

/-- `WriteTo` of a recording Body. -/
def WT.record : WT β → List BEv → WT (Logged BEv β)
  | .done b n err, l => .done ⟨b, l ++ [.writeToDone n err]⟩ n err
  | .write b d cont, l => .write ⟨b, l⟩ d fun n e => (cont n e).record (l ++ [.gave d n e])
  | .panic b p, l => .panic ⟨b, l⟩ p
  | .hang b, l => .hang ⟨b, l⟩

/-- The same Body, keeping a log. -/
def BodyOps.record (B : BodyOps β) : BodyOps (Logged BEv β) where
  read s k := let r := B.read s.inner k; (⟨r.1, s.log ++ [.read k r.2]⟩, r.2)
  close s := let r := B.close s.inner; (⟨r.1, s.log ++ [.close r.2]⟩, r.2)
  remaining s := B.remaining s.inner
  isWriterTo := B.isWriterTo
  writeTo s := (B.writeTo s.inner).record s.log

end Verif
