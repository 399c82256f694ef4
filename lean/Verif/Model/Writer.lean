import Verif.Model.Serve

/-!
# Model of `/repo/response/writer.go`

`assert.Assertf` panics if its condition is false.  Whether `assert.Raisef` panics or only reports is not known here (the
source of the `assert` package is not available): it is the parameter `raises`, and the theorems hold for both values.
`int64` sums of byte counts are unbounded.
-/

set_option autoImplicit false

namespace Verif

/-- `basicWriter` (`/repo/response/writer.go:43-49`), also the state of `flushWriter` and `fancyWriter`. -/
structure WState (ω : Type) where
  next : ω
  bytes : Int := 0
  status : Int := 0
  isHEAD : Bool
  sawError : Bool := false

/-- The three implementations (`/repo/response/writer.go:43-49, 119-121, 129-131`). -/
inductive WKind where
  | basic | flush | fancy
deriving DecidableEq, Repr

namespace Writer
variable {ω : Type}

/-- `writeHeaderImpl` (`/repo/response/writer.go:55-58`). -/
def writeHeaderImpl (N : RW ω) (s : WState ω) (status : Int) : WState ω × Res Unit :=
  let s := { s with status := status }
  let r := N.writeHeader s.next status
  ({ s with next := r.1 }, r.2)

/-- `MaybeWriteHeader` (`/repo/response/writer.go:60-67`). -/
def maybeWriteHeader (N : RW ω) (s : WState ω) (status : Int) : WState ω × Res Unit :=
  if ¬ status ≥ 100 then (s, .panic .badArg)
  else if ¬ status ≤ 999 then (s, .panic .badArg)
  else if s.status ≠ 0 then (s, .ret ())
  else writeHeaderImpl N s status

/-- `WriteHeader` (`/repo/response/writer.go:69-78`). -/
def writeHeader (N : RW ω) (raises : Bool) (s : WState ω) (status : Int) : WState ω × Res Unit :=
  if ¬ status ≥ 100 then (s, .panic .badArg)
  else if ¬ status ≤ 999 then (s, .panic .badArg)
  else if s.status ≠ 0 then
    ({ s with sawError := true }, if raises then .panic .badArg else .ret ())
  else writeHeaderImpl N s status

/-- `Write` (`/repo/response/writer.go:80-94`). -/
def write (N : RW ω) (s : WState ω) (p : List Byte) : WState ω × WAns :=
  match maybeWriteHeader N s 200 with
  | (s, .panic q) => (s, .panic q)
  | (s, .hang) => (s, .hang)
  | (s, .ret ()) =>
    if s.isHEAD || decide (s.status = 204) then (s, .ret (p.length, none))
    else
      match N.write s.next p with
      | (w, .panic q) => ({ s with next := w }, .panic q)
      | (w, .hang) => ({ s with next := w }, .hang)
      | (w, .ret (n, err)) =>
        if ¬ n ≥ 0 then ({ s with next := w }, .panic .badWriter)
        else
          let s := { s with next := w, bytes := s.bytes + n }
          let s := if err ≠ none then { s with sawError := true } else s
          (s, .ret (n, err))

/-- `Push` (`/repo/response/writer.go:96-101`). -/
def push (N : RW ω) (s : WState ω) (url : GoStr) : WState ω × Res (Option Err) :=
  if N.isPusher then
    let r := N.push s.next url
    ({ s with next := r.1 }, r.2)
  else (s, .ret (some .notSupported))

/-- `Flush` (`/repo/response/writer.go:123-127, 154-158`); the type assertion panics if the wrapped writer is no Flusher. -/
def flush (N : RW ω) (s : WState ω) : WState ω × Res Unit :=
  match maybeWriteHeader N s 200 with
  | (s, .panic q) => (s, .panic q)
  | (s, .hang) => (s, .hang)
  | (s, .ret ()) =>
    if !N.isFlusher then (s, .panic .nilDeref)
    else
      let r := N.flush s.next
      ({ s with next := r.1 }, r.2)

/-- The wrapped writer's `ReadFrom`, and what is done with its result (`/repo/response/writer.go:148-151`). -/
def wrapRF (s : WState ω) : RF ω → RF (WState ω)
  | .done w n err =>
    if ¬ n ≥ 0 then .panic { s with next := w } .badWriter
    else .done { s with next := w, bytes := s.bytes + n } n err
  | .read w k cont => .read { s with next := w } k fun d e => wrapRF s (cont d e)
  | .drain w cont => .drain { s with next := w } fun n e => wrapRF s (cont n e)
  | .panic w p => .panic { s with next := w } p
  | .hang w => .hang { s with next := w }

/-- `ReadFrom` (`/repo/response/writer.go:141-152`). -/
def readFrom (N : RW ω) (s : WState ω) : RF (WState ω) :=
  match maybeWriteHeader N s 200 with
  | (s, .panic q) => .panic s q
  | (s, .hang) => .hang s
  | (s, .ret ()) =>
    if s.isHEAD || decide (s.status = 204) then .drain s fun n err => .done s n err
    else if !N.isReaderFrom then .panic s .nilDeref
    else wrapRF s (N.readFrom s.next)

/-- `CloseNotify` and `Hijack` (`/repo/response/writer.go:133-139`) only delegate: whether the type assertion succeeds. -/
def closeNotify (N : RW ω) : Res Unit := if N.isCloseNotifier then .ret () else .panic .nilDeref
@[inherit_doc closeNotify] def hijack (N : RW ω) : Res Unit := if N.isHijacker then .ret () else .panic .nilDeref

/-- The Writer as an `http.ResponseWriter`: the method set of each implementation (`/repo/response/writer.go:173-179`). -/
def ops (N : RW ω) (raises : Bool) (kind : WKind) : RW (WState ω) where
  setHeader s k v := { s with next := N.setHeader s.next k v }          -- :51-53
  writeHeader := writeHeader N raises
  write := write N
  flush := flush N
  push := push N
  readFrom := readFrom N
  isPusher := true
  isReaderFrom := kind == .fancy
  isFlusher := kind != .basic
  isCloseNotifier := kind == .fancy
  isHijacker := kind == .fancy

/-- Which implementation `NewWriter` chooses for a ResponseWriter that is no Writer (`/repo/response/writer.go:32-40`). -/
def kindFor (N : RW ω) : WKind :=
  if N.isCloseNotifier && N.isHijacker && N.isFlusher && N.isReaderFrom then .fancy
  else if N.isFlusher then .flush
  else .basic

/-- The state of a new Writer. -/
def init (w : ω) (isHEAD : Bool) : WState ω := { next := w, isHEAD := isHEAD }

end Writer

/-- The interface `Writer` (`/repo/response/writer.go:12-20`). -/
structure Wr (ω : Type) extends RW ω where
  maybeWriteHeader : ω → Int → ω × Res Unit
  status : ω → Int
  bytesWritten : ω → Int
  sawError : ω → Bool

/-- The Writers of this package. -/
def Writer.wr {ω : Type} (N : RW ω) (raises : Bool) (kind : WKind) : Wr (WState ω) where
  toRW := Writer.ops N raises kind
  maybeWriteHeader := Writer.maybeWriteHeader N
  status s := s.status                                                   -- :103-105
  bytesWritten s := s.bytes                                              -- :107-109
  sawError s := s.sawError                                               -- :111-113

/-- What may be passed to `NewWriter`: a Writer, or another ResponseWriter. -/
inductive AnyRW (ω : Type) where
  | writer (W : Wr ω)
  | plain (N : RW ω)

/-- `NewWriter` (`/repo/response/writer.go:22-41`): the Writer and its state, which is either the given object or wraps it. -/
inductive NewWriter (ω : Type) where
  | same (W : Wr ω) (w : ω)
  | wrapped (W : Wr (WState ω)) (s : WState ω)

@[inherit_doc NewWriter] def newWriter {ω : Type} (raises : Bool) (isHEAD : Bool) (w : ω) : AnyRW ω → NewWriter ω
  | .writer W => .same W w
  | .plain N => .wrapped (Writer.wr N raises (Writer.kindFor N)) (Writer.init w isHEAD)

/-! ## Histories of calls on a Writer -/

/-- A source for `ReadFrom`: the answers its `Read` is going to give (`io.EOF` after the last). -/
abbrev Script := List RAns

/-- The source as an object. -/
def scriptOps : BodyOps Script where
  read s _ := match s with
    | [] => ([], .ret ([], some .eof))
    | a :: s => (s, a)
  close s := (s, .ret none)
  remaining _ := -1
  isWriterTo := false
  writeTo s := .panic s .nilDeref

/-- One call on a Writer. -/
inductive WOp where
  /-- `Header()[k] = v` -/
  | setHeader (k : GoStr) (v : List GoStr)
  | writeHeader (status : Int)
  | maybeWriteHeader (status : Int)
  | write (p : List Byte)
  | push (url : GoStr)
  | flush
  | readFrom (src : Script)
  | closeNotify
  | hijack

/-- What the caller observes. -/
inductive WOut where
  | unit (r : Res Unit)
  | count (r : WAns)
  | pushed (r : Res (Option Err))
  /-- the Writer has no such method -/
  | unsupported
deriving DecidableEq, Repr

/-- One call on the Writer `kind` wrapping `N`. -/
def Writer.step {ω : Type} (N : RW ω) (raises : Bool) (kind : WKind) (fuel : Nat) (s : WState ω) :
    WOp → WState ω × WOut
  | .setHeader k v => ((Writer.ops N raises kind).setHeader s k v, .unit (.ret ()))
  | .writeHeader st => let r := Writer.writeHeader N raises s st; (r.1, .unit r.2)
  | .maybeWriteHeader st => let r := Writer.maybeWriteHeader N s st; (r.1, .unit r.2)
  | .write p => let r := Writer.write N s p; (r.1, .count r.2)
  | .push url => let r := Writer.push N s url; (r.1, .pushed r.2)
  | .flush => if kind = .basic then (s, .unsupported) else let r := Writer.flush N s; (r.1, .unit r.2)
  | .readFrom src => if kind = .fancy then
      let r := runRF scriptOps fuel (Writer.readFrom N s) src; (r.2.1, .count r.2.2)
    else (s, .unsupported)
  | .closeNotify => if kind = .fancy then (s, .unit (Writer.closeNotify N)) else (s, .unsupported)
  | .hijack => if kind = .fancy then (s, .unit (Writer.hijack N)) else (s, .unsupported)

end Verif
