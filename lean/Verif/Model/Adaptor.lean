import Verif.Model.Writer
import Verif.Model.Strconv

/-!
# Model of `/repo/handler/adaptor.go`, `/repo/handler/onpanic.go` and `/repo/handler/handler.go`

The handler gets only the request, so it is represented by how the call ends.  Metrics are an event log.  Times are not
modelled: that a request took some time is an event without a value (`time.Since` uses the monotonic clock, so that
`Counter.Add` does not see a negative value).  Byte counts are converted to `float64` in Go; here they stay integers.
-/

set_option autoImplicit false

namespace Verif

/-- How `Inner.Handle(req)` ends (`/repo/handler/handler.go:9-17`).  A nil `Inner` is a `nilDeref` panic. -/
inductive Handled (β : Type) where
  | resp (r : Resp β)
  | panic (p : Panic)
  | hang

/-- The argument of `OnPanic` (`/repo/handler/onpanic.go`): the panic value itself, or a `PanicError` with it. -/
inductive PanicArg where
  | itself (p : Panic)
  | panicError (value : Panic)
deriving DecidableEq, Repr

/-- What happens to the metrics and `OnPanic`. -/
inductive MEv where
  /-- `PromPanicsTotal.Inc()` -/
  | panicsTotal
  /-- `PromRequestsTotal.With({code}).Inc()` -/
  | requestsTotal (code : GoStr)
  /-- `PromLatencyTotal.With({code}).Add(elapsed)` -/
  | latencyTotal (code : GoStr)
  /-- `PromRecvBytesTotal.With({code}).Add(n)` -/
  | recvBytesTotal (code : GoStr) (n : Int)
  /-- `PromSendBytesTotal.With({code}).Add(n)` -/
  | sendBytesTotal (code : GoStr) (n : Int)
  | latencyHist
  | recvBytesHist (n : Int)
  | sendBytesHist (n : Int)
  /-- `OnPanic(err)` was called -/
  | onPanic (a : PanicArg)
deriving DecidableEq, Repr

/-- Is the panic value an `error`?  Run-time errors are.  What the `assert` package panics with is not known here: it is the
parameter `assertErr`. -/
def Panic.isErr (assertErr : Bool) : Panic → Bool
  | .error _ | .bounds | .nilDeref => true
  | .value _ | .nilValue | .goexit => false
  | .internal | .badReader | .badWriter | .badArg => assertErr

/-- What `recover()` returns (Go before 1.21: nil for `panic(nil)`; nil for `runtime.Goexit`). -/
def Panic.recovered : Panic → Option Panic
  | .nilValue | .goexit => none
  | p => some p

variable {β ω : Type}

/-- The body of `ServeHTTP` without the deferred function (`/repo/handler/adaptor.go:110-114`): the writer afterwards, and
whether it panicked. -/
def handle (W : Wr ω) (B : BodyOps β) (fuel : Nat) (h : Handled β) (w : ω) : ω × Res Unit :=
  match h with
  | .panic p => (w, .panic p)
  | .hang => (w, .hang)
  | .resp r =>
    match serve W.toRW B fuel r w with
    | (_, w, .ret none) => (w, .ret ())
    | (_, w, .ret (some e)) => (w, .panic (.error e))
    | (_, w, .panic p) => (w, .panic p)
    | (_, w, .hang) => (w, .hang)

/-- The deferred function (`/repo/handler/adaptor.go:80-108`), given the recovered value. -/
def deferred (W : Wr ω) (assertErr : Bool) (onPanic : PanicArg → Res Unit) (panicValue : Option Panic) (w : ω) :
    ω × List MEv × Res Unit :=
  let code := itoa (W.status w)                                                -- :82
  let sendBytes := W.bytesWritten w                                            -- :86
  match W.maybeWriteHeader w 500 with                                          -- :89
  | (w, .panic p) => (w, [], .panic p)
  | (w, .hang) => (w, [], .hang)
  | (w, .ret ()) =>
    let ev := (if panicValue ≠ none then [.panicsTotal] else []) ++            -- :90-92
      [.requestsTotal code, .latencyTotal code, .recvBytesTotal code 0]        -- :93-95
    if sendBytes < 0 then (w, ev, .panic (.error (.ext 0)))                    -- :96, `Counter.Add` panics
    else
      let ev := ev ++ [.sendBytesTotal code sendBytes, .latencyHist, .recvBytesHist 0, .sendBytesHist sendBytes]  -- :96-99
      match panicValue with
      | none => (w, ev, .ret ())
      | some p =>                                                              -- :101-107
        let a := if p.isErr assertErr then PanicArg.itself p else .panicError p
        (w, ev ++ [.onPanic a], onPanic a)

/-- How a goroutine that ended with `Goexit` goes on after a deferred function: it still ends, but for a panic of that function. -/
def exiting (o : Res Unit) : Res Unit :=
  match o with
  | .ret () => .panic .goexit
  | o => o

/-- `ServeHTTP` after `NewWriter` (`/repo/handler/adaptor.go:76-115`).  A panic of the deferred function is what the caller
sees; otherwise the panic was recovered.  `Goexit` cannot be recovered from. -/
def adaptor (W : Wr ω) (B : BodyOps β) (fuel : Nat) (assertErr : Bool) (onPanic : PanicArg → Res Unit) (h : Handled β) (w : ω) :
    ω × List MEv × Res Unit :=
  match handle W B fuel h w with
  | (w, .hang) => (w, [], .hang)
  | (w, .ret ()) => deferred W assertErr onPanic none w
  | (w, .panic p) =>
    let x := deferred W assertErr onPanic p.recovered w
    (x.1, x.2.1, if p = .goexit then exiting x.2.2 else x.2.2)

/-- `Adaptor.ServeHTTP` (`/repo/handler/adaptor.go:76-115`): the ResponseWriter afterwards, the events, the outcome. -/
def serveHTTP (raises : Bool) (isHEAD : Bool) (N : AnyRW ω) (B : BodyOps β) (fuel : Nat) (assertErr : Bool)
    (onPanic : PanicArg → Res Unit) (h : Handled β) (w : ω) : ω × List MEv × Res Unit :=
  match newWriter raises isHEAD w N with
  | .same W w => adaptor W B fuel assertErr onPanic h w
  | .wrapped W s =>
    let r := adaptor W B fuel assertErr onPanic h s
    (r.1.next, r.2)

end Verif
