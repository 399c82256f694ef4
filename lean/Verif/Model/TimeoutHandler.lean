import Verif.Model.NetHttp

/-!
# The `http.TimeoutHandler` of `net/http` around an Adaptor

Modelled from knowledge of Go 1.17 (`net/http/server.go`, types `timeoutHandler` and `timeoutWriter`, and the documentation).  The handler runs in a
goroutine of its own with a ResponseWriter that keeps everything in memory (`TimeW`).  If it returns in time, then what was kept is sent.  Otherwise 503
and a message are sent, and every further `Write` of the handler fails.  When that happens is an input (`left`: how many calls of `WriteHeader` and
`Write` are in time).  The mutex makes every call one step.  The connection is that of `Model/NetHttp.lean`, on which nothing can be pushed.
-/

set_option autoImplicit false

namespace Verif
variable {β : Type}

/-- `http.ErrHandlerTimeout` -/
def errHandlerTimeout : Err := .ext 20

/-- `timeoutWriter` -/
structure TimeW where
  /-- how many more calls of `WriteHeader` and `Write` there are before the time is up; `none`: all -/
  left : Option Nat
  /-- `h` -/
  hdrs : List (GoStr × List GoStr) := []
  /-- `code`; 0: `wroteHeader` is false -/
  code : Int := 0
  /-- `wbuf` -/
  buf : List Byte := []
deriving DecidableEq, Repr

/-- `timedOut` -/
def TimeW.timedOut (w : TimeW) : Bool := w.left = some 0

/-- A call takes time. -/
def TimeW.tick (w : TimeW) : TimeW := { w with left := w.left.map (· - 1) }

/-- `writeHeaderLocked`, without the ticking -/
def TimeW.setCode (w : TimeW) (code : Int) : TimeW × Res Unit :=
  if code < 100 ∨ 999 < code then (w, .panic (.value 0))          -- checkWriteHeaderCode
  else if w.timedOut then (w, .ret ())
  else if w.code ≠ 0 then (w, .ret ())                              -- "superfluous response.WriteHeader call" is logged
  else ({ w with code := code }, .ret ())

/-- `WriteHeader` -/
def TimeW.writeHeader (w : TimeW) (code : Int) : TimeW × Res Unit :=
  let x := w.setCode code
  (x.1.tick, x.2)

/-- `Write` -/
def TimeW.write (w : TimeW) (d : List Byte) : TimeW × WAns :=
  if w.timedOut then (w, .ret (0, some errHandlerTimeout))
  else
    let w := if w.code = 0 then (w.setCode 200).1 else w
    ({ w with buf := w.buf ++ d }.tick, .ret (d.length, none))

/-- The ResponseWriter that the Adaptor gets: neither `http.Flusher` nor `io.ReaderFrom`, but an `http.Pusher`. -/
def timeRW : RW TimeW where
  setHeader w k v := { w with hdrs := NetW.set k v w.hdrs }
  writeHeader := TimeW.writeHeader
  write := TimeW.write
  flush w := (w, .ret ())
  push w _ := (w, .ret (some .notSupported))
  readFrom w := .hang w
  isPusher := true
  isReaderFrom := false
  isFlusher := false
  isCloseNotifier := false
  isHijacker := false

/-- `for k, vv := range tw.h { dst[k] = vv }` -/
def copyHdrs (l : List (GoStr × List GoStr)) : List (GoStr × List GoStr) := l.foldl (fun m e => NetW.set e.1 e.2 m) []

/-- `timeoutHandler.ServeHTTP`.  `late`: the time is up before the handler has returned.  `msg` is the message (`errorBody()`), `x` what the handler did.
The result is the response on the wire, the metrics, and how `ServeHTTP` ended. -/
def timeoutServe (isHEAD late : Bool) (msg : List Byte) (x : TimeW × List MEv × Res Unit) : NetW × List MEv × Res Unit :=
  if late then
    let w := (NetW.writeHeader { isHEAD } 503).1
    ((w.write msg).1, x.2.1, .ret ())
  else match x.2.2 with
    | .ret () =>
      let w : NetW := { isHEAD, hdrs := copyHdrs x.1.hdrs }
      let w := (w.writeHeader (if x.1.code = 0 then 200 else x.1.code)).1
      ((w.write x.1.buf).1, x.2.1, .ret ())
    | o => ({ isHEAD }, x.2.1, o)

/-- A GET or HEAD request answered by an Adaptor in a `http.TimeoutHandler`: in time (`none`, `false`), or not (any `left`, `true`). -/
def underTimeout (left : Option Nat) (late : Bool) (msg : List Byte) (raises isHEAD : Bool) (B : BodyOps β) (fuel : Nat) (assertErr : Bool)
    (onPanic : PanicArg → Res Unit) (h : Handled β) : NetW × List MEv × Res Unit :=
  timeoutServe isHEAD late msg (serveHTTP raises isHEAD (.plain timeRW) B fuel assertErr onPanic h { left })

end Verif
