import Verif.Model.NetHttp

/-!
# The `httptest.ResponseRecorder`

Modelled from knowledge of Go 1.17 (`net/http/httptest/recorder.go`, and its documentation).  `http.DetectContentType` is a parameter.  `Result()`, which makes a
`http.Response` of what was recorded, and trailers are not modelled.
-/

set_option autoImplicit false

namespace Verif
variable {β : Type}

/-- `ResponseRecorder`, as `NewRecorder` makes it. -/
structure RecW where
  /-- `Code` -/
  code : Int := 200
  /-- `HeaderMap` -/
  hdrs : List (GoStr × List GoStr) := []
  /-- `Body` -/
  body : List Byte := []
  /-- `Flushed` -/
  flushed : Bool := false
  /-- `snapHeader`: the headers when the status was written; these are the ones of `Result()` -/
  snap : List (GoStr × List GoStr) := []
  wroteHeader : Bool := false
deriving DecidableEq, Repr

/-- `WriteHeader` -/
def RecW.writeHeader (w : RecW) (code : Int) : RecW × Res Unit :=
  if w.wroteHeader then (w, .ret ())
  else if code < 100 ∨ 999 < code then (w, .panic (.value 0))        -- checkWriteHeaderCode
  else ({ w with code := code, wroteHeader := true, snap := w.hdrs }, .ret ())

/-- `writeHeader`: the Content-Type is guessed, if there is none -/
def RecW.begin (detect : List Byte → GoStr) (w : RecW) (d : List Byte) : RecW :=
  if w.wroteHeader then w
  else
    let hasType := w.hdrs.any fun e => e.1 = lit "Content-Type"
    let hasTE := (hdrGet w.hdrs (lit "Transfer-Encoding")).headD [] ≠ []
    let w := if hasType = false ∧ ¬ hasTE then { w with hdrs := NetW.set (lit "Content-Type") [detect d] w.hdrs } else w
    (w.writeHeader 200).1

/-- `Write` -/
def RecW.write (detect : List Byte → GoStr) (w : RecW) (d : List Byte) : RecW × WAns :=
  let w := w.begin detect d
  ({ w with body := w.body ++ d }, .ret (d.length, none))

/-- An `http.Flusher`, and no more than that. -/
def recRW (detect : List Byte → GoStr) : RW RecW where
  setHeader w k v := { w with hdrs := NetW.set k v w.hdrs }
  writeHeader := RecW.writeHeader
  write := RecW.write detect
  flush w := ({ (w.writeHeader 200).1 with flushed := true }, .ret ())
  push w _ := (w, .ret (some .notSupported))
  readFrom w := .hang w
  isPusher := false
  isReaderFrom := false
  isFlusher := true
  isCloseNotifier := false
  isHijacker := false

/-- A GET or HEAD request answered by the Adaptor in a test: what is recorded, the metrics, and how the call ended. -/
def inTest (detect : List Byte → GoStr) (raises isHEAD : Bool) (B : BodyOps β) (fuel : Nat) (assertErr : Bool) (onPanic : PanicArg → Res Unit)
    (h : Handled β) : RecW × List MEv × Res Unit :=
  serveHTTP raises isHEAD (.plain (recRW detect)) B fuel assertErr onPanic h {}

end Verif
