import Verif.Model.Adaptor

/-!
# The Writers with an `int64` counter that wraps around

`/repo/response/writer.go` once more.  Only `w.bytes += …` (`:89`, `:150`) is different from `Model/Writer.lean`.
-/

set_option autoImplicit false

namespace Verif
namespace Writer
variable {ω : Type}

/-- `Write` (`/repo/response/writer.go:80-94`). -/
def writeM (N : RW ω) (s : WState ω) (p : List Byte) : WState ω × WAns :=
  match maybeWriteHeader N s 200 with
  | (s, .panic q) => (s, .panic q)
  | (s, .hang) => (s, .hang)
  | (s, .ret ()) =>
    if s.isHEAD || decide (s.status = 204) then (s, .ret (p.length, none))
    else
      match N.write s.next p with
      | (w, .panic q) => ({ s with next := w }, .panic q)
      | (w, .hang) => ({ s with next := w }, .hang)
      | (w, .ret (n, err)) =>
        if ¬ n ≥ 0 then ({ s with next := w }, .panic .badWriter)
        else
          let s := { s with next := w, bytes := i64 (s.bytes + n) }
          let s := if err ≠ none then { s with sawError := true } else s
          (s, .ret (n, err))

/-- What `ReadFrom` does with the result of the wrapped writer (`/repo/response/writer.go:148-151`). -/
def wrapRFM (s : WState ω) : RF ω → RF (WState ω)
  | .done w n err =>
    if ¬ n ≥ 0 then .panic { s with next := w } .badWriter
    else .done { s with next := w, bytes := i64 (s.bytes + n) } n err
  | .read w k cont => .read { s with next := w } k fun d e => wrapRFM s (cont d e)
  | .drain w cont => .drain { s with next := w } fun n e => wrapRFM s (cont n e)
  | .panic w p => .panic { s with next := w } p
  | .hang w => .hang { s with next := w }

/-- `ReadFrom` (`/repo/response/writer.go:141-152`). -/
def readFromM (N : RW ω) (s : WState ω) : RF (WState ω) :=
  match maybeWriteHeader N s 200 with
  | (s, .panic q) => .panic s q
  | (s, .hang) => .hang s
  | (s, .ret ()) =>
    if s.isHEAD || decide (s.status = 204) then .drain s fun n err => .done s n err
    else if !N.isReaderFrom then .panic s .nilDeref
    else wrapRFM s (N.readFrom s.next)

/-- The Writer as an `http.ResponseWriter`. -/
def opsM (N : RW ω) (raises : Bool) (kind : WKind) : RW (WState ω) :=
  { ops N raises kind with write := writeM N, readFrom := readFromM N }

/-- The Writers of this package. -/
def wrM (N : RW ω) (raises : Bool) (kind : WKind) : Wr (WState ω) :=
  { wr N raises kind with toRW := opsM N raises kind }

/-- One call on a Writer. -/
def stepM (N : RW ω) (raises : Bool) (kind : WKind) (fuel : Nat) (s : WState ω) (op : WOp) : WState ω × WOut :=
  match op with
  | .write p => let r := writeM N s p; (r.1, .count r.2)
  | .readFrom src => if kind = .fancy then
      let r := runRF scriptOps fuel (readFromM N s) src; (r.2.1, .count r.2.2)
    else (s, .unsupported)
  | op => step N raises kind fuel s op

end Writer

variable {β ω : Type}

/-- `Adaptor.ServeHTTP` (`/repo/handler/adaptor.go:76-115`), if the ResponseWriter is no Writer. -/
def serveHTTPM (raises : Bool) (isHEAD : Bool) (N : RW ω) (B : BodyOps β) (fuel : Nat) (assertErr : Bool) (onPanic : PanicArg → Res Unit) (h : Handled β) (w : ω) :
    ω × List MEv × Res Unit :=
  let r := adaptor (Writer.wrM N raises (Writer.kindFor N)) B fuel assertErr onPanic h (Writer.init w isHEAD)
  (r.1.next, r.2)

end Verif
