import Verif.Model.Adaptor

/-!
# The `http.ResponseWriter` of the `net/http` server

Modelled from knowledge of Go 1.17 (`net/http/server.go`, type `response`, and its documentation), as far as it limits what a handler may write: statuses
that allow no body (`http.ErrBodyNotAllowed`), and a declared Content-Length (`http.ErrContentLength`).  The connection is one on which
everything arrives.  Buffering, chunking, trailers, sniffing of the Content-Type, `Hijack` and informational (1xx) statuses are not modelled.
`ReadFrom` is the one used for connections that have no `ReadFrom` of their own (`*tls.Conn`): `io.CopyBuffer(writerOnly{w}, src, buf)`.  HTTP/2 has
none.
-/

set_option autoImplicit false

namespace Verif

/-- `http.ErrBodyNotAllowed` -/
def errBodyNotAllowed : Err := .ext 1
/-- `http.ErrContentLength` -/
def errContentLength : Err := .ext 2

/-- The digits of a decimal number. -/
def parseDigits : GoStr → Nat → Option Nat
  | [], n => some n
  | c :: s, n => if 48 ≤ c ∧ c ≤ 57 then parseDigits s (10 * n + (c.toNat - 48)) else none

/-- `strconv.ParseInt(s, 10, 64)`, if it succeeds and the result is not negative. -/
def parseLength : GoStr → Option Nat
  | 45 :: s =>                                        -- '-'
    if s = [] then none else (parseDigits s 0).bind fun n => if n = 0 then some 0 else none
  | 43 :: s =>                                        -- '+'
    if s = [] then none else (parseDigits s 0).bind fun n => if n < 2 ^ 63 then some n else none
  | s =>
    if s = [] then none else (parseDigits s 0).bind fun n => if n < 2 ^ 63 then some n else none

/-- A response being written. -/
structure NetW where
  isHEAD : Bool
  /-- `Header()` -/
  hdrs : List (GoStr × List GoStr) := []
  /-- 0: `WriteHeader` has not been called -/
  status : Int := 0
  /-- `contentLength`; `none` is -1 -/
  declared : Option Nat := none
  written : Nat := 0
  /-- the bytes of the body that have been sent to the client -/
  body : List Byte := []
deriving DecidableEq, Repr

/-- `Header()[k] = v` -/
def NetW.set (k : GoStr) (v : List GoStr) : List (GoStr × List GoStr) → List (GoStr × List GoStr)
  | [] => [(k, v)]
  | (k', v') :: l => if k' = k then (k, v) :: l else (k', v') :: NetW.set k v l

/-- The declared length: the first Content-Length, if it is a number. -/
def declaredLength (hdrs : List (GoStr × List GoStr)) : Option Nat :=
  match hdrGet hdrs (lit "Content-Length") with
  | [] => none
  | v :: _ => parseLength v

/-- `WriteHeader` -/
def NetW.writeHeader (w : NetW) (code : Int) : NetW × Res Unit :=
  if w.status ≠ 0 then (w, .ret ())                   -- "superfluous response.WriteHeader call" is logged
  else if code < 100 ∨ 999 < code then (w, .panic (.value 0))
  else ({ w with status := code, declared := declaredLength w.hdrs }, .ret ())

/-- `bodyAllowedForStatus` -/
def bodyAllowed (status : Int) : Bool :=
  if 100 ≤ status ∧ status ≤ 199 then false
  else if status = 204 then false
  else if status = 304 then false
  else true

/-- `w.contentLength != -1 && written > w.contentLength` -/
def exceeds : Option Nat → Nat → Bool
  | some n, written => decide (written > n)
  | none, _ => false

/-- `Write` -/
def NetW.write (w : NetW) (d : List Byte) : NetW × WAns :=
  let w := if w.status = 0 then (w.writeHeader 200).1 else w
  if d.length = 0 then (w, .ret (0, none))
  else if !bodyAllowed w.status then (w, .ret (0, some errBodyNotAllowed))
  else
    let w := { w with written := w.written + d.length }
    if exceeds w.declared w.written then (w, .ret (0, some errContentLength))
    else ({ w with body := if w.isHEAD then w.body else w.body ++ d }, .ret (d.length, none))

/-- `ReadFrom`: the loop of `io.CopyBuffer` with 32 KiB. -/
def NetW.copy : Nat → NetW → Nat → RF NetW
  | 0, w, _ => .hang w
  | fuel + 1, w, n => .read w 32768 fun d er =>
    if d.length > 0 then
      if d.length > 32768 then .panic w .bounds
      else match w.write d with
        | (w, .ret (nw, some e)) => .done w (n + nw) (some e)
        | (w, .ret (_, none)) =>
          match er with
          | some e => .done w (n + d.length) (if e = .eof then none else some e)
          | none => NetW.copy fuel w (n + d.length)
        | (w, .panic p) => .panic w p
        | (w, .hang) => .hang w
    else match er with
      | some e => .done w n (if e = .eof then none else some e)
      | none => NetW.copy fuel w n

/-- The ResponseWriter of HTTP/1.1 (`http1`), or of HTTP/2 for a client that does not want pushes and targets that may be pushed (for others, and other clients, see
`Model/Push.lean`). -/
def netRW (http1 : Bool) (fuel : Nat) : RW NetW where
  setHeader w k v := { w with hdrs := NetW.set k v w.hdrs }
  writeHeader := NetW.writeHeader
  write := NetW.write
  flush w := ((if w.status = 0 then (w.writeHeader 200).1 else w), .ret ())
  push w _ := (w, .ret (some .notSupported))
  readFrom w := NetW.copy fuel w 0
  isPusher := !http1
  isReaderFrom := http1
  isFlusher := true
  isCloseNotifier := true
  isHijacker := http1

end Verif
