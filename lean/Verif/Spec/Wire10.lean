import Verif.Spec.Splitting

/-!
# How a client of HTTP/1.0 reads responses (RFC 1945)

It knows nothing of Transfer-Encoding.
-/

set_option autoImplicit false

namespace Verif.Spec.Wire
open Verif.Wire (Choices)

/-- The code in a status line. -/
def statusCode10 (l : GoStr) : Option Nat :=
  if l.take 9 = lit "HTTP/1.0 " ∧ ((l.drop 9).takeWhile (· ≠ 32)).length = 3 then natValue ((l.drop 9).takeWhile (· ≠ 32)) else none

/-- What comes after the fields (RFC 1945, section 7.2.2). -/
def body10 (isHEAD : Bool) (status : Nat) (fs : List (GoStr × GoStr)) (s : GoStr) : Option (List Byte × GoStr) :=
  if isHEAD ∨ status < 200 ∨ status = 204 ∨ status = 304 then some ([], s)
  else
    match valuesOf fs (lit "content-length") with
    | [] => some (s, [])                                                -- up to the end of the connection
    | v :: vs => do
      let n ← lengthOf v
      if vs.all (fun u => lengthOf u = some n) ∧ n ≤ s.length then some (s.take n, s.drop n) else none

/-- A response, and what follows it on the connection. -/
def receive10 (strict isHEAD : Bool) (s : GoStr) : Option (Message × GoStr) := do
  let (l, rest) ← line strict s
  let status ← statusCode10 l
  let (fs, rest) ← fields strict (s.length + 1) rest
  let (b, rest) ← body10 isHEAD status fs rest
  some ({ status, fields := fs, body := b }, rest)

/-- One response after the other, for requests of which some are HEAD, until the connection ends. -/
def receiveAll10 (strict : Bool) : List Bool → GoStr → Option (List Message)
  | [], s => if s = [] then some [] else none
  | isHEAD :: l, s =>
    if s = [] then some []
    else do
      let (m, s) ← receive10 strict isHEAD s
      let ms ← receiveAll10 strict l s
      some (m :: ms)

/-- A finished response of which such a client can make sense: a final status; no header that would be taken for Content-Length, and the Content-Length headers
agree, as they arrive, with the length of the body (or there are none). -/
structure Telling10 (w : NetW) : Prop where
  final : 200 ≤ w.status
  three : w.status ≤ 999
  declared : w.declared = declaredLength w.hdrs
  once : (w.hdrs.map Prod.fst).Nodup
  framed : Framed w
  spelled : ∀ e ∈ w.hdrs, e.2 ≠ [] → lower e.1 = lit "content-length" → e.1 = lit "Content-Length"
  agree : ∀ n, declaredLength w.hdrs = some n → ∀ v ∈ hdrGet w.hdrs (lit "Content-Length"), lengthOf (cleaned v) = some n
  number : declaredLength w.hdrs = none → hdrGet w.hdrs (lit "Content-Length") = []

end Verif.Spec.Wire
