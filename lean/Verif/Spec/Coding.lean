import Verif.Spec.Splitting

/-! # Responses with a Transfer-Encoding header of the handler -/

set_option autoImplicit false

namespace Verif.Spec.Wire
open Verif.Wire (Choices)

/-- The headers that speak of the transfer are spelled as `net/http` spells them (which is so for all that are set with `Set` or `Add`). -/
def Spelled (hdrs : List (GoStr × List GoStr)) : Prop :=
  ∀ e ∈ hdrs, e.2 ≠ [] → (lower e.1 = lit "transfer-encoding" → e.1 = lit "Transfer-Encoding") ∧ (lower e.1 = lit "content-length" → e.1 = lit "Content-Length")

/-- A finished response as in `Telling`, but there may be a Transfer-Encoding header. -/
structure Coded (w : NetW) : Prop where
  final : 200 ≤ w.status
  three : w.status ≤ 999
  declared : w.declared = declaredLength w.hdrs
  once : (w.hdrs.map Prod.fst).Nodup
  /-- what must not have a body has none -/
  empty : w.isHEAD = true ∨ w.status = 204 ∨ w.status = 304 → w.body = []
  spelled : Spelled w.hdrs

/-- What becomes of a response. -/
inductive Fate where
  /-- it arrives, in chunks -/
  | chunked
  /-- it arrives, with its length -/
  | counted
  /-- the body ends where the connection does -/
  | open
  /-- no client can read it -/
  | lost
deriving DecidableEq

/-- What becomes of a response that may have a body, from the Transfer-Encoding values of the handler, its Content-Length values, whether the first of these is a
number, and whether the server would count the body itself if it is not told a length. -/
def fate (codings lengths : List GoStr) (declared auto : Bool) : Fate :=
  match codings with
  | [] => if declared then .counted else if lengths = [] ∧ auto then .counted else .chunked
  | te :: _ =>
    if te = lit "chunked" then .chunked
    else if te = lit "identity" then if declared then .counted else .open
    else if te = [] then if declared then .counted else if lengths = [] ∧ auto then .counted else .lost
    else .lost

end Verif.Spec.Wire
