import Verif.Spec.Wire
import Verif.Spec.Delivery
import Verif.Model.Wire

/-!
# Responses that arrive one after the other
-/

set_option autoImplicit false

namespace Verif.Spec.Wire
open Verif.Wire (Choices)

/-- A value as it arrives: line ends have become spaces, and it is stripped. -/
def cleaned (v : GoStr) : GoStr := strip (v.map fun c => if c = 10 ∨ c = 13 then 32 else c)

/-- The values under this very name. -/
def named (fs : List (GoStr × GoStr)) (k : GoStr) : List GoStr := (fs.filter fun f => f.1 = k).map (·.2)

/-- Text in which no line ends. -/
def OneLine (s : GoStr) : Prop := (10 : Byte) ∉ s ∧ (13 : Byte) ∉ s

/-- What the server may choose: the headers are those of the response, the pieces make up the body, and what it writes itself has no line ends. -/
structure Sound (c : Choices) (w : NetW) : Prop where
  order : c.order.Perm w.hdrs
  reason : OneLine c.reason
  date : OneLine c.date
  sniffed : OneLine c.sniffed
  chunks : c.chunks.flatten = w.body
  pieces : ∀ p ∈ c.chunks, p ≠ []

/-- The Content-Length headers agree: if the first is a number, all of them, as they arrive, are that number in digits; and the first is not empty. -/
def LengthOk (hdrs : List (GoStr × List GoStr)) : Prop :=
  (∀ n, declaredLength hdrs = some n → ∀ v ∈ hdrGet hdrs (lit "Content-Length"), lengthOf (cleaned v) = some n) ∧
  (hdrGet hdrs (lit "Content-Length")).head? ≠ some []

/-- No header means to determine how the body is transferred, but for Content-Length under that name. -/
def NoFraming (hdrs : List (GoStr × List GoStr)) : Prop :=
  ∀ e ∈ hdrs, e.2 ≠ [] → lower e.1 ≠ lit "transfer-encoding" ∧ (lower e.1 = lit "content-length" → e.1 = lit "Content-Length")

/-- The names under which the server adds fields of its own. -/
def ownNames : List GoStr := [lit "Date", lit "Content-Length", lit "Content-Type", lit "Connection", lit "Transfer-Encoding"]

/-- The message says what the response says. -/
structure Says (m : Message) (w : NetW) : Prop where
  status : (m.status : Int) = w.status
  body : m.body = w.body
  /-- under every other name there are the values of the header, if it is the name of a header -/
  others : ∀ k, k ∉ ownNames → named m.fields k = if isName k then (hdrGet w.hdrs k).map cleaned else []
  contentType : w.status ≠ 304 → (∃ e ∈ w.hdrs, e.1 = lit "Content-Type") →
    named m.fields (lit "Content-Type") = (hdrGet w.hdrs (lit "Content-Type")).map cleaned
  date : (∃ e ∈ w.hdrs, e.1 = lit "Date") → named m.fields (lit "Date") = (hdrGet w.hdrs (lit "Date")).map cleaned

end Verif.Spec.Wire
