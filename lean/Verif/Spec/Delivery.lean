import Verif.Model.NetHttp
import Verif.Spec.Success

/-! # What a server lets a handler send -/

set_option autoImplicit false

namespace Verif.Spec
variable {β : Type}

/-- A run of `WriteTo` that gives up when a `Write` fails, with the error of that, and leaves a Body that can be closed. -/
def WTStops (B : BodyOps β) : WT β → Prop
  | .done _ _ _ => True
  | .write _ d cont => (∀ e, ∃ b n, cont 0 (some e) = .done b n (some e) ∧ ∃ r, (B.close b).2 = .ret r) ∧ WTStops B (cont d.length none)
  | .panic _ _ => True
  | .hang _ => True

/-- A Body whose copying can be given up: `Close` returns, and so does `WriteTo`. -/
structure Quits (B : BodyOps β) (P : β → List Byte → Prop) : Prop where
  close : ∀ b C, P b C → ∃ r, (B.close b).2 = .ret r
  writeTo : B.isWriterTo = true → ∀ b C, P b C → WTStops B (B.writeTo b)

/-- How many bytes of the body `C` may be written: none for the statuses that have no body, else as many as were declared. -/
def room (code : Int) (declared : Option Nat) (C : List Byte) : Nat :=
  if code = 204 ∨ code = 304 then 0 else declared.getD C.length

/-- The error for more. -/
def roomError (code : Int) : Err := if code = 204 ∨ code = 304 then errBodyNotAllowed else errContentLength

/-- A message on the wire that a client can read to its end: the number of bytes is the declared one, unless the message has no body by
itself (HEAD, 204, 304) or ends where the connection or the last chunk ends (nothing declared). -/
def Framed (w : NetW) : Prop :=
  if w.isHEAD = true ∨ w.status = 204 ∨ w.status = 304 then w.body = []
  else ∀ n, w.declared = some n → w.body.length = n

/-- The body fits its status and its declared length. -/
def HasRoom (isHEAD : Bool) (code : Int) (declared : Option Nat) (C : List Byte) : Prop :=
  isHEAD = true ∨ code = 204 ∨ (code = 304 ∧ C = []) ∨ (code ≠ 304 ∧ ∀ n, declared = some n → n = C.length)

/-- The response has arrived intact, and nothing was reported. -/
structure Intact (x : NetW × List MEv × Res Unit) (isHEAD : Bool) (code : Int) (C : List Byte) : Prop where
  framed : Framed x.1
  status : x.1.status = code
  body : x.1.body = if isHEAD = true ∨ code = 204 then [] else C
  calm : panicsCounted x.2.1 = 0
  returned : x.2.2 = .ret ()

end Verif.Spec
