import Verif.Model.Shelf
import Verif.Model.Builder
import Verif.Model.Construct
import Verif.Model.Json
import Verif.Spec.Told

/-!
# A handler that uses a Builder

`response.NewBuilder().WithStatus(…).….Build()`: the calls in order, with Bodies made where they are needed.  A call that panics ends the chain.
-/

set_option autoImplicit false

namespace Verif
open Spec.Told (Say)
variable {Φ : Type}

/-- A Body over a byte slice is made. -/
def Shelf.make (K : Kinds Φ) (X : Shelf Φ) (m : Res MemFam) : Shelf Φ × Res Nat :=
  match m with
  | .ret m => let x := X.add (K.mem m); (x.1, .ret x.2)
  | .panic p => (X, .panic p)
  | .hang => (X, .hang)

/-- The Body a call makes beforehand, and the call. -/
def Say.op (K : Kinds Φ) (X : Shelf Φ) : Say → Shelf Φ × LOp
  | .status c => (X, .withStatus c)
  | .header name value add => (X, .withHeader name value add)
  | .withoutHeader name => (X, .withoutHeader name)
  | .contentType s => (X, .withContentType s)
  | .contentLanguage s => (X, .withContentLanguage s)
  | .contentEncoding s => (X, .withContentEncoding s)
  | .etag tag strong => (X, .withETag tag strong)
  | .digest algo sum => (X, .withDigest algo sum)
  | .bytes d => let x := X.add (K.mem (fromBytes d)); (x.1, .withBody (some x.2))
  | .body b => (X, .withBody b)
  | .prettyJSON v => let x := X.make K (fromPrettyJSONOf v); (x.1, .withPrettyJSON x.2)                 -- /repo/response/builder.go:203-208
  | .proto r => let x := X.make K (fromProto r); (x.1, .withProto x.2)                                  -- :215-220
  | .protoText r => let x := X.make K (fromProtoText (r.map fun r _ => r) none); (x.1, .withProtoText x.2)  -- :227-232
  | .error e => (X, .withError e)
  | .headers m => (X, .withHeaders (m.map .ext))
  | .generator g => (X, .withPageGenerator g)
  | .redirectPage code location => (X, .redirectPage code location)
  | .errorPage code e => (X, .errorPage code e)

/-- One call on Builder `h`. -/
def BState.say (K : Kinds Φ) (E : BEnv (Shelf Φ)) (s : BState (Shelf Φ)) (h : Nat) (x : Say) : BState (Shelf Φ) × BOut :=
  ({ s with bodies := (Say.op K s.bodies x).1 }).step E (.on h (Say.op K s.bodies x).2)

/-- A chain of calls on Builder `h`. -/
def BState.chain (K : Kinds Φ) (E : BEnv (Shelf Φ)) (h : Nat) : BState (Shelf Φ) → List Say → BState (Shelf Φ) × BOut
  | s, [] => (s, .unit)
  | s, x :: l => match s.say K E h x with
    | (s, .unit) => chain K E h s l
    | r => r

/-- A handler: a new Builder, the calls, `Build`. -/
def BState.handle (K : Kinds Φ) (E : BEnv (Shelf Φ)) (s : BState (Shelf Φ)) (l : List Say) : BState (Shelf Φ) × BOut :=
  match BState.chain K E s.blds.length (s.step E .new).1 l with
  | (s', .unit) => s'.step E (.build s.blds.length)
  | r => r

end Verif
