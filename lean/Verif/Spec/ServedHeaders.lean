import Verif.Spec.Builder

/-!
# The headers of several ResponseWriters, as values

Each ResponseWriter has headers of its own.  Serving a Response sets those of the Response (except Push); whoever has the ResponseWriter
(a middleware, say) may add, set and delete values with the methods of `http.Header`.  What is done to one has no effect on another.
-/

set_option autoImplicit false

namespace Verif.Spec

/-- What happens to the headers of ResponseWriter `w`. -/
inductive HEdit where
  /-- Response `r` is served to it -/
  | serve (w r : Nat)
  /-- `w.Header().Add(name, value)` -/
  | add (w : Nat) (name value : GoStr)
  /-- `w.Header().Set(name, value)` -/
  | set (w : Nat) (name value : GoStr)
  /-- `w.Header().Del(name)` -/
  | del (w : Nat) (name : GoStr)
deriving DecidableEq, Repr

/-- The headers of one of them change. -/
def oneOf (S : Nat → Hdrs) (w : Nat) (f : Hdrs) : Nat → Hdrs := fun i => if i = w then f else S i

/-- What is in a map after the headers `f` of a Response have been assigned to it. -/
def Hdrs.over (f old : Hdrs) : Hdrs := fun k => if k = lit "Push" then old k else match f k with
  | some v => some v
  | .none => old k

/-- The headers of the ResponseWriters (`S`), the headers of the Responses being `vals`. -/
def edited (vals : Nat → Hdrs) (S : Nat → Hdrs) : HEdit → Nat → Hdrs
  | .serve w r => oneOf S w ((vals r).over (S w))
  | .add w name value => oneOf S w ((S w).with (canon name) (some ((S w (canon name)).getD [] ++ [value])))
  | .set w name value => oneOf S w ((S w).with (canon name) (some [value]))
  | .del w name => oneOf S w ((S w).with (canon name) .none)

end Verif.Spec
