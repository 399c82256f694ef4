import Verif.Spec.Observe
import Verif.Spec.Http
import Verif.Spec.Decimal

/-!
# When exactly

Conditions in terms of calls and their results under which properties that do not hold in general do hold.
-/

set_option autoImplicit false

namespace Verif.Spec

/-- Which Bodies had their last `WriteTo` stopped part-way: by a call and its answer.  `Seek` makes up for it, a copy inherits it, and for a closed Body it
does not matter. -/
def noteStop (f : Nat → Bool) : Op × Out → Nat → Bool
  | (.writeTo h _, .wrote (some d) n _), i => if i = h then decide (n < d.length) else f i
  | (.seek h _ _, .seek _ none), i => if i = h then false else f i
  | (.close h, .closed none), i => if i = h then false else f i
  | (.copy h, .copied m), i => if i = m then f h else f i
  | _, i => f i

/-- Which Bodies of a family are so after a history of calls and answers. -/
def stoppedPartWay (hist : List (Op × Out)) : Nat → Bool := hist.foldl noteStop fun _ => false

/-- `ReadFrom` of the client's ResponseWriter failed. -/
def ReadFromFailed (log : List WEv) : Prop := ∃ n e, WEv.readFromDone n (some e) ∈ log

/-- The values of Content-Length say that there are `n` bytes; nothing is said if that is not known (negative). -/
def LengthRight (vals : Option (List GoStr)) (n : Int) : Prop :=
  (0 ≤ n ∧ ∃ v, vals = some [v] ∧ decimal v = some n) ∨ (n < 0 ∧ vals = none)

end Verif.Spec
