import Verif.Basic

/-!
# Taking turns

Goroutines call an object at the same time.  They take turns if every call takes effect at one instant between its beginning and its
return, and is answered according to how many calls took effect before it.
-/

set_option autoImplicit false

namespace Verif.Spec
variable {A B : Type}

/-- What is seen from outside: goroutine `t` makes the call `a`; its call `a` returns `b`. -/
inductive CallEv (A B : Type) where
  | call (t : Nat) (a : A)
  | ret (t : Nat) (a : A) (b : B)
deriving DecidableEq, Repr

/-- What a goroutine is doing: nothing; waiting for its call to take effect; the call took effect and will return `b`. -/
inductive Doing (A B : Type) where
  | idle
  | waiting (a : A)
  | served (a : A) (b : B)

/-- `Turns ans taken doing tr`: the trace `tr` is one of goroutines that take turns; `taken` are the calls that took effect, in this order.
The `i`-th of them (from 0), if it is `a`, is answered `ans i a`. -/
inductive Turns (ans : Nat → A → B) : List A → (Nat → Doing A B) → List (CallEv A B) → Prop
  | start : Turns ans [] (fun _ => .idle) []
  | call {taken : List A} {doing : Nat → Doing A B} {tr : List (CallEv A B)} (t : Nat) (a : A) : Turns ans taken doing tr → doing t = .idle →
      Turns ans taken (fun u => if u = t then .waiting a else doing u) (tr ++ [.call t a])
  | effect {taken : List A} {doing : Nat → Doing A B} {tr : List (CallEv A B)} (t : Nat) (a : A) : Turns ans taken doing tr →
      doing t = .waiting a → Turns ans (taken ++ [a]) (fun u => if u = t then .served a (ans taken.length a) else doing u) tr
  | ret {taken : List A} {doing : Nat → Doing A B} {tr : List (CallEv A B)} (t : Nat) (a : A) (b : B) : Turns ans taken doing tr →
      doing t = .served a b → Turns ans taken (fun u => if u = t then .idle else doing u) (tr ++ [.ret t a b])

/-- The calls that were made. -/
def made (tr : List (CallEv A B)) : List A := tr.filterMap fun | .call _ a => some a | .ret _ _ _ => none

/-- The calls that returned, with what they returned. -/
def returned (tr : List (CallEv A B)) : List (A × B) := tr.filterMap fun | .call _ _ => none | .ret _ a b => some (a, b)

end Verif.Spec
