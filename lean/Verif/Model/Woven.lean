import Verif.Model.Told
import Verif.Spec.Ready
import Verif.Proofs.Builder

/-!
# Handlers at work at the same time

What happens while a handler makes its calls on a Builder: goroutines take turns, and there may be anything between two calls, done by other handlers with Builders of
their own or by whoever has Bodies and header maps.

Simplification: a call of a method of a Builder is one step.  (A Builder is not meant to be used by two goroutines, and C29 and C30 say that Builders share no
memory that is written to.)
-/

set_option autoImplicit false

namespace Verif
open Spec Spec.Told
variable {Φ : Type}

/-- The event is no call on Builder `h`. -/
def BOp.spares (h : Nat) : BOp → Prop
  | .on h' _ => h' ≠ h
  | .copy h' => h' ≠ h
  | .build h' => h' ≠ h
  | _ => True

/-- Something that others do while the handler with Builder `h` still has the calls `l` to make: an event with other Builders, with Responses, or with maps of the
program, or something that is done to Bodies.  The Bodies of the handler keep their content, and so do its maps. -/
structure Aside (K : Kinds Φ) (E : BEnv (Shelf Φ)) (A : Around) (h : Nat) (l : List Say) (s t : BState (Shelf Φ)) : Prop where
  act : (∃ op : BOp, op.legal ∧ op.spares h ∧ t = (s.step E op).1) ∨ ∃ X, t = { s with bodies := X }
  bodies : ∀ i C, A.bodies i = some C ∨ (∃ b, s.blds[h]? = some b ∧ b.body = some i) → s.bodies.Holds K i C → t.bodies.Holds K i C
  maps : ∀ m, Say.headers (some m) ∈ l → s.heap.Offers m (A.maps m) → t.heap.Offers m (A.maps m)

/-- The handler makes the calls `l` on Builder `h`, until one of them does not return; others do things in between. -/
inductive Woven (K : Kinds Φ) (E : BEnv (Shelf Φ)) (A : Around) (h : Nat) : BState (Shelf Φ) → List Say → BState (Shelf Φ) → BOut → Prop
  | done (s : BState (Shelf Φ)) : Woven K E A h s [] s .unit
  | call {s t : BState (Shelf Φ)} {x : Say} {l : List Say} {o : BOut} : (s.say K E h x).2 = .unit → Woven K E A h (s.say K E h x).1 l t o → Woven K E A h s (x :: l) t o
  | stop {s : BState (Shelf Φ)} {x : Say} {l : List Say} : (s.say K E h x).2 ≠ .unit → Woven K E A h s (x :: l) (s.say K E h x).1 (s.say K E h x).2
  | aside {s s' t : BState (Shelf Φ)} {l : List Say} {o : BOut} : Aside K E A h l s s' → Woven K E A h s' l t o → Woven K E A h s l t o

/-- Anything that may happen after a Response with Body `i` was built, as long as nobody but the handler touches that Body. -/
inductive After (K : Kinds Φ) (E : BEnv (Shelf Φ)) (i : Nat) (C : List Byte) : BState (Shelf Φ) → BState (Shelf Φ) → Prop
  | refl (s : BState (Shelf Φ)) : After K E i C s s
  | step {s t : BState (Shelf Φ)} {op : BOp} : op.legal → (s.bodies.Holds K i C → (s.step E op).1.bodies.Holds K i C) → After K E i C (s.step E op).1 t → After K E i C s t
  | bodies {s t : BState (Shelf Φ)} {X : Shelf Φ} : (s.bodies.Holds K i C → X.Holds K i C) → After K E i C { s with bodies := X } t → After K E i C s t

end Verif
