import Verif.Model.MockConc

/-!
# What happens before what, in a MockReader

The order that the Go memory model guarantees, for the steps of `Model/MockConc.lean`.  The variables are `r.index`, and `r.expect`, which is never written.
-/

set_option autoImplicit false

namespace Verif
open Spec

/-- What a step is for the memory model. -/
inductive MockDid where
  | lock | unlock
  /-- of `r.index` -/
  | read
  /-- of `r.index` -/
  | write
  /-- nothing that concerns others -/
  | inner
deriving DecidableEq, Repr

/-- What the next step of a goroutine is. -/
def MockPc.does : MockPc → MockDid
  | .lock _ => .lock
  | .load _ => .read
  | .incr _ _ => .read
  | .store _ _ _ => .write
  | .unlock _ _ _ => .unlock
  | _ => .inner

/-- The executions, with all their steps and the goroutines that take them. -/
inductive MockConc.Trail (es : List Expectation) : List (Nat × MockDid) → MockConc → Prop
  | start : Trail es [] {}
  | call {x : List (Nat × MockDid)} {s : MockConc} (t : Nat) (c : Request) : Trail es x s → s.pc t = .idle → Trail es (x ++ [(t, .inner)]) (s.at_ t (.lock c))
  | step {x : List (Nat × MockDid)} {s s' : MockConc} {ev : Option (Spec.CallEv Request Seen)} (t : Nat) : Trail es x s → s.step es t = some (s', ev) →
      Trail es (x ++ [(t, (s.pc t).does)]) s'

/-- The `i`-th step happens before the `j`-th. -/
inductive Spec.MockBefore (x : List (Nat × MockDid)) : Nat → Nat → Prop
  | program {i j t : Nat} {a b : MockDid} : i < j → x[i]? = some (t, a) → x[j]? = some (t, b) → MockBefore x i j
  | mutex {i j t u : Nat} : i < j → x[i]? = some (t, .unlock) → x[j]? = some (u, .lock) → MockBefore x i j
  | trans {i j k : Nat} : MockBefore x i j → MockBefore x j k → MockBefore x i k

end Verif
