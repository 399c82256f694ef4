import Verif.Props.Mock
import Verif.Spec.Turns

/-!
# A MockReader and its mutex

`MockReader.next` (`/repo/internal/mockreader/mockreader.go:253-269`) in single steps: acquiring and releasing the mutex, each access to
`r.index`, the access to `r.expect`.  The steps of the goroutines are interleaved arbitrarily.  What a method does after `next` concerns
local variables only (and the caller's buffer) and is one step.  The pointer is not nil: a nil MockReader has no state.  `r.expect` never
changes.  `index` is a `uint`; it is never more than the length of a slice.
-/

set_option autoImplicit false

namespace Verif
open Spec

/-- What a method does with what `next` returned (`mockreader.go:276-283`, `:288-297`, `:302-314`, `:319-331`, `:336-345`, `:350-358`). -/
def afterNext (c : Request) (index : Nat) (expect : Expectation) : Seen :=
  if !expect.isMatch c.actual then { verdict := some (.rejected index), expect := expect, actual := c.actual }
  else match c with
    | .mark _ => { verdict := some (.answered .marked) }
    | .stat => { verdict := some (.answered (.stat expect.output1 expect.output2)) }
    | .read k | .readAt k _ => (MockPtr.deliver expect { len := k }).seen readAnswer
    | .seek _ _ => { verdict := some (.answered (.seek expect.output0 expect.output2)) }
    | .close => { verdict := some (.answered (.closed expect.output2)) }

/-- Where a goroutine is. -/
inductive MockPc where
  | idle
  /-- before `r.mu.Lock()` (`:258`) -/
  | lock (c : Request)
  /-- before `index := r.index` (`:261`) -/
  | load (c : Request)
  /-- before `if index >= length` (`:263`) -/
  | check (c : Request) (index : Nat)
  /-- before the reading of `r.index++` (`:267`) -/
  | incr (c : Request) (index : Nat)
  /-- before the writing of `r.index++` (`:267`) -/
  | store (c : Request) (index value : Nat)
  /-- before `r.expect[index]` (`:268`) -/
  | fetch (c : Request) (index : Nat)
  /-- before the deferred `r.mu.Unlock()` (`:259`) -/
  | unlock (c : Request) (index : Nat) (expect : Expectation)
  /-- `next` has returned -/
  | after (c : Request) (index : Nat) (expect : Expectation)

/-- A MockReader and the goroutines using it. -/
structure MockConc where
  /-- `r.index` -/
  index : Nat := 0
  /-- who holds `r.mu` -/
  owner : Option Nat := none
  pc : Nat → MockPc := fun _ => .idle

namespace MockConc

/-- Goroutine `t` goes to `p`. -/
def at_ (s : MockConc) (t : Nat) (p : MockPc) : MockConc := { s with pc := fun u => if u = t then p else s.pc u }

/-- The next step of goroutine `t` in its call, and what is seen of it; `none`: it is not in a call, or has to wait for the mutex. -/
def step (es : List Expectation) (s : MockConc) (t : Nat) : Option (MockConc × Option (CallEv Request Seen)) :=
  match s.pc t with
  | .idle => none
  | .lock c => if s.owner = none then some ({ s with owner := some t }.at_ t (.load c), none) else none
  | .load c => some (s.at_ t (.check c s.index), none)
  | .check c i => if i ≥ es.length then some (s.at_ t (.unlock c es.length {}), none) else some (s.at_ t (.incr c i), none)
  | .incr c i => some (s.at_ t (.store c i (s.index + 1)), none)
  | .store c i v => some ({ s with index := v }.at_ t (.fetch c i), none)
  | .fetch c i => some (s.at_ t (.unlock c i (es[i]?.getD {})), none)
  | .unlock c i e => some ({ s with owner := none }.at_ t (.after c i e), none)
  | .after c i e => some (s.at_ t .idle, some (.ret t c (afterNext c i e)))

/-- The executions: goroutines that are not in a call may make any call; the others take their steps, in any order. -/
inductive Runs (es : List Expectation) : List (CallEv Request Seen) → MockConc → Prop
  | start : Runs es [] {}
  | call {tr : List (CallEv Request Seen)} {s : MockConc} (t : Nat) (c : Request) : Runs es tr s → s.pc t = .idle →
      Runs es (tr ++ [.call t c]) (s.at_ t (.lock c))
  | step {tr : List (CallEv Request Seen)} {s s' : MockConc} {ev : Option (CallEv Request Seen)} (t : Nat) : Runs es tr s →
      s.step es t = some (s', ev) → Runs es (tr ++ ev.toList) s'

/-- Steps of the goroutines named, in this order, without new calls. -/
inductive Advances (es : List Expectation) : List Nat → MockConc → MockConc → Prop
  | nil (s : MockConc) : Advances es [] s s
  | cons {ts : List Nat} {s s' s'' : MockConc} {ev : Option (CallEv Request Seen)} (t : Nat) : s.step es t = some (s', ev) →
      Advances es ts s' s'' → Advances es (t :: ts) s s''

end MockConc
end Verif
