import Verif.Model.Concurrent
import Verif.Spec.Observe

/-!
# Atomic objects

What linearizability means: the calls and returns that are seen are those of an object whose calls take effect at one instant between
the call and the return.
-/

set_option autoImplicit false

namespace Verif.Spec

/-- What a goroutine is doing: nothing; waiting for its call to take effect; the call took effect and will return `o`. -/
inductive Call where
  | idle
  | pending (op : Op)
  | done (o : Out)

/-- An object with sequential behaviour `step`, and the goroutines using it. -/
structure Obj (S : Type) where
  s : S
  calls : Nat → Call

def Obj.upd {S : Type} (x : Obj S) (t : Nat) (c : Call) : Obj S := { x with calls := fun u => if u = t then c else x.calls u }

/-- The calls and returns that an atomic object allows. -/
inductive Atomic {S : Type} (step : S → Op → S × Out) : Obj S → List Event → Obj S → Prop
  | nil (x : Obj S) : Atomic step x [] x
  | inv {x y : Obj S} {tr : List Event} (t : Nat) (op : Op) : Atomic step x tr y → y.calls t = .idle →
      Atomic step x (tr ++ [.inv t op]) (y.upd t (.pending op))
  /-- the call takes effect -/
  | effect {x y : Obj S} {tr : List Event} (t : Nat) (op : Op) : Atomic step x tr y → y.calls t = .pending op →
      Atomic step x tr { y.upd t (.done (step y.s op).2) with s := (step y.s op).1 }
  | ret {x y : Obj S} {tr : List Event} (t : Nat) (o : Out) : Atomic step x tr y → y.calls t = .done o →
      Atomic step x (tr ++ [.ret t o]) (y.upd t .idle)

/-- **Linearizability**: whatever the schedule, the calls and returns are those of the atomic object. -/
def Linearizable {Γ : Sig} {S : Type} (prog : Op → Prog Γ) (M : Mem Γ) (step : S → Op → S × Out) (s : S) : Prop :=
  ∀ tr c, Verif.Cfg.Steps prog (.init M) tr c → ∃ x, Atomic step ⟨s, fun _ => .idle⟩ tr x

/-- Two goroutines are about to access the same variable, at least one of them to write it. -/
def Race {Γ : Sig} (c : Verif.Cfg Γ) : Prop :=
  ∃ t u l, t ≠ u ∧ (∃ v k, c.thr t = some (.put l v k)) ∧ ((∃ k, c.thr u = some (.get l k)) ∨ ∃ v k, c.thr u = some (.put l v k))

/-- Goroutine `t` is in a call. -/
def Busy {Γ : Sig} (c : Verif.Cfg Γ) (t : Nat) : Prop := c.thr t ≠ none

/-- Some goroutine can take a step in its call. -/
def CanStep {Γ : Sig} (prog : Op → Prog Γ) (c : Verif.Cfg Γ) : Prop := ∃ ev d, Verif.Cfg.Step prog c ev d ∧ ∀ t op, ev ≠ some (.inv t op)

/-- Goroutine `t` seen through one event: the call it is in, and the completed calls so far, with their results. -/
def observe (t : Nat) (x : Option Op × List (Op × Out)) : Event → Option Op × List (Op × Out)
  | .inv u op => if u = t then (some op, x.2) else x
  | .ret u o => if u = t then (match x.1 with | some op => (none, x.2 ++ [(op, o)]) | none => x) else x

/-- The completed calls of goroutine `t`, in order, with their results. -/
def callsOf (t : Nat) (tr : List Event) : List (Op × Out) := (tr.foldl (observe t) (none, [])).2

/-- The calls goroutine `t` has made, in order. -/
def invsOf (t : Nat) (tr : List Event) : List Op := tr.filterMap fun | .inv u op => if u = t then some op else none | .ret _ _ => none

/-- The part of a sequential execution that goroutine `t` contributed. -/
def partOf (t : Nat) (L : List (Nat × Op × Out)) : List (Op × Out) := (L.filter fun x => x.1 = t).map (·.2)

/-- The sequential execution `L` (calls, each by a goroutine, with their results) accounts for the trace: it contains every call that has
returned, with the result it returned, and only calls that have been made, for each goroutine in the goroutine's order. -/
def Fits (L : List (Nat × Op × Out)) (tr : List Event) : Prop :=
  ∀ t, callsOf t tr <+: partOf t L ∧ (partOf t L).map (·.1) <+: invsOf t tr

/-- `L` is a linearization of the trace: up to every moment, some first part of `L` accounts for what has been seen by then.  So a call
that returned before another was made comes before it in `L`. -/
def Linearization (L : List (Nat × Op × Out)) (tr : List Event) : Prop := Fits L tr ∧ ∀ tr', tr' <+: tr → ∃ L', L' <+: L ∧ Fits L' tr'

/-- **Linearizability, in terms of sequential executions**: the trace has a linearization whose results are those of making the calls one
after the other. -/
def Sequential {S : Type} (step : S → Op → S × Out) (s : S) (tr : List Event) : Prop :=
  ∃ L, Linearization L tr ∧ (Verif.run step s (L.map (·.2.1))).2 = L.map (·.2.2)

/-- The trace has a linearization whose results are those of independent cursors. -/
def CursorHistory (cfg : Spec.Cfg) (Allowed : Choice → Prop) (f : List Cursor) (tr : List Event) : Prop :=
  ∃ L, Linearization L tr ∧ ∃ chs : List Choice, chs.length = L.length ∧ (∀ ch ∈ chs, Allowed ch) ∧
    L.map (·.2.2) = (Spec.run cfg f (chs.zip (L.map (·.2.1)))).2

/-- In every state: a goroutine about to access the shared part of the family holds the family's mutex. -/
def LocksShared {Γ : Sig} (c : Verif.Cfg Γ) : Prop :=
  ∀ t f, ((∃ k, c.thr t = some (.get (.c f) k)) ∨ ∃ v k, c.thr t = some (.put (.c f) v k)) → c.owner .common = some t

/-- The mutexes are acquired in the order body, family: a goroutine about to acquire a body's mutex holds none, one about to acquire the
family's mutex does not hold it; only the holder releases a mutex; and a goroutine about to return or outside calls holds none. -/
structure LockOrder {Γ : Sig} (c : Verif.Cfg Γ) : Prop where
  body : ∀ t h k, c.thr t = some (.lock (.body h) k) → ∀ m, c.owner m ≠ some t
  common : ∀ t k, c.thr t = some (.lock .common k) → c.owner .common ≠ some t
  release : ∀ t m k, c.thr t = some (.unlock m k) → c.owner m = some t
  ret : ∀ t o, c.thr t = some (.ret o) → ∀ m, c.owner m ≠ some t
  idle : ∀ t, c.thr t = none → ∀ m, c.owner m ≠ some t

/-- Goroutine `t` loops forever. -/
def Stuck {Γ : Sig} (c : Verif.Cfg Γ) (t : Nat) : Prop := c.thr t = some .stuck

/-- Steps other than new calls. -/
inductive Runs {Γ : Sig} (prog : Op → Prog Γ) : Verif.Cfg Γ → Verif.Cfg Γ → Prop
  | nil (c : Verif.Cfg Γ) : Runs prog c c
  | cons {c d e : Verif.Cfg Γ} {ev : Option Event} : Verif.Cfg.Step prog c ev d → (∀ t op, ev ≠ some (.inv t op)) → Runs prog d e → Runs prog c e

/-- A step other than a new call, from the state after it to the state before it. -/
def Before {Γ : Sig} (prog : Op → Prog Γ) (d c : Verif.Cfg Γ) : Prop := ∃ ev, Verif.Cfg.Step prog c ev d ∧ ∀ t op, ev ≠ some (.inv t op)

/-- All calls in progress return, if no new calls are made: there is no infinite run, and whenever no step is possible, nobody is in a
call any more. -/
def AllReturn {Γ : Sig} (prog : Op → Prog Γ) (c : Verif.Cfg Γ) : Prop :=
  Acc (Before prog) c ∧ ∀ d, Runs prog c d → ¬ CanStep prog d → ∀ t, ¬ Busy d t

end Verif.Spec
