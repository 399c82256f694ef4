import Verif.Basic

/-!
# Goroutines, mutexes and shared variables

Every body has a `sync.Mutex` (`body.mu`), and every family of Reader-backed bodies has another one (`common.mu`).  A method is a
*program*: a sequence of single accesses to single struct fields and of `Lock`/`Unlock` calls, each of which is one atomic step; the
steps of the goroutines are interleaved arbitrarily.  The programs of the five kinds of bodies are in `Model/ConcPos.lean`,
`Model/ConcBuf.lean` and `Model/ConcMem.lean`.

Simplifications: accesses are sequentially consistent (`Props/Concurrent.lean` proves the absence of data races, for which the Go memory
model guarantees sequential consistency, and exhibits the one data race); calls on an external Reader or Writer are not interleaved with
anything else using it; a new body gets the next free handle when its `Copy` call makes it known (`Loc.next` is not a variable of the
program but the allocator's; the model protects it by the family's lock, or by a lock of its own for bodies without shared state).
-/

set_option autoImplicit false

namespace Verif

/-- The mutexes: `body.mu` of the body with handle `h`, and `common.mu`. -/
inductive Lk where
  | body (h : Nat)
  | common
deriving DecidableEq, Repr

/-- The struct fields of a kind of bodies: those of the shared part and those of each body. -/
structure Sig where
  CF : Type
  BF : Type
  CV : CF → Type
  BV : BF → Type
  decC : DecidableEq CF
  decB : DecidableEq BF

instance (Γ : Sig) : DecidableEq Γ.CF := Γ.decC
instance (Γ : Sig) : DecidableEq Γ.BF := Γ.decB

/-- A variable: a field of the shared part, a field of the body with handle `h`, or the next free handle. -/
inductive Loc (Γ : Sig) where
  | c (f : Γ.CF)
  | b (h : Nat) (f : Γ.BF)
  | next
deriving DecidableEq

/-- The values of a variable. -/
@[reducible] def Loc.Val {Γ : Sig} : Loc Γ → Type
  | .c f => Γ.CV f
  | .b _ f => Γ.BV f
  | .next => Nat

/-- The memory. -/
def Mem (Γ : Sig) := (l : Loc Γ) → l.Val

def Mem.set {Γ : Sig} (M : Mem Γ) (l : Loc Γ) (v : l.Val) : Mem Γ :=
  fun l' => if h : l' = l then h ▸ v else M l'

/-- What remains to be executed of a method. -/
inductive Prog (Γ : Sig) where
  /-- return (or panic) -/
  | ret (o : Out)
  /-- loop forever -/
  | stuck
  /-- read a variable -/
  | get (l : Loc Γ) (k : l.Val → Prog Γ)
  /-- write a variable -/
  | put (l : Loc Γ) (v : l.Val) (k : Prog Γ)
  /-- `mu.Lock()` -/
  | lock (m : Lk) (k : Prog Γ)
  /-- `mu.Unlock()` -/
  | unlock (m : Lk) (k : Prog Γ)

/-- What the outside sees: a goroutine calls a method, and its call returns. -/
inductive Event where
  | inv (t : Nat) (op : Op)
  | ret (t : Nat) (o : Out)

/-- A state of the system: the memory, who holds which mutex, and what each goroutine has yet to do (`none`: it is not in a call). -/
structure Cfg (Γ : Sig) where
  mem : Mem Γ
  owner : Lk → Option Nat
  thr : Nat → Option (Prog Γ)

namespace Cfg
variable {Γ : Sig}

/-- Goroutine `t` continues with `p`. -/
def go (c : Cfg Γ) (t : Nat) (p : Option (Prog Γ)) : Cfg Γ := { c with thr := fun u => if u = t then p else c.thr u }

/-- The holder of a mutex changes. -/
def own (c : Cfg Γ) (m : Lk) (o : Option Nat) : Cfg Γ := { c with owner := fun n => if n = m then o else c.owner n }

/-- One step of one goroutine.  A goroutine that is not in a call may call any method on any body that exists. -/
inductive Step (prog : Op → Prog Γ) : Cfg Γ → Option Event → Cfg Γ → Prop
  | inv (c : Cfg Γ) (t : Nat) (op : Op) : c.thr t = none → op.h < c.mem .next → Step prog c (some (.inv t op)) (c.go t (some (prog op)))
  | ret (c : Cfg Γ) (t : Nat) (o : Out) : c.thr t = some (.ret o) → Step prog c (some (.ret t o)) (c.go t none)
  | get (c : Cfg Γ) (t : Nat) (l : Loc Γ) (k : l.Val → Prog Γ) : c.thr t = some (.get l k) → Step prog c none (c.go t (some (k (c.mem l))))
  | put (c : Cfg Γ) (t : Nat) (l : Loc Γ) (v : l.Val) (k : Prog Γ) : c.thr t = some (.put l v k) →
      Step prog c none ({ c with mem := c.mem.set l v }.go t (some k))
  | lock (c : Cfg Γ) (t : Nat) (m : Lk) (k : Prog Γ) : c.thr t = some (.lock m k) → c.owner m = none →
      Step prog c none ((c.own m (some t)).go t (some k))
  | unlock (c : Cfg Γ) (t : Nat) (m : Lk) (k : Prog Γ) : c.thr t = some (.unlock m k) →
      Step prog c none ((c.own m none).go t (some k))

/-- Any number of steps, with the calls and returns seen. -/
inductive Steps (prog : Op → Prog Γ) : Cfg Γ → List Event → Cfg Γ → Prop
  | nil (c : Cfg Γ) : Steps prog c [] c
  | snoc {c d e : Cfg Γ} {tr : List Event} {ev : Option Event} : Steps prog c tr d → Step prog d ev e → Steps prog c (tr ++ ev.toList) e

/-- No goroutine is in a call and no mutex is held. -/
def init (M : Mem Γ) : Cfg Γ := { mem := M, owner := fun _ => none, thr := fun _ => none }

end Cfg

/-- Running a method alone. -/
def Prog.exec {Γ : Sig} : Prog Γ → Mem Γ → Mem Γ × Out
  | .ret o, M => (M, o)
  | .stuck, M => (M, .hang)
  | .get l k, M => (k (M l)).exec M
  | .put l v k, M => k.exec (M.set l v)
  | .lock _ k, M => k.exec M
  | .unlock _ k, M => k.exec M

end Verif
