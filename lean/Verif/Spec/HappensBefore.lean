import Verif.Model.Concurrent

/-!
# The Go memory model

An execution in single steps, each by a goroutine, and the order that the memory model guarantees for them: what one goroutine does is ordered, and
`Unlock` of a mutex happens before a later `Lock` of it returns.  The only thing that is asked of those who call the methods is that a goroutine gets a new
Body from the one that made it (so that making it happens before the first use).  Nothing here mentions which variables are protected by which mutexes.
-/

set_option autoImplicit false

namespace Verif.Spec
variable {Γ : Sig}

/-- What a goroutine does in one step. -/
inductive Did (Γ : Sig) where
  | call (op : Op)
  | ret (o : Out)
  | read (l : Loc Γ)
  | write (l : Loc Γ) (v : l.Val)
  | lock (m : Lk)
  | unlock (m : Lk)
  /-- the Bodies with handles from `i` up to `j` are made known -/
  | made (i j : Nat)

/-- What is seen of it from outside. -/
def Did.event (t : Nat) : Did Γ → Option Event
  | .call op => some (.inv t op)
  | .ret o => some (.ret t o)
  | _ => none

/-- Goroutine `t` takes a step. -/
inductive Does (prog : Op → Prog Γ) : Verif.Cfg Γ → Nat → Did Γ → Verif.Cfg Γ → Prop
  | call (c : Verif.Cfg Γ) (t : Nat) (op : Op) : c.thr t = none → op.h < c.mem .next → Does prog c t (.call op) (c.go t (some (prog op)))
  | ret (c : Verif.Cfg Γ) (t : Nat) (o : Out) : c.thr t = some (.ret o) → Does prog c t (.ret o) (c.go t none)
  | read (c : Verif.Cfg Γ) (t : Nat) (l : Loc Γ) (k : l.Val → Prog Γ) : c.thr t = some (.get l k) → Does prog c t (.read l) (c.go t (some (k (c.mem l))))
  | write (c : Verif.Cfg Γ) (t : Nat) (l : Loc Γ) (v : l.Val) (k : Prog Γ) : c.thr t = some (.put l v k) → l ≠ .next →
      Does prog c t (.write l v) ({ c with mem := c.mem.set l v }.go t (some k))
  | made (c : Verif.Cfg Γ) (t v : Nat) (k : Prog Γ) : c.thr t = some (.put .next v k) →
      Does prog c t (.made (c.mem .next) v) ({ c with mem := c.mem.set .next v }.go t (some k))
  | lock (c : Verif.Cfg Γ) (t : Nat) (m : Lk) (k : Prog Γ) : c.thr t = some (.lock m k) → c.owner m = none →
      Does prog c t (.lock m) ((c.own m (some t)).go t (some k))
  | unlock (c : Verif.Cfg Γ) (t : Nat) (m : Lk) (k : Prog Γ) : c.thr t = some (.unlock m k) →
      Does prog c t (.unlock m) ((c.own m none).go t (some k))

/-- An execution: who did what, in order. -/
abbrev Trail (Γ : Sig) := List (Nat × Did Γ)

inductive Execution (prog : Op → Prog Γ) (c : Verif.Cfg Γ) : Trail Γ → Verif.Cfg Γ → Prop
  | nil : Execution prog c [] c
  | snoc {d e : Verif.Cfg Γ} {x : Trail Γ} {t : Nat} {a : Did Γ} : Execution prog c x d → Does prog d t a e → Execution prog c (x ++ [(t, a)]) e

/-- What is seen of an execution. -/
def Trail.events (x : Trail Γ) : List Event := x.flatMap fun s => (s.2.event s.1).toList

/-- The `i`-th step happens before the `j`-th. -/
inductive HappensBefore (x : Trail Γ) : Nat → Nat → Prop
  /-- both are steps of the same goroutine -/
  | program {i j t : Nat} {a b : Did Γ} : i < j → x[i]? = some (t, a) → x[j]? = some (t, b) → HappensBefore x i j
  | mutex {i j t u : Nat} {m : Lk} : i < j → x[i]? = some (t, .unlock m) → x[j]? = some (u, .lock m) → HappensBefore x i j
  /-- whoever uses a Body got it from the goroutine that made it -/
  | handed {i j t u n m h : Nat} : i < j → x[i]? = some (t, .made n m) → n ≤ h → h < m → x[j]? = some (u, .lock (.body h)) → HappensBefore x i j
  | trans {i j k : Nat} : HappensBefore x i j → HappensBefore x j k → HappensBefore x i k

/-- Steps `i` and `j`, of different goroutines, access the variable `l`, at least one of them to write it. -/
def Conflict (x : Trail Γ) (l : Loc Γ) (i j : Nat) : Prop :=
  ∃ t u a b, t ≠ u ∧ x[i]? = some (t, a) ∧ x[j]? = some (u, b) ∧
    (((∃ v, a = .write l v) ∧ ((∃ v, b = .write l v) ∨ b = .read l)) ∨ (a = .read l ∧ ∃ v, b = .write l v))

/-- A data race, as the Go memory model defines it: conflicting accesses, neither of which happens before the other. -/
def DataRace (x : Trail Γ) (l : Loc Γ) : Prop := ∃ i j, Conflict x l i j ∧ ¬ HappensBefore x i j ∧ ¬ HappensBefore x j i

/-- A value that goroutine `t`, having come this far, may find in the variable `l`, which was `M l` in the beginning: that of a write after which no other is known
to have happened before.  (The memory model is stricter about variables for which there are data races.) -/
def Visible (M : Mem Γ) (x : Trail Γ) (t : Nat) (l : Loc Γ) (v : l.Val) : Prop :=
  let now (j : Nat) := HappensBefore (x ++ [(t, .read l)]) j x.length
  (∃ i u, x[i]? = some (u, .write l v) ∧ ∀ j w v', x[j]? = some (w, .write l v') → HappensBefore x i j → ¬ now j) ∨
    (v = M l ∧ ∀ j w v', x[j]? = some (w, .write l v') → ¬ now j)

/-- Executions as the memory model allows them: what is read is not the value that was written last, but one that is visible. -/
inductive WeakExecution (prog : Op → Prog Γ) (M : Mem Γ) : Trail Γ → Verif.Cfg Γ → Prop
  | nil : WeakExecution prog M [] (.init M)
  | read {c : Verif.Cfg Γ} {x : Trail Γ} {t : Nat} {l : Loc Γ} {k : l.Val → Prog Γ} {v : l.Val} : WeakExecution prog M x c → c.thr t = some (.get l k) →
      l ≠ .next → Visible M x t l v → WeakExecution prog M (x ++ [(t, .read l)]) (c.go t (some (k v)))
  | other {c d : Verif.Cfg Γ} {x : Trail Γ} {t : Nat} {a : Did Γ} : WeakExecution prog M x c → Does prog c t a d → (∀ l, l ≠ .next → a ≠ .read l) →
      WeakExecution prog M (x ++ [(t, a)]) d

end Verif.Spec
