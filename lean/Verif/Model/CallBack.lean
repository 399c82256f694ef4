import Verif.Model.ConcBuf
import Verif.Model.ConcPos

/-!
# Readers that use the Bodies made of them

The methods of `/repo/body/buffered.go`, `/repo/body/readerat.go` and `/repo/body/seeker.go` call the external Reader while they hold
`body.mu` and `common.mu`.  Nothing stops the Reader's method from calling a method of a Body of the same family (of a copy, say): here
the programs of `Model/ConcBuf.lean` and `Model/ConcPos.lean` are run with Readers that do so.

Here a Reader's method is a sequence of calls, each of which may depend on the state of the Reader and on what the calls before have returned (a panic
is recovered, and counts as a result), and then the answer of the Reader `R` in a state that depends on that, too.

Simplifications: a Reader called by a call made so calls nothing in turn (it is never called, `Props/CallBack.lean`); the Reader starts no goroutines.
-/

set_option autoImplicit false

namespace Verif
variable {Γ : Sig}

/-- Run a method, then what follows. -/
def Prog.bind : Prog Γ → (Out → Prog Γ) → Prog Γ
  | .ret o, k => k o
  | .stuck, _ => .stuck
  | .get l k', k => .get l fun v => (k' v).bind k
  | .put l v k', k => .put l v (k'.bind k)
  | .lock m k', k => .lock m (k'.bind k)
  | .unlock m k', k => .unlock m (k'.bind k)

/-- What a Reader does when its method is called: it makes a call and goes on depending on the result, or answers as in state `s`. -/
inductive ReaderDoes (σ : Type) where
  | answer (s : σ)
  | call (op : Op) (next : Out → ReaderDoes σ)

/-- What the Reader, the value `v` of the field `r` of the shared part, does. -/
def calledBack (r : Γ.CF) (back : Γ.CV r → ReaderDoes (Γ.CV r)) : (l : Loc Γ) → l.Val → ReaderDoes l.Val
  | .c f, v => if h : r = f then h ▸ back (h ▸ v) else .answer v
  | .b _ _, v => .answer v
  | .next, v => .answer v

/-- The calls, and then what follows. -/
def Prog.doing {σ : Type} (prog : Op → Prog Γ) : ReaderDoes σ → (σ → Prog Γ) → Prog Γ
  | .answer s, k => k s
  | .call op next, k => (prog op).bind fun o => Prog.doing prog (next o) k

/-- A method, with a Reader that makes calls: whenever the Reader is called (the method gets its state `s`), it does `back s` first. -/
def Prog.calling (r : Γ.CF) (back : Γ.CV r → ReaderDoes (Γ.CV r)) (prog : Op → Prog Γ) : Prog Γ → Prog Γ
  | .ret o => .ret o
  | .stuck => .stuck
  | .get l k => .get l fun v => Prog.doing prog (calledBack r back l v) fun v' => (k v').calling r back prog
  | .put l v k => .put l v (k.calling r back prog)
  | .lock m k => .lock m (k.calling r back prog)
  | .unlock m k => .unlock m (k.calling r back prog)

/-- The methods of a family whose Reader makes calls. -/
def callers (r : Γ.CF) (back : Γ.CV r → ReaderDoes (Γ.CV r)) (prog : Op → Prog Γ) (op : Op) : Prog Γ := (prog op).calling r back prog

end Verif
