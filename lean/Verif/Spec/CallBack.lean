import Verif.Model.ConcBuf
import Verif.Model.ConcPos

/-!
# What becomes of a Reader that calls back

In terms of executions only: calls that never return, and what some memory on the way was like.
-/

set_option autoImplicit false

namespace Verif.Spec
variable {Γ : Sig}

/-- From `c` on, up to `d`: goroutine `t` has not returned from its call, it has kept the family's mutex, and so whoever else waited for
that still does. -/
structure Waits (c : Verif.Cfg Γ) (tr : List Event) (d : Verif.Cfg Γ) (t : Nat) : Prop where
  busy : d.thr t ≠ none
  silent : ∀ o, Event.ret t o ∉ tr
  keeps : d.owner .common = some t
  others : ∀ u k, u ≠ t → c.thr u = some (.lock .common k) → d.thr u = some (.lock .common k)

/-- At some moment of the execution the memory was so. -/
def Sometime (prog : Op → Prog Γ) (c : Verif.Cfg Γ) (tr : List Event) (d : Verif.Cfg Γ) (P : Mem Γ → Prop) : Prop :=
  ∃ tr₁ tr₂ e, tr = tr₁ ++ tr₂ ∧ Cfg.Steps prog c tr₁ e ∧ Cfg.Steps prog e tr₂ d ∧ P e.mem

/-- The methods of stream-backed Bodies. -/
def OfStreams : Op → Prop
  | .read _ _ => True
  | .remaining _ => True
  | .copy _ => True
  | .close _ => True
  | .unwrap _ => True
  | _ => False

/-- The methods of ReaderAt- and Seeker-backed Bodies. -/
def OfPositional : Op → Prop
  | .writeTo _ _ => False
  | _ => True

/-- The calls that do without the shared part of a stream-backed family: on a closed Body, and BytesRemaining at the end. -/
def StreamApart {σ : Type} (op : Op) (M : Mem (bufSig σ)) : Prop :=
  M (.b op.h .closed) = true ∨ (∃ h, op = .remaining h) ∧ M (.b op.h .eof) = true

/-- The calls that do without the shared part of a ReaderAt-backed family: on a closed Body, Read after an error (the end included), and
ReadAt at a negative offset. -/
def ReaderAtApart {σ : Type} (op : Op) (M : Mem (posSig σ)) : Prop :=
  M (.b op.h .closed) = true ∨ (∃ h k, op = .read h k) ∧ (M (.b op.h .err) : Option Err) ≠ none ∨ ∃ h k off, op = .readAt h k off ∧ off < 0

/-- For a Seeker-backed family, BytesRemaining too: it locks nothing but the Body (which is the data race of C45). -/
def SeekerApart {σ : Type} (op : Op) (M : Mem (posSig σ)) : Prop := ReaderAtApart op M ∨ ∃ h, op = .remaining h

end Verif.Spec
