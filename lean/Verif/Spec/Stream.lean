import Verif.Spec.Cursor
import Verif.Spec.Log

/-! # What is expected of Bodies over a stream

Nothing here mentions the model of buffered bodies: only cursors and logs of calls on the reader. -/

set_option autoImplicit false

namespace Verif.Spec

/-- Kind of family made from a plain `io.Reader` with advertised length `L` (`-1`: unknown). -/
def streamCfg (L : Int) (fin : Err) : Cfg :=
  { fin := fin, seekable := false, drains := false, backed := true, declared := L }

/-- The last call in the log is to blame for panic `p`: the reader returned an impossible count (the
assertions about the reader), or panicked itself. -/
def Blame (p : Panic) (ext : List Call) : Prop :=
  ∃ pre n r, ext = pre ++ [.read n r] ∧
    ((p = .badReader ∧ (r = .negative ∨ ∃ d e, r = .got d e ∧ n < d.length)) ∨ r = .panics p)

/-- The environment's choice at a call is accounted for by the log of the reader before and after it:
the end is never reported early; `BytesRemaining` answers from the advertised length exactly while
the end of the stream is unknown; a call panics only if the reader is to blame for it; and the error
of `Close` is the reader's. -/
structure Explained (L : Int) (before after : List Call) (ch : Choice) : Prop where
  early : ch.early = false
  stale : ch.stale = (term L before).isNone
  crash : ∀ p, ch.crash = some p → ∃ ext, after = before ++ ext ∧ Blame p ext
  closeErr : ∀ e, after = before ++ [.close (.ok e)] → ch.closeErr = e
  closeNone : after = before → ch.closeErr = none

/-- The first `L` bytes of the stream (all of it if no length is advertised). -/
def cut (T : List Byte) (L : Int) : List Byte := if 0 ≤ L then T.take L.toNat else T

/-- A reader which, in every state satisfying `Inv st T`, is going to deliver exactly the bytes `T` and
then report `fin`: in chunks of any size (also empty ones), with the error after the last byte or
together with it. -/
structure IsStream {σ : Type} (R : Rdr σ) (fin : Err) (Inv : σ → List Byte → Prop) : Prop where
  read : ∀ st T n, 0 < n → Inv st T → ∃ st' d e T', R.read st n = (st', .got d e) ∧ d.length ≤ n ∧
    T = d ++ T' ∧ (e = none → Inv st' T') ∧ (∀ x, e = some x → T' = [] ∧ x = fin)

/-- A reader that returns `(0, nil)` at most `B` times in a row (`idle st`: how often it still may). -/
structure Eager {σ : Type} (R : Rdr σ) (B : Nat) (idle : σ → Nat) : Prop where
  bound : ∀ st, idle st ≤ B
  down : ∀ st n, 0 < n → (R.read st n).2 = .got [] none → idle (R.read st n).1 < idle st

/-- The bytes that have to stay buffered: those from the position of the hindmost open cursor on. -/
def window (got : List Byte) (fam : List Cursor) : List Byte :=
  match ((fam.filter (·.isOpen)).map (·.pos)).min? with
  | none => []
  | some m => got.drop m

end Verif.Spec

namespace Verif

/-- Buffers of less than `2^62` bytes (no machine has larger ones). -/
def Op.Small : Op → Prop
  | .read _ k => k < 2 ^ 62
  | _ => True

end Verif
