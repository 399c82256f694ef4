import Verif.Model.Reader
import Verif.Model.Buffered

/-! # What the platform has room for -/

set_option autoImplicit false

namespace Verif.Spec

/-- `int` has 32 or 64 bits. -/
def Platform (w : Nat) : Prop := w = 32 ∨ w = 64

def isCopy : Op → Bool
  | .copy _ => true
  | _ => false

/-- The number of calls of `Copy`. -/
def copyCalls (ops : List Op) : Nat := ops.countP isCopy

/-- What a call of `Read` may take from the stream: `len(p)`, rounded up to blocks. -/
def asked : Op → Nat
  | .read _ k => k + 65536
  | _ => 0

/-- The bytes a family has obtained from its stream by now. -/
def gone {σ : Type} (s : BufSys σ) : Int := s.common.start + s.common.bytes.length

/-- There is room for one more call: the position in the stream stays below 2^63, and the bytes held back together with those asked
for fit into one slice. -/
def Room {σ : Type} (w : Nat) (s : BufSys σ) (op : Op) : Prop :=
  gone s + asked op < 2 ^ 63 ∧ (s.common.bytes.length : Int) + asked op ≤ 2 ^ (w - 1)

/-- There is room for every call of the list. -/
def RoomFor {σ : Type} (w : Nat) (step : BufSys σ → Op → BufSys σ × Out) : BufSys σ → List Op → Prop
  | _, [] => True
  | s, op :: ops => Room w s op ∧ RoomFor w step (step s op).1 ops

end Verif.Spec
