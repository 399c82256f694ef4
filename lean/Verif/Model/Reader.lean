import Verif.Basic

/-!
# External readers

The `io.Reader` behind a Body is outside the repository.  It is modelled by an arbitrary state
machine: any state type `σ`, any deterministic reaction to each call.  (Determinism costs nothing:
every theorem quantifies over all machines, and a nondeterministic reader's actual run is the run of
some machine, e.g. one whose state is the list of its remaining answers.)
-/

set_option autoImplicit false

namespace Verif

/-- What an external `Read(p)`/`ReadAt(p, off)` did. -/
inductive RResp where
  /-- returned `(len(data), err)` having stored `data`; if `data` is longer than `p` this stands for
  the impossible count `len(data) > len(p)` -/
  | got (data : List Byte) (err : Option Err)
  /-- returned a negative count -/
  | negative
  /-- panicked -/
  | panics (p : Panic)
deriving DecidableEq, Repr

/-- A Reader: its reactions and which optional interfaces it implements.
`isFile` is `fs.File` (so `Stat` and `Close` exist). -/
structure Rdr (σ : Type) where
  read : σ → Nat → σ × RResp
  readAt : σ → Nat → Int → σ × RResp
  seek : σ → Int → Int → σ × XResp (Int × Option Err)
  stat : σ → σ × XResp (Int × Option Err)
  close : σ → σ × XResp (Option Err)
  isReaderAt : Bool
  isSeeker : Bool
  isFile : Bool
  isCloser : Bool

/-- `Close`, if there is one, does not panic. -/
class Rdr.CloseOk {σ : Type} (R : Rdr σ) : Prop where
  close : R.isCloser = true → ∀ st, ∃ e, (R.close st).2 = .ok e

/-- One call made on an external reader, with its answer. -/
inductive Call where
  | read (n : Nat) (resp : RResp)
  | readAt (n : Nat) (off : Int) (resp : RResp)
  | seek (off whence : Int) (resp : XResp (Int × Option Err))
  | stat (resp : XResp (Int × Option Err))
  | close (resp : XResp (Option Err))
deriving DecidableEq, Repr

/-- State of a reader that keeps a log of the calls made on it. -/
structure Rec (σ : Type) where
  inner : σ
  log : List Call := []

/-- The same reader, keeping a log.  Used only to *talk about* the calls. -/
def Rdr.record {σ : Type} (R : Rdr σ) : Rdr (Rec σ) where
  read s n := let r := R.read s.inner n; (⟨r.1, s.log ++ [.read n r.2]⟩, r.2)
  readAt s n off := let r := R.readAt s.inner n off; (⟨r.1, s.log ++ [.readAt n off r.2]⟩, r.2)
  seek s off wh := let r := R.seek s.inner off wh; (⟨r.1, s.log ++ [.seek off wh r.2]⟩, r.2)
  stat s := let r := R.stat s.inner; (⟨r.1, s.log ++ [.stat r.2]⟩, r.2)
  close s := let r := R.close s.inner; (⟨r.1, s.log ++ [.close r.2]⟩, r.2)
  isReaderAt := R.isReaderAt
  isSeeker := R.isSeeker
  isFile := R.isFile
  isCloser := R.isCloser

instance {σ : Type} (R : Rdr σ) [R.CloseOk] : R.record.CloseOk := ⟨fun h st => Rdr.CloseOk.close (R := R) h st.inner⟩

end Verif
