import Verif.Spec.Positional

/-! # What is expected of several Bodies made from one and the same Reader

Nothing here mentions the model. -/

set_option autoImplicit false

namespace Verif

/-- What happens to a Reader `σ` in use by several Bodies, made by separate calls of `FromReaderAndLength`. -/
inductive SEv (σ : Type) where
  /-- `FromReaderAndLength(r, L)` -/
  | make (L : Int)
  /-- a call on a Body of the family which was made as number `i` -/
  | on (i : Nat) (op : Op)
  /-- somebody uses the Reader directly, which is in another state then -/
  | direct (f : σ → σ)

/-- What is observed. -/
inductive SOut where
  /-- `FromReaderAndLength` returned a Body -/
  | made (i : Nat)
  | failed (e : Err)
  | panic (p : Panic)
  | hang
  | out (o : Out)
  | done
deriving DecidableEq, Repr

end Verif

namespace Verif.Spec
variable {σ : Type}

/-- The Bodies as families of independent cursors over the beginning of `F`: what happens to one family has no effect on the others. -/
def sharedStep (F : List Byte) (ch : Choice) (fs : List (Nat × List Cursor)) : SEv σ → List (Nat × List Cursor) × SOut
  | .make L =>
    let n := if L < 0 then F.length else L.toNat
    (fs ++ [(n, [{ content := F.take n }])], .made fs.length)
  | .on i op =>
    match fs[i]? with
    | none => (fs, .out .unsupported)
    | some f => let r := step (posCfg f.1) ch f.2 op; (fs.set i (f.1, r.1), .out r.2)
  | .direct _ => (fs, .done)

/-- A history, with the environment's choices. -/
def sharedRun (F : List Byte) : List (Nat × List Cursor) → List (Choice × SEv σ) → List (Nat × List Cursor) × List SOut
  | fs, [] => (fs, [])
  | fs, (ch, ev) :: evs =>
    let r := sharedStep F ch fs ev
    let t := sharedRun F r.1 evs
    (t.1, r.2 :: t.2)

/-- `R` is a file of content `F`, of which `Inv` holds as long as it is in order (in particular, not closed).  `R` is an `io.ReaderAt`, or
an `io.Seeker`, or both; its length can be found out by `Stat` or by seeking to the end. -/
structure IsFile (R : Rdr σ) (F : List Byte) (Inv : σ → Prop) : Prop where
  small : F.length < 2 ^ 63
  readerAt : R.isReaderAt = true → IsReaderAt R F Inv
  seeker : R.isReaderAt = false → R.isSeeker = true ∧ ∃ At : σ → Nat → Prop, IsFullSeeker R F At ∧ ∀ st, Inv st ↔ ∃ p, At st p
  stat : R.isFile = true → ∀ st, Inv st → ∃ st', R.stat st = (st', .ok (F.length, none)) ∧ Inv st'
  toEnd : R.isSeeker = true → ∀ st, Inv st → ∃ st', R.seek st 0 2 = (st', .ok (F.length, none)) ∧ Inv st'
  rewind : R.isSeeker = true → ∀ st, Inv st → ∃ st' n, R.seek st 0 0 = (st', .ok (n, none)) ∧ Inv st'

/-- The arguments are as they should be: a given length is at most that of the file; if none is given, the Reader is able to tell its own. -/
def SEv.Ok (R : Rdr σ) (F : List Byte) : SEv σ → Prop
  | .make L => L ≤ F.length ∧ (L < 0 → R.isFile = true ∨ R.isSeeker = true)
  | .on _ op => op.Valid
  | .direct _ => True

end Verif.Spec
