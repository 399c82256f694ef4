import Verif.Model.Construct
import Verif.Spec.Construct
import Verif.Props.Mem
import Verif.Props.Buffered
import Verif.Props.Positional

/-!
# Properties of the constructors: C22 (which kind of Body), C23 (its length), C24, C25 (encoders)
-/

set_option autoImplicit false

namespace Verif
open Spec

variable {σ : Type}

/-! ## Dispatch -/

theorem fam_run_readerAt (R : Rdr σ) (fuel : Nat) (s : PosSys σ) (ops : List Op) :
    run (ReaderFam.step R fuel) (.readerAt s) ops =
      (.readerAt (run (ReaderAtBody.step R) s ops).1, (run (ReaderAtBody.step R) s ops).2) := by
  induction ops generalizing s with
  | nil => rfl
  | cons op ops ih => simp only [run_cons, ReaderFam.step]; rw [ih]

theorem fam_run_seeker (R : Rdr σ) (fuel : Nat) (s : PosSys σ) (ops : List Op) :
    run (ReaderFam.step R fuel) (.seeker s) ops =
      (.seeker (run (SeekerBody.step R) s ops).1, (run (SeekerBody.step R) s ops).2) := by
  induction ops generalizing s with
  | nil => rfl
  | cons op ops ih => simp only [run_cons, ReaderFam.step]; rw [ih]

theorem fam_run_buffered (R : Rdr σ) (fuel : Nat) (s : BufSys σ) (ops : List Op) :
    run (ReaderFam.step R fuel) (.buffered s) ops =
      (.buffered (run (BufSys.step R fuel) s ops).1, (run (BufSys.step R fuel) s ops).2) := by
  induction ops generalizing s with
  | nil => rfl
  | cons op ops ih => simp only [run_cons, ReaderFam.step]; rw [ih]

theorem pos_has_readAt (K : PosKind σ) (s : PosSys σ) (h : Nat) (he : Spec.Exists (Pos.step K) s h) (k : Nat)
    (off off' whence : Int) :
    (Pos.step K s (.readAt h k off)).2 ≠ .unsupported ∧ (Pos.step K s (.seek h off' whence)).2 ≠ .unsupported := by
  simp only [Spec.Exists, Pos.step, Op.h] at he ⊢
  cases hb : s.heap[h]? with
  | none => simp [hb] at he
  | some b =>
    simp only [Pos.readAt, Pos.seek, ReaderAtBody.seek]
    refine ⟨?_, ?_⟩
    · by_cases hc : b.closed = true <;> simp only [hc]
      · simp
      · by_cases h0 : off < 0 <;> simp only [h0]
        · simp
        · simp only [Bool.false_eq_true, if_false]
          generalize Pos.attempt K s.common k off = r
          obtain ⟨c, r⟩ := r
          cases r with
          | ret a => obtain ⟨d, e⟩ := a; simp
          | panic p => simp
          | hang => simp
    · repeat' split
      all_goals simp

/-! ## The measuring part, case by case -/

theorem measure_declared (R : Rdr σ) (st : σ) (L : Int) (hL : 0 ≤ L) : measure R st L = (st, .ret (.ok L)) := by
  have h1 : ¬ L < 0 := by omega
  simp [measure, h1]

theorem measure_file (R : Rdr σ) (st : σ) (L : Int) (hL : L < 0) (hf : R.isFile = true) :
    measure R st L = match (R.stat st).2 with
      | .panics p => ((R.stat st).1, .panic p)
      | .ok (_, some e) => ((R.stat st).1, .ret (.error (.viaStat e)))
      | .ok (n, none) => if n < 0 then ((R.stat st).1, .panic .badReader)
        else ((R.stat st).1, .ret (.ok n)) := by
  simp only [measure, hL, hf]
  generalize R.stat st = q
  obtain ⟨q1, ⟨q2, q3⟩ | p⟩ := q
  · cases q3 with
    | some e => simp
    | none => by_cases h : q2 < 0 <;> simp [h] <;> omega
  · simp

theorem measure_seeker (R : Rdr σ) (st : σ) (L : Int) (hL : L < 0) (hf : R.isFile = false) (hs : R.isSeeker = true) :
    measure R st L = match (R.seek st 0 2).2 with
      | .panics p => ((R.seek st 0 2).1, .panic p)
      | .ok (_, some e) => ((R.seek st 0 2).1, .ret (.error (.viaSeek e)))
      | .ok (n, none) => if n < 0 then ((R.seek st 0 2).1, .panic .badReader)
        else match (R.seek (R.seek st 0 2).1 0 0).2 with
        | .panics p => ((R.seek (R.seek st 0 2).1 0 0).1, .panic p)
        | .ok (_, some e) => ((R.seek (R.seek st 0 2).1 0 0).1, .ret (.error (.viaRewind e)))
        | .ok (_, none) => ((R.seek (R.seek st 0 2).1 0 0).1, .ret (.ok n)) := by
  rcases hq : R.seek st 0 2 with ⟨q1, ⟨q2, q3⟩ | p⟩
  · rcases hr : R.seek q1 0 0 with ⟨r1, ⟨r2, r3⟩ | p⟩
    · cases q3 with
      | some e => simp [measure, hL, hf, hs, hq]
      | none =>
        by_cases h : q2 < 0
        · have h' : ¬ 0 ≤ q2 := by omega
          simp [measure, hL, hf, hs, hq, h, h']
        · have h' : 0 ≤ q2 := by omega
          cases r3 <;> simp [measure, hL, hf, hs, hq, hr, h, h']
    · cases q3 with
      | some e => simp [measure, hL, hf, hs, hq]
      | none =>
        by_cases h : q2 < 0
        · have h' : ¬ 0 ≤ q2 := by omega
          simp [measure, hL, hf, hs, hq, h, h']
        · have h' : 0 ≤ q2 := by omega
          simp [measure, hL, hf, hs, hq, hr, h, h']
  · simp [measure, hL, hf, hs, hq]

theorem measure_unknown (R : Rdr σ) (st : σ) (L : Int) (hL : L < 0) (hf : R.isFile = false) (hs : R.isSeeker = false) :
    measure R st L = (st, .ret (.ok (-1))) := by
  simp [measure, hL, hf, hs]

theorem measure_cases (R : Rdr σ) (st : σ) (L : Int) (n : Int) (st' : σ)
    (h : measure R st L = (st', .ret (.ok n))) :
    (0 ≤ n ↔ 0 ≤ L ∨ R.isFile = true ∨ R.isSeeker = true) ∧ (n < 0 → n = -1) := by
  by_cases hL : 0 ≤ L
  · rw [measure_declared R st L hL] at h
    simp at h; simp [← h.2, hL]; omega
  · have hL' : L < 0 := by omega
    cases hf : R.isFile with
    | true =>
      rw [measure_file R st L hL' hf] at h
      split at h
      · simp at h
      · simp at h
      · split at h
        · simp at h
        · simp at h; simp [← h.2]; omega
    | false =>
      cases hs : R.isSeeker with
      | true =>
        rw [measure_seeker R st L hL' hf hs] at h
        split at h
        · simp at h
        · simp at h
        · split at h
          · simp at h
          · split at h
            · simp at h
            · simp at h
            · simp at h; simp [← h.2]; omega
      | false =>
        rw [measure_unknown R st L hL' hf hs] at h
        simp at h; simp [← h.2, hL]

/-- Which family is made, given the length. -/
theorem made_cases (R : Rdr σ) (st : σ) (L : Int) (st' : σ) (fam : ReaderFam σ)
    (h : fromReaderAndLength R st L = (st', .ret (.ok fam))) :
    ∃ n, measure R st L = (st', .ret (.ok n)) ∧
      fam = if R.isReaderAt = true ∧ 0 ≤ n then .readerAt (ReaderAtBody.init st' n)
        else if R.isSeeker = true ∧ 0 ≤ n then .seeker (SeekerBody.init st' n)
        else .buffered (BufSys.init st' n) := by
  unfold fromReaderAndLength at h
  generalize hq : measure R st L = q at h
  obtain ⟨q1, q2⟩ := q
  cases q2 with
  | panic p => simp at h
  | hang => simp at h
  | ret x =>
    cases x with
    | error e => simp at h
    | ok n =>
      simp only [Bool.and_eq_true, decide_eq_true_eq] at h
      by_cases h1 : R.isReaderAt = true ∧ 0 ≤ n
      · rw [if_pos h1] at h; simp at h; refine ⟨n, by simp_all, ?_⟩
        rw [if_pos h1, h.2.symm, h.1]
      · rw [if_neg h1] at h
        by_cases h2 : R.isSeeker = true ∧ 0 ≤ n
        · rw [if_pos h2] at h; simp at h; refine ⟨n, by simp_all, ?_⟩
          rw [if_neg h1, if_pos h2, h.2.symm, h.1]
        · rw [if_neg h2] at h; simp at h; refine ⟨n, by simp_all, ?_⟩
          rw [if_neg h1, if_neg h2, h.2.symm, h.1]

/-! ## C22 -/

/-- **C22**: `FromReaderAndLength` yields Bodies with `ReadAt` and `Seek` if the reader is `io.ReaderAt` and either
`io.Seeker` or `fs.File` or a length is declared, or if it is `io.Seeker`. -/
theorem C22_positional (R : Rdr σ) (fuel : Nat) (st st' : σ) (L : Int) (fam : ReaderFam σ)
    (hm : fromReaderAndLength R st L = (st', .ret (.ok fam)))
    (hp : (R.isReaderAt = true ∧ (R.isSeeker = true ∨ R.isFile = true ∨ 0 ≤ L)) ∨ R.isSeeker = true) :
    Positional (ReaderFam.step R fuel) fam := by
  obtain ⟨n, h1, h2⟩ := made_cases R st L st' fam hm
  have h3 := (measure_cases R st L n st' h1).1
  have h0 : 0 ≤ n := by
    rw [h3]; rcases hp with ⟨_, h | h | h⟩ | h <;> simp [h]
  intro ops h he k off off' wh
  by_cases ha : R.isReaderAt = true
  · rw [if_pos ⟨ha, h0⟩] at h2
    subst h2
    rw [fam_run_readerAt] at he ⊢
    simp only [Spec.Exists, ReaderFam.step, at_step] at he ⊢
    exact pos_has_readAt (atKind R) _ h he k off off' wh
  · have hs : R.isSeeker = true := by
      rcases hp with ⟨h, _⟩ | h
      · exact absurd h ha
      · exact h
    rw [if_neg (by simp [ha]), if_pos ⟨hs, h0⟩] at h2
    subst h2
    rw [fam_run_seeker] at he ⊢
    simp only [Spec.Exists, ReaderFam.step, seek_step] at he ⊢
    exact pos_has_readAt (seekKind R) _ h he k off off' wh

/-- **C22**: in all other cases the Bodies are streams (without `ReadAt` and `Seek`). -/
theorem C22_streaming (R : Rdr σ) (fuel : Nat) (st st' : σ) (L : Int) (fam : ReaderFam σ)
    (hm : fromReaderAndLength R st L = (st', .ret (.ok fam))) (hs : R.isSeeker = false)
    (hp : R.isReaderAt = false ∨ (R.isFile = false ∧ L < 0)) :
    Streaming (ReaderFam.step R fuel) fam := by
  obtain ⟨n, h1, h2⟩ := made_cases R st L st' fam hm
  have h3 := (measure_cases R st L n st' h1).1
  have ha : ¬ (R.isReaderAt = true ∧ 0 ≤ n) := by
    rintro ⟨a, b⟩
    rw [h3] at b
    rcases hp with h | ⟨h, h'⟩
    · simp [h] at a
    · simp [h, hs] at b; omega
  rw [if_neg ha, if_neg (by simp [hs])] at h2
  subst h2
  intro ops h k off off' wh
  rw [fam_run_buffered]
  simp only [ReaderFam.step, BufSys.step, Op.h]
  constructor <;> split <;> rfl

/-- **C22**: a reader that is a Body already is returned as it is. -/
theorem C22_body_unchanged {β : Type} (R : Rdr σ) (b : β) :
    fromReader R (.body b) = (.body b, .ret (.ok (.inl b))) := rfl

/-- `FromReaderAndLength` always comes to an end. -/
theorem made_ends (R : Rdr σ) (st : σ) (L : Int) : (fromReaderAndLength R st L).2 ≠ .hang := by
  have hm : (measure R st L).2 ≠ .hang := by
    unfold measure
    dsimp only
    repeat' split
    all_goals simp_all
    all_goals intro hh
    all_goals simp_all
  unfold fromReaderAndLength
  dsimp only
  split
  · simp
  · rename_i h; exact absurd h hm
  · simp
  · repeat' split
    all_goals simp

/-- **C22**: `FromReader` on anything else is `FromReaderAndLength` without a length: it makes the same Body, leaving the Reader in the same
state; it returns the same error; it panics likewise; and it always comes to an end. -/
theorem C22_fromReader {β : Type} (R : Rdr σ) (st st' : σ) :
    (∀ fam, fromReader (β := β) R (.plain st) = (.plain st', .ret (.ok (.inr fam))) ↔ fromReaderAndLength R st (-1) = (st', .ret (.ok fam))) ∧
    (∀ e, fromReader (β := β) R (.plain st) = (.plain st', .ret (.error e)) ↔ fromReaderAndLength R st (-1) = (st', .ret (.error e))) ∧
    (∀ p, fromReader (β := β) R (.plain st) = (.plain st', .panic p) ↔ fromReaderAndLength R st (-1) = (st', .panic p)) ∧
    (fromReader (β := β) R (.plain st)).2 ≠ .hang := by
  have hh := made_ends R st (-1)
  rcases hr : fromReaderAndLength R st (-1) with ⟨r1, r2⟩
  rw [hr] at hh
  cases r2 with
  | panic p => simp [fromReader, hr]
  | hang => exact absurd rfl hh
  | ret x => cases x <;> simp [fromReader, hr]

/-- **C22**: a nil Reader is refused by both constructors; otherwise `FromReaderAndLength` is as described. -/
theorem C22_nil {β : Type} (R : Rdr σ) (st : Option σ) (L : Int) :
    fromReader (β := β) R .nil = (.nil, .panic .badArg) ∧
    ((fromReaderAndLengthOf R st L).2 = .panic .badArg ∧ (fromReaderAndLengthOf R st L).1 = none ↔ st = none) ∧
    (∀ s, st = some s → fromReaderAndLengthOf R st L = (some (fromReaderAndLength R s L).1, (fromReaderAndLength R s L).2)) := by
  refine ⟨rfl, ?_, ?_⟩
  · cases st <;> simp [fromReaderAndLengthOf]
  · rintro s rfl
    rfl

example : ∃ st' fam, fromReaderAndLength (fileRdr [1, 2, 3]) 2 (-1) = (st', .ret (.ok fam)) := ⟨_, _, rfl⟩
example : ∃ st' fam, fromReaderAndLength scripted [.got [1, 2] none] (-1) = (st', .ret (.ok fam)) := ⟨_, _, rfl⟩
example : ((ReaderFam.step scripted 9 (.buffered (BufSys.init [.got [1, 2] none] (-1))) (.read 0 1)).2) = .read [1] none := by
  decide +kernel

/-! ## C23 -/

/-- The constructor over a recording reader. -/
abbrev made (R : Rdr σ) (st : σ) (L : Int) : Rec σ × Res (Except Err (ReaderFam (Rec σ))) :=
  fromReaderAndLength R.record ⟨st, []⟩ L

/-- A family was made which stands on the reader as it is now and whose first Body has `n` bytes left. -/
def Makes (R : Rdr σ) (r : Rec σ × Res (Except Err (ReaderFam (Rec σ)))) (n : Int) : Prop :=
  ∃ fam, r.2 = .ret (.ok fam) ∧ fam.rdr = r.1 ∧ ∀ fuel, (fam.step R.record fuel (.remaining 0)).2 = .remaining n

theorem makes_of_measure (R : Rdr σ) (st : σ) (L : Int) (st' : Rec σ) (n : Int)
    (h : measure R.record ⟨st, []⟩ L = (st', .ret (.ok n))) : (made R st L).1 = st' ∧ Makes R (made R st L) n := by
  have hc := (measure_cases _ _ _ _ _ h).2
  unfold made fromReaderAndLength
  rw [h]
  simp only [Bool.and_eq_true, decide_eq_true_eq]
  by_cases h1 : R.record.isReaderAt = true ∧ 0 ≤ n
  · rw [if_pos h1]
    refine ⟨rfl, _, rfl, rfl, fun fuel => ?_⟩
    simp [ReaderFam.step, ReaderAtBody.step, ReaderAtBody.init, Op.h, ReaderAtBody.bytesRemaining,
      ReaderAtBody.commonRemaining, ReaderAtBody.ref]
    omega
  · rw [if_neg h1]
    by_cases h2 : R.record.isSeeker = true ∧ 0 ≤ n
    · rw [if_pos h2]
      refine ⟨rfl, _, rfl, rfl, fun fuel => ?_⟩
      simp [ReaderFam.step, SeekerBody.step, SeekerBody.init, Op.h, SeekerBody.bytesRemaining, SeekerBody.ref]
    · rw [if_neg h2]
      refine ⟨rfl, _, rfl, rfl, fun fuel => ?_⟩
      simp [ReaderFam.step, BufSys.step, BufSys.init, Op.h, BufSys.bytesRemaining, BufSys.ref]
      omega

/-- **C23**: a declared length is used as it is; the reader is not touched. -/
theorem C23_declared (R : Rdr σ) (st : σ) (L : Int) (hL : 0 ≤ L) :
    (made R st L).1 = ⟨st, []⟩ ∧ Makes R (made R st L) L :=
  makes_of_measure R st L _ L (measure_declared _ _ L hL)

/-- **C23**: without one, an `fs.File` is asked once by `Stat`; a failure is reported, wrapping its cause; a negative size
panics; a panic is passed on. -/
theorem C23_stat (R : Rdr σ) (st : σ) (L : Int) (hL : L < 0) (hf : R.isFile = true) (st' : σ) (a : XResp (Int × Option Err))
    (hst : R.stat st = (st', a)) :
    (made R st L).1 = ⟨st', [.stat a]⟩ ∧
    match a with
    | .panics p => (made R st L).2 = .panic p
    | .ok (_, some x) => (made R st L).2 = .ret (.error (.viaStat x))
    | .ok (n, none) => (n < 0 → (made R st L).2 = .panic .badReader) ∧ (0 ≤ n → Makes R (made R st L) n) := by
  have hm := measure_file R.record ⟨st, []⟩ L hL hf
  simp only [Rdr.record, hst, List.nil_append] at hm
  rcases a with ⟨n, e⟩ | p
  · cases e with
    | some x =>
      simp only at hm
      have : made R st L = (⟨st', [.stat (.ok (n, some x))]⟩, .ret (.error (.viaStat x))) := by
        unfold made fromReaderAndLength
        rw [show measure R.record ⟨st, []⟩ L = _ from hm]
      simp [this]
    | none =>
      simp only at hm
      by_cases hn : n < 0
      · rw [if_pos hn] at hm
        have : made R st L = (⟨st', [.stat (.ok (n, none))]⟩, .panic .badReader) := by
          unfold made fromReaderAndLength
          rw [show measure R.record ⟨st, []⟩ L = _ from hm]
        simp [this]; omega
      · rw [if_neg hn] at hm
        have := makes_of_measure R st L _ n hm
        exact ⟨this.1, fun h => absurd h hn, fun _ => this.2⟩
  · have : made R st L = (⟨st', [.stat (.panics p)]⟩, .panic p) := by
      unfold made fromReaderAndLength
      rw [show measure R.record ⟨st, []⟩ L = _ from hm]
    simp [this]

/-- **C23**: otherwise an `io.Seeker` is asked by seeking to the end, and then rewound; failures are reported, wrapping their
cause; a negative position panics; panics are passed on. -/
theorem C23_seek (R : Rdr σ) (st : σ) (L : Int) (hL : L < 0) (hf : R.isFile = false) (hs : R.isSeeker = true)
    (st1 st2 : σ) (a1 a2 : XResp (Int × Option Err)) (h1 : R.seek st 0 2 = (st1, a1)) (h2 : R.seek st1 0 0 = (st2, a2)) :
    match a1 with
    | .panics p => made R st L = (⟨st1, [.seek 0 2 a1]⟩, .panic p)
    | .ok (_, some x) => made R st L = (⟨st1, [.seek 0 2 a1]⟩, .ret (.error (.viaSeek x)))
    | .ok (n, none) =>
      (n < 0 → made R st L = (⟨st1, [.seek 0 2 a1]⟩, .panic .badReader)) ∧
      (0 ≤ n → (made R st L).1 = ⟨st2, [.seek 0 2 a1, .seek 0 0 a2]⟩ ∧
        match a2 with
        | .panics p => (made R st L).2 = .panic p
        | .ok (_, some x) => (made R st L).2 = .ret (.error (.viaRewind x))
        | .ok (_, none) => Makes R (made R st L) n) := by
  have hm := measure_seeker R.record ⟨st, []⟩ L hL hf hs
  simp only [Rdr.record, h1, h2, List.nil_append, List.singleton_append] at hm
  rcases a1 with ⟨n, e1⟩ | p
  · cases e1 with
    | some x =>
      simp only at hm ⊢
      unfold made fromReaderAndLength
      rw [show measure R.record ⟨st, []⟩ L = _ from hm]
    | none =>
      simp only at hm ⊢
      refine ⟨?_, ?_⟩
      · intro hn
        rw [if_pos hn] at hm
        unfold made fromReaderAndLength
        rw [show measure R.record ⟨st, []⟩ L = _ from hm]
      · intro hn
        rw [if_neg (by omega)] at hm
        rcases a2 with ⟨m, e2⟩ | p
        · cases e2 with
          | some x =>
            simp only at hm
            have : made R st L = (⟨st2, [.seek 0 2 (.ok (n, none)), .seek 0 0 (.ok (m, some x))]⟩, .ret (.error (.viaRewind x))) := by
              unfold made fromReaderAndLength
              rw [show measure R.record ⟨st, []⟩ L = _ from hm]
            simp [this]
          | none => exact makes_of_measure R st L _ n hm
        · have : made R st L = (⟨st2, [.seek 0 2 (.ok (n, none)), .seek 0 0 (.panics p)]⟩, .panic p) := by
            unfold made fromReaderAndLength
            rw [show measure R.record ⟨st, []⟩ L = _ from hm]
          simp [this]
  · simp only at hm ⊢
    unfold made fromReaderAndLength
    rw [show measure R.record ⟨st, []⟩ L = _ from hm]

/-- **C23**: and otherwise the length stays unknown and the reader is not touched. -/
theorem C23_unknown (R : Rdr σ) (st : σ) (L : Int) (hL : L < 0) (hf : R.isFile = false) (hs : R.isSeeker = false) :
    (made R st L).1 = ⟨st, []⟩ ∧ Makes R (made R st L) (-1) :=
  makes_of_measure R st L _ (-1) (measure_unknown R.record ⟨st, []⟩ L hL hf hs)

example : (made (fileRdr [1, 2, 3]) 2 (-5)).1.log = [.stat (.ok (3, none))] := by decide +kernel
example : (made { fileRdr [1, 2, 3] with isFile := false } 2 (-5)).1.log = [.seek 0 2 (.ok (3, none)), .seek 0 0 (.ok (0, none))] := by
  decide +kernel

/-- **C23**: the new Body serves the reader's content from its first byte, for readers with a working `ReadAt`. -/
theorem C23_content_readerAt {R : Rdr σ} {F : List Byte} {Inv : σ → Prop} (hR : IsReaderAt R F Inv)
    (hat : R.isReaderAt = true) (fuel : Nat) (st st' : σ) (L : Int) (fam : ReaderFam σ)
    (hm : fromReaderAndLength R st L = (st', .ret (.ok fam))) (hi : Inv st') (n : Nat) (hn : n ≤ F.length)
    (hn63 : n < 2 ^ 63) (hr : (fam.step R fuel (.remaining 0)).2 = .remaining n) :
    Refines (ReaderFam.step R fuel) (posCfg n) Op.Valid PosAllowed fam [{ content := F.take n }] := by
  obtain ⟨m, h1, h2⟩ := made_cases R st L st' fam hm
  by_cases h0 : 0 ≤ m
  · rw [if_pos ⟨hat, h0⟩] at h2
    subst h2
    simp [ReaderFam.step, ReaderAtBody.step, ReaderAtBody.init, Op.h, ReaderAtBody.bytesRemaining,
      ReaderAtBody.commonRemaining, ReaderAtBody.ref] at hr
    have : m = n := by split at hr <;> omega
    subst this
    intro ops hv hh
    rw [fam_run_readerAt] at hh ⊢
    exact C16_readerAt_refines_cursors hR st' hi n hn hn63 ops hv hh
  · rw [if_neg (by simp [h0]), if_neg (by simp [h0])] at h2
    subst h2
    simp [ReaderFam.step, BufSys.step, BufSys.init, Op.h, BufSys.bytesRemaining, BufSys.ref] at hr
    rw [if_pos (by omega)] at hr
    omega

/-- **C23**: the same for seekers without `ReadAt` (whose `Read` fills the buffer, see C18). -/
theorem C23_content_seeker_partial {R : Rdr σ} {F : List Byte} {At : σ → Nat → Prop} (hR : IsFullSeeker R F At)
    (hat : R.isReaderAt = false) (hs : R.isSeeker = true) (fuel : Nat) (st st' : σ) (L : Int) (fam : ReaderFam σ)
    (hm : fromReaderAndLength R st L = (st', .ret (.ok fam))) (p : Nat) (hi : At st' p) (n : Nat) (hn : n ≤ F.length)
    (hn63 : n < 2 ^ 63) (hr : (fam.step R fuel (.remaining 0)).2 = .remaining n) :
    Refines (ReaderFam.step R fuel) (posCfg n) Op.Valid PosAllowed fam [{ content := F.take n }] := by
  obtain ⟨m, h1, h2⟩ := made_cases R st L st' fam hm
  have h0 : 0 ≤ m := by rw [(measure_cases _ _ _ _ _ h1).1]; simp [hs]
  rw [if_neg (by simp [hat]), if_pos ⟨hs, h0⟩] at h2
  subst h2
  simp [ReaderFam.step, SeekerBody.step, SeekerBody.init, Op.h, SeekerBody.bytesRemaining, SeekerBody.ref] at hr
  subst hr
  intro ops hv hh
  rw [fam_run_seeker] at hh ⊢
  exact C18_seeker_refines_cursors_partial hR st' p hi n hn hn63 ops hv hh

/-- **C23**: the same for streams: the content is the stream from the reader's current position, cut at the length. -/
theorem C23_content_stream {R : Rdr σ} [R.CloseOk] {fin : Err} {Inv : σ → List Byte → Prop} (hS : IsStream R fin Inv)
    (hs : R.isSeeker = false) (hat : R.isReaderAt = false) (fuel : Nat) (st st' : σ) (L : Int) (fam : ReaderFam σ)
    (hm : fromReaderAndLength R st L = (st', .ret (.ok fam))) (T : List Byte) (hi : Inv st' T) (n : Int)
    (hr : (fam.step R fuel (.remaining 0)).2 = .remaining n) (hL : fin = .eof ∨ n ≠ T.length)
    (ops : List Op) (hok : ∀ op ∈ ops, op.Small) (hh : Out.hang ∉ (run (ReaderFam.step R fuel) fam ops).2) :
    ∃ chs : List Choice, chs.length = ops.length ∧ (∀ ch ∈ chs, ch.crash = none ∧ ch.early = false) ∧
      (run (ReaderFam.step R fuel) fam ops).2 =
        (Spec.run (streamCfg n (if 0 ≤ n ∧ n < T.length then .eof else fin)) [{ content := cut T n }] (chs.zip ops)).2 := by
  obtain ⟨m, h1, h2⟩ := made_cases R st L st' fam hm
  rw [if_neg (by simp [hat]), if_neg (by simp [hs])] at h2
  subst h2
  have hmn := (measure_cases _ _ _ _ _ h1).2
  simp [ReaderFam.step, BufSys.step, BufSys.init, Op.h, BufSys.bytesRemaining, BufSys.ref] at hr
  have : m = n := by split at hr <;> omega
  subst this
  rw [fam_run_buffered] at hh ⊢
  rw [C09_log_is_transparent] at hh ⊢
  obtain ⟨chs, h, hc⟩ := C09_stream_content hS fuel st' T hi m hL ops hok hh
  refine ⟨chs, h.length, ?_, h.outs⟩
  intro ch hch
  obtain ⟨i, hi⟩ := List.mem_iff_getElem?.1 hch
  exact ⟨hc ch hch, (h.choices i ch hi).early⟩

/-! ## C24 -/

/-- `copy` stops at the end of the shorter slice. -/
example : goCopy [1, 2, 3] [9] = [9, 2, 3] ∧ goCopy [1] [7, 8] = [7] ∧ goCopy [1, 2] [7, 8] = [7, 8] := by decide

/-- **C24 is false**: whatever the value, and whatever its (non-empty) encoding, the Body made by `FromJSON` delivers
nothing. The property would be `∀ ks, delivered … = src.take ks.sum`. -/
theorem C24_false (enc : Bool → Except Err (List Byte)) (src : List Byte) (he : enc false = .ok src) :
    ∃ fam, fromJSON enc = .ret fam ∧ (MemFam.step fam (.remaining 0)).2 = .remaining 0 ∧
      ∀ ks : List Nat, delivered (run MemFam.step fam (ks.map (Op.read 0))).2 = [] := by
  refine ⟨emptyFam, by simp [fromJSON, fromJSONImpl, he, goCopy, fromBytes], rfl, fun ks => ?_⟩
  have := (C02_read_concat [] (by simp) ks).1
  simpa [fromBytes] using this

/-- **C24**, what is left of it: a value the encoder rejects causes a panic with the encoder's error. -/
theorem C24_encoder_error_partial (enc : Bool → Except Err (List Byte)) (e : Err) (he : enc false = .error e) :
    fromJSON enc = .panic (.error e) := by
  simp [fromJSON, fromJSONImpl, he]

example : ∃ (enc : Bool → Except Err (List Byte)) (src : List Byte), enc false = .ok src ∧ src ≠ [] :=
  ⟨fun _ => .ok (lit "null\n"), _, rfl, by decide⟩

/-! ## C25 -/

theorem crlf_cons (c : Byte) (l : List Byte) : crlf (c :: l) = (if c = 10 then [13, 10] else [c]) ++ crlf l := by
  simp [crlf]

theorem uncrlf_cons (c : Byte) (l : List Byte) (h : ¬ (c = 13 ∧ l.head? = some 10)) : uncrlf (c :: l) = c :: uncrlf l := by
  rw [uncrlf]
  rintro l' rfl rfl
  simp at h

theorem crlf_head (l : List Byte) : (crlf l).head? ≠ some 10 := by
  cases l with
  | nil => simp [crlf]
  | cons c l => rw [crlf_cons]; split <;> simp_all

/-- **C25**: the transformation loses nothing. -/
theorem C25_lossless (l : List Byte) : uncrlf (crlf l) = l := by
  induction l with
  | nil => rfl
  | cons c l ih =>
    rw [crlf_cons]
    by_cases h : c = 10
    · simp [h, uncrlf, ih]
    · rw [if_neg h, List.singleton_append, uncrlf_cons _ _ (fun e => crlf_head l e.2), ih]

/-- **C25**: every line feed in the result is preceded by a carriage return. -/
theorem C25_every_lf_has_cr (l : List Byte) (i : Nat) (h : (crlf l)[i]? = some 10) :
    ∃ j, i = j + 1 ∧ (crlf l)[j]? = some 13 := by
  induction l generalizing i with
  | nil => simp [crlf] at h
  | cons c l ih =>
    rw [crlf_cons] at h ⊢
    by_cases hc : c = 10
    · rw [if_pos hc] at h ⊢
      match i with
      | 0 => simp at h
      | 1 => exact ⟨0, rfl, by simp⟩
      | i + 2 =>
        obtain ⟨j, rfl, hj⟩ := ih i (by simpa using h)
        exact ⟨j + 2, rfl, by simpa using hj⟩
    · rw [if_neg hc] at h ⊢
      match i with
      | 0 => simp at h; exact absurd h hc
      | i + 1 =>
        obtain ⟨j, rfl, hj⟩ := ih i (by simpa using h)
        exact ⟨j + 1, rfl, by simpa using hj⟩

/-- **C25**: its length. -/
theorem C25_length (l : List Byte) : (crlf l).length = l.length + l.count 10 := by
  induction l with
  | nil => rfl
  | cons c l ih =>
    rw [crlf_cons, List.length_append, ih, List.count_cons]
    by_cases hc : c = 10 <;> simp [hc] <;> omega

theorem crlf_foldl (src dst : List Byte) :
    src.foldl (fun dst ch => if ch = 10 then dst ++ [13, 10] else dst ++ [ch]) dst = dst ++ crlf src := by
  induction src generalizing dst with
  | nil => simp [crlf]
  | cons c l ih => rw [List.foldl_cons, ih, crlf_cons]; split <;> simp

/-- **C25**: the Body made by `FromPrettyJSON` delivers the indented encoding with CRLF line ends, and advertises its
length. -/
theorem C25_pretty (enc : Bool → Except Err (List Byte)) (src : List Byte) (he : enc true = .ok src)
    (hlen : (crlf src).length < 2 ^ 63) :
    ∃ fam, fromPrettyJSON enc = .ret fam ∧
      (MemFam.step fam (.remaining 0)).2 = .remaining (crlf src).length ∧
      ∀ ops : List Op, (∀ op ∈ ops, op.Valid ∧ (src = [] → op.EmptyOk)) →
        (run MemFam.step fam ops).2 =
          (Spec.run (memCfg (crlf src)) [{ content := crlf src }] (ops.map (({} : Choice), ·))).2 := by
  refine ⟨fromBytes (crlf src), ?_, ?_, ?_⟩
  · simp only [fromPrettyJSON, fromJSONImpl, he]
    rw [crlf_foldl]; rfl
  · have := C01_bytes_refine_cursors (crlf src) hlen [.remaining 0] (by simp [Op.Valid, Op.EmptyOk])
    simpa [run_cons, run_nil, Spec.run, Spec.step, Op.h, Cursor.remaining] using this
  · intro ops hv
    refine C01_bytes_refine_cursors (crlf src) hlen ops (fun op hop => ⟨(hv op hop).1, fun e => (hv op hop).2 ?_⟩)
    have h1 := C25_lossless src
    rw [e] at h1
    exact h1.symm

/-- **C25**: an encoder failure panics with the encoder's error. -/
theorem C25_encoder_error (enc : Bool → Except Err (List Byte)) (e : Err) (he : enc true = .error e) :
    fromPrettyJSON enc = .panic (.error e) := by
  simp [fromPrettyJSON, fromJSONImpl, he]

/-- What a constructor of Bodies made: a Body which serves `raw`; or it panicked because of `e`, or because of a nil argument. -/
def Serves (raw : List Byte) (r : Res MemFam) : Prop :=
  ∃ fam, r = .ret fam ∧ (MemFam.step fam (.remaining 0)).2 = .remaining raw.length ∧
    ∀ ks : List Nat, delivered (run MemFam.step fam (ks.map (Op.read 0))).2 = raw.take ks.sum

theorem serves_fromBytes (raw : List Byte) (hlen : raw.length < 2 ^ 63) : Serves raw (.ret (fromBytes raw)) := by
  refine ⟨_, rfl, ?_, fun ks => (C02_read_concat raw hlen ks).1⟩
  have := C01_bytes_refine_cursors raw hlen [.remaining 0] (by simp [Op.Valid, Op.EmptyOk])
  simpa [run_cons, run_nil, Spec.run, Spec.step, Op.h, Cursor.remaining] using this

/-- `FromProto` serves what the marshaller produced, or panics with its error; it panics if the message is nil. -/
theorem C25_proto (raw : List Byte) (hlen : raw.length < 2 ^ 63) :
    Serves raw (fromProto (some (.ok raw))) ∧ (∀ e, fromProto (some (.error e)) = .panic (.error e)) ∧ fromProto none = .panic .badArg :=
  ⟨serves_fromBytes raw hlen, fun _ => rfl, rfl⟩

/-- `FromProtoText` serves what the marshaller produces with the options given, and with several lines indented by two spaces if none are
given; or it panics with the marshaller's error; it panics if the message is nil. -/
theorem C25_protoText (marshal : TextOpts → Except Err (List Byte)) (o : Option TextOpts) :
    (∀ raw, marshal (o.getD ⟨true, [32, 32], 0⟩) = .ok raw → raw.length < 2 ^ 63 → Serves raw (fromProtoText (some marshal) o)) ∧
    (∀ e, marshal (o.getD ⟨true, [32, 32], 0⟩) = .error e → fromProtoText (some marshal) o = .panic (.error e)) ∧
    fromProtoText none o = .panic .badArg := by
  have h : fromProtoText (some marshal) o = match marshal (o.getD ⟨true, [32, 32], 0⟩) with
      | .error e => .panic (.error e)
      | .ok raw => .ret (fromBytes raw) := by
    cases o <;> rfl
  refine ⟨fun raw hr hl => ?_, fun e he => ?_, rfl⟩
  · rw [h, hr]
    exact serves_fromBytes raw hl
  · rw [h, he]

example : Serves (lit "a: 1\n") (fromProtoText (some fun o => .ok (if o.multiline then lit "a: 1\n" else lit "a:1")) none) :=
  (C25_protoText _ none).1 _ rfl (by decide)
example : Serves (lit "a:1") (fromProtoText (some fun o => .ok (if o.multiline then lit "a: 1\n" else lit "a:1")) (some {})) :=
  (C25_protoText _ (some {})).1 _ rfl (by decide)

example : crlf (lit "{\n  \"a\": 1\n}\n") = lit "{\r\n  \"a\": 1\r\n}\r\n" := by decide
example : ∃ fam, fromPrettyJSON (fun _ => .ok (lit "[\n]\n")) = .ret fam ∧
    (run MemFam.step fam [.read 0 9]).2 = [.read (lit "[\r\n]\r\n") (some .eof)] :=
  ⟨_, rfl, by decide +kernel⟩

end Verif
