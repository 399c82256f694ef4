import Verif.Props.BufferedClose
import Verif.Props.Positional

/-!
# C49: a Reader whose `Close` panics

A Body whose `Close` passes on a panic of the Reader's `Close` ought to be closed none the less.  Bodies over an `io.ReaderAt` or an
`io.ReadSeeker` are; Bodies over a plain `io.Reader` are not: they are left half dismantled.
-/

set_option autoImplicit false

namespace Verif
open Spec

variable {σ : Type}

/-- **C49** over an `io.ReaderAt` or an `io.ReadSeeker`: after `Close`, whether it returned or panicked, the Body is closed. -/
theorem C49_closed_positional (R : Rdr σ) (st : σ) (n : Nat) (ops ops' : List Op) (h : Nat) :
    (Spec.Exists (ReaderAtBody.step R) (atAfter R st n ops) h →
      Inert (ReaderAtBody.step R) true false (atAfter R st n (ops ++ .close h :: ops')) h) ∧
    (Spec.Exists (SeekerBody.step R) (seekAfter R st n ops) h →
      Inert (SeekerBody.step R) true false (seekAfter R st n (ops ++ .close h :: ops')) h) :=
  ⟨C05_closed_inert_readerAt R st n ops ops' h, C05_closed_inert_seeker R st n ops ops' h⟩

example : atOuts explosiveRdr () 3 [.close 0, .read 0 1, .close 0, .copy 0] =
    [.panic (.value 2), .read [] (some .closed), .closed (some .closed), .copiedClosed] := by decide +kernel

/-- What is left of a family over a plain Reader when the Reader's `Close` has panicked. -/
theorem zombie (R : Rdr σ) (fuel : Nat) (st : σ) (L : Int) (ops : List Op) (hok : ∀ op ∈ ops, op.Small)
    (hcp : ∀ q, Call.close (.panics q) ∉ streamLog R fuel st L ops) (h : Nat) (p : Panic)
    (hp : (streamStep R fuel (streamAfter R fuel st L ops) (.close h)).2 = .panic p) :
    ∃ b, (streamAfter R fuel st L ops).heap[h]? = some b ∧ b.closed = false ∧ 0 ≤ b.offset ∧
      ∃ c, (streamStep R fuel (streamAfter R fuel st L ops) (.close h)).1 = ⟨c, (streamAfter R fuel st L ops).heap⟩ ∧
        c.hasR = false ∧ c.err = none ∧ c.bodies = [] ∧ c.bytes = [] ∧ c.length = 0 ∧ c.start = 0 := by
  have h1 := (C10_calm_until_close_panics R fuel st L ops hcp).1
  have hw : WInv L (streamAfter R fuel st L ops) := by rw [h1]; exact after_winv R.calm fuel st L ops hok
  generalize streamAfter R fuel st L ops = s at *
  cases hb : s.heap[h]? with
  | none => simp [streamStep, BufSys.step, Op.h, hb] at hp
  | some b =>
    have hst : streamStep R fuel s (.close h) = s.close R.record h b := by simp only [streamStep, BufSys.step, Op.h, hb]
    have hst' : streamStep R.calm fuel s (.close h) = s.close R.calm.record h b := by simp only [streamStep, BufSys.step, Op.h, hb]
    rw [hst] at hp ⊢
    cases hcl : b.closed with
    | true => simp [BufSys.close, hcl] at hp
    | false =>
      have ho := (hw.alive ⟨b, List.mem_of_getElem? hb, hcl⟩).core.offs b (List.mem_of_getElem? hb) hcl
      refine ⟨b, rfl, hcl, Int.le_trans (hw.alive ⟨b, List.mem_of_getElem? hb, hcl⟩).core.start0 ho.1, ?_⟩
      obtain ⟨c', e, k1, _⟩ := close_spec R.calm L s hw hb hcl
      rcases unref_calm R s h b with h2 | ⟨q, h2, h3⟩
      · exfalso
        have : s.close R.record h b = s.close R.calm.record h b := by simp only [BufSys.close, h2]
        rw [this, k1] at hp
        cases hp
      · have h4 : (s.close R.record h b).1 = (BufSys.unref R.record s h b).1 := by
          simp only [BufSys.close, hcl, Bool.false_eq_true, if_false, h2]
        rw [h4]
        simp only [BufSys.unref] at h2 h3 ⊢
        split at h2
        · exfalso
          rename_i hlen
          rw [if_pos hlen] at h3
          split at h3
          · split at h3
            · rw [updateStart_rdr] at h3; simp at h3
            · simp at h3
          · simp at h3
        · rename_i hlen
          rw [if_neg hlen]
          split at h2
          · rename_i hr
            rw [if_pos hr]
            split
            · exact ⟨_, rfl, rfl, rfl, rfl, rfl, rfl, rfl⟩
            · exact ⟨_, rfl, rfl, rfl, rfl, rfl, rfl, rfl⟩
          · cases h2

/-- **C49 is false** over a plain `io.Reader`, for every Reader and every history at the end of which the Reader's `Close` panics (for
the first time): the Body is not closed.  `Copy` then panics (assignment to an entry of a nil map); another `Close` returns nil instead of
`fs.ErrClosed`; a `Read` of a Body past the start and not known to be at the end panics (slice bounds out of range), and one of a Body
known to be at the end returns `(0, nil)`. -/
theorem C49_zombie (R : Rdr σ) (fuel : Nat) (st : σ) (L : Int) (ops : List Op) (hok : ∀ op ∈ ops, op.Small)
    (hcp : ∀ q, Call.close (.panics q) ∉ streamLog R fuel st L ops) (h : Nat) (p : Panic)
    (hp : (streamStep R fuel (streamAfter R fuel st L ops) (.close h)).2 = .panic p)
    {s : BufSys (Rec σ)} (hs : s = (streamStep R fuel (streamAfter R fuel st L ops) (.close h)).1) :
    (streamStep R fuel s (.copy h)).2 = .panic .nilDeref ∧
    ((streamStep R fuel s (.close h)).2 = .closed none ∧ (streamStep R fuel s (.close h)).1.common.rdr.log = s.common.rdr.log) ∧
    ∃ b, s.heap[h]? = some b ∧
      (b.eof = true → ∀ k, (streamStep R fuel s (.read h k)).2 = .read [] none) ∧
      (b.eof = false → 0 < b.offset → ∀ k, (streamStep R fuel s (.read h k)).2 = .panic .bounds) := by
  obtain ⟨b, hb, hcl, ho, c, h1, h2, h3, h4, h5, h6, h7⟩ := zombie R fuel st L ops hok hcp h p hp
  rw [h1] at hs
  generalize streamAfter R fuel st L ops = s0 at *
  subst hs
  refine ⟨?_, ?_, b, hb, ?_, ?_⟩
  · simp [streamStep, BufSys.step, Op.h, hb, BufSys.copy, hcl, h2]
  · simp [streamStep, BufSys.step, Op.h, hb, BufSys.close, BufSys.unref, hcl, h2, h4]
  · intro he k
    simp [streamStep, BufSys.step, Op.h, hb, BufSys.read, hcl, he, h3]
  · intro he hpos k
    have hf : (BufSys.fill R.record fuel c (b.offset + k)).2 = none ∧ (BufSys.fill R.record fuel c (b.offset + k)).1.bytes = [] ∧
        (BufSys.fill R.record fuel c (b.offset + k)).1.start = 0 := by
      unfold BufSys.fill
      have hlt : (0 : Int) + ((0 : Nat) : Int) < b.offset + k := by omega
      simp only [h3, h5, h6, h7, List.length_nil, true_and, gt_iff_lt, hlt, if_true]
      generalize BufSys.roundUp _ = m
      have hl : ∀ m : Int, ¬ m > 0 → BufSys.readLoop R.record fuel c m = (c, none) := by
        intro m hm; unfold BufSys.readLoop; rw [if_pos hm]
      by_cases hm : 0 ≤ m
      · simp [hm, hl, h3, h5, h7]
      · simp [hm, hl m (by omega), h5, h7]
    obtain ⟨f1, f2, f3⟩ := hf
    have hge : ¬ ¬ b.offset ≥ c.start := by rw [h7]; omega
    have hst : streamStep R fuel ⟨c, s0.heap⟩ (.read h k) =
        BufSys.finishRead ⟨(BufSys.fill R.record fuel c (b.offset + k)).1, s0.heap⟩ h b k := by
      simp only [streamStep, BufSys.step, Op.h, hb, BufSys.read, hcl, he, Bool.false_eq_true, if_false, if_neg hge, f1]
    rw [hst]
    generalize (BufSys.fill R.record fuel c (b.offset + k)).1 = c' at *
    have hsh : b.offset + (k : Int) > 0 + (([] : List Byte).length : Int) := by simp; omega
    have hsl : goSlice (List.replicate k (0 : Byte)) 0 (0 + (([] : List Byte).length : Int) - 0 - (b.offset - 0)) = none := by
      unfold goSlice; rw [if_neg]; simp; omega
    simp only [BufSys.finishRead, f2, f3, hsh, decide_true, if_true, hsl]

/-- **C49 is false** (concretely): a Reader that respects the `io.Reader` contract, one byte of it read, `Close` panics; the Body then
panics in `Read` and `Copy`, and another `Close` returns nil. -/
theorem C49_false : ∃ (R : Rdr (List RResp)) (st : List RResp) (ops : List Op),
    (∀ n, ∃ d e, (R.read st n).2 = .got d e ∧ (0 < n → d.length ≤ n)) ∧
    streamOuts R 10 st (-1) ops = [.read [1] none, .panic (.value 3), .panic .bounds, .panic .nilDeref, .closed none, .closed (some .closed)] ∧
    closes (streamLog R 10 st (-1) ops) = [.panics (.value 3)] :=
  ⟨{ scripted with close := fun st => (st, .panics (.value 3)) }, [.got [1] none, .got [] (some .eof)],
    [.read 0 1, .close 0, .read 0 1, .copy 0, .close 0, .close 0],
    fun n => ⟨[1], none, rfl, fun h => h⟩, by decide +kernel, by decide +kernel⟩

/-- With the end already known, `Read` returns `(0, nil)`. -/
example : streamOuts { scripted with close := fun st => (st, .panics (.value 3)) } 10 [.got [1] (some .eof)] (-1)
    [.read 0 2, .close 0, .read 0 1] = [.read [1] (some .eof), .panic (.value 3), .read [] none] := by decide +kernel

end Verif
