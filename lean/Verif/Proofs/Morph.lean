import Verif.Model.Construct
import Verif.Proofs.Pos

/-!
# Replacing a Reader by another one

`Rdr.Morph R₁ R₂ f P`: whenever `R₁` ends up in a state that satisfies `P`, it was in such a state before the call, and `R₂` does the same in the
corresponding state.  (`P` says that the run is still one that `R₂` is able to follow.)
-/

set_option autoImplicit false

namespace Verif
variable {σ τ : Type}

structure Rdr.Morph (R₁ : Rdr σ) (R₂ : Rdr τ) (f : σ → τ) (P : σ → Prop) : Prop where
  read : ∀ s n, P (R₁.read s n).1 → P s ∧ R₂.read (f s) n = (f (R₁.read s n).1, (R₁.read s n).2)
  readAt : ∀ s n off, P (R₁.readAt s n off).1 → P s ∧ R₂.readAt (f s) n off = (f (R₁.readAt s n off).1, (R₁.readAt s n off).2)
  seek : ∀ s off wh, P (R₁.seek s off wh).1 → P s ∧ R₂.seek (f s) off wh = (f (R₁.seek s off wh).1, (R₁.seek s off wh).2)
  stat : ∀ s, P (R₁.stat s).1 → P s ∧ R₂.stat (f s) = (f (R₁.stat s).1, (R₁.stat s).2)
  close : ∀ s, P (R₁.close s).1 → P s ∧ R₂.close (f s) = (f (R₁.close s).1, (R₁.close s).2)
  isReaderAt : R₂.isReaderAt = R₁.isReaderAt
  isSeeker : R₂.isSeeker = R₁.isSeeker
  isFile : R₂.isFile = R₁.isFile
  isCloser : R₂.isCloser = R₁.isCloser

def PosCommon.map (f : σ → τ) (c : PosCommon σ) : PosCommon τ := { hasR := c.hasR, rdr := f c.rdr, length := c.length, refcnt := c.refcnt }
def PosSys.map (f : σ → τ) (s : PosSys σ) : PosSys τ := { common := s.common.map f, heap := s.heap }
def BufCommon.map (f : σ → τ) (c : BufCommon σ) : BufCommon τ :=
  { hasR := c.hasR, rdr := f c.rdr, err := c.err, bodies := c.bodies, bytes := c.bytes, length := c.length, start := c.start, refcnt := c.refcnt }
def BufSys.map (f : σ → τ) (s : BufSys σ) : BufSys τ := { common := s.common.map f, heap := s.heap }
def ReaderFam.map (f : σ → τ) : ReaderFam σ → ReaderFam τ
  | .readerAt s => .readerAt (s.map f)
  | .seeker s => .seeker (s.map f)
  | .buffered s => .buffered (s.map f)

variable {R₁ : Rdr σ} {R₂ : Rdr τ} {f : σ → τ} {P : σ → Prop}

/-! ## ReaderAt- and Seeker-backed families -/

/-- The part of `Rdr.Morph` that the fetching of bytes needs. -/
structure PosKind.Morph (K₁ : PosKind σ) (K₂ : PosKind τ) (f : σ → τ) (P : σ → Prop) : Prop where
  get : ∀ s x off, P (K₁.get s x off).1 → P s ∧ K₂.get (f s) x off = (f (K₁.get s x off).1, (K₁.get s x off).2)
  close : ∀ s, P (K₁.R.close s).1 → P s ∧ K₂.R.close (f s) = (f (K₁.R.close s).1, (K₁.R.close s).2)
  isCloser : K₂.R.isCloser = K₁.R.isCloser
  clamp : K₂.clamp = K₁.clamp

theorem atKind_morph (M : R₁.Morph R₂ f P) : (atKind R₁).Morph (atKind R₂) f P where
  get s x off h := by
    obtain ⟨h1, h2⟩ := M.readAt s x off h
    refine ⟨h1, ?_⟩
    simp only [atKind, h2]
  close := M.close
  isCloser := M.isCloser
  clamp := rfl

theorem seekKind_morph (M : R₁.Morph R₂ f P) : (seekKind R₁).Morph (seekKind R₂) f P where
  get s x off h := by
    have key := M.seek s off 0
    simp only [seekKind] at h ⊢
    rcases hc : R₁.seek s off 0 with ⟨s', ⟨n, _ | e⟩ | p⟩ <;> rw [hc] at h key <;> dsimp only at h key ⊢
    · obtain ⟨h1, h2⟩ := M.read s' x h
      obtain ⟨h3, h4⟩ := key h1
      rw [h4]
      refine ⟨h3, ?_⟩
      dsimp only
      rw [h2]
    · obtain ⟨h3, h4⟩ := key h
      rw [h4]; exact ⟨h3, rfl⟩
    · obtain ⟨h3, h4⟩ := key h
      rw [h4]; exact ⟨h3, rfl⟩
  close := M.close
  isCloser := M.isCloser
  clamp := rfl

namespace Pos
variable {K₁ : PosKind σ} {K₂ : PosKind τ}

theorem unref_morph (M : K₁.Morph K₂ f P) (c : PosCommon σ) (h : P (unref K₁.R c).1.rdr) :
    P c.rdr ∧ unref K₂.R (c.map f) = ((unref K₁.R c).1.map f, (unref K₁.R c).2) := by
  have hR := M.isCloser
  unfold unref at h ⊢
  have e0 : (c.map f).refcnt = c.refcnt := rfl
  have e1 : (c.map f).hasR = c.hasR := rfl
  have e2 : (c.map f).rdr = f c.rdr := rfl
  simp only [e0, e1, e2, hR] at h ⊢
  by_cases h1 : c.refcnt - 1 > 0
  · simp only [if_pos h1] at h ⊢; exact ⟨h, rfl⟩
  · simp only [if_neg h1] at h ⊢
    by_cases h2 : (c.hasR && K₁.R.isCloser) = true
    · simp only [if_pos h2] at h ⊢
      have := M.close c.rdr
      rcases hc : K₁.R.close c.rdr with ⟨s', e | p⟩ <;> rw [hc] at h this <;> dsimp only at h this <;> obtain ⟨h3, h4⟩ := this h <;> rw [h4] <;> exact ⟨h3, rfl⟩
    · simp only [if_neg h2] at h ⊢; exact ⟨h, rfl⟩

theorem fetch_morph (M : K₁.Morph K₂ f P) (c : PosCommon σ) (x : Nat) (off : Int) (h : P (fetch K₁ c x off).1.rdr) :
    P c.rdr ∧ fetch K₂ (c.map f) x off = ((fetch K₁ c x off).1.map f, (fetch K₁ c x off).2) := by
  unfold fetch at h ⊢
  have e1 : (c.map f).hasR = c.hasR := rfl
  have e2 : (c.map f).rdr = f c.rdr := rfl
  cases h1 : c.hasR
  · simp only [e1, h1, Bool.not_false, if_true] at h ⊢; exact ⟨h, by trivial⟩
  · simp only [e1, h1, e2, Bool.not_true, Bool.false_eq_true, if_false] at h ⊢
    obtain ⟨h3, h4⟩ := M.get c.rdr x off h
    rw [h4]
    refine ⟨h3, ?_⟩
    simp only [PosCommon.map, h1]

theorem attempt_morph (M : K₁.Morph K₂ f P) (c : PosCommon σ) (k : Nat) (off : Int) (h : P (attempt K₁ c k off).1.rdr) :
    P c.rdr ∧ attempt K₂ (c.map f) k off = ((attempt K₁ c k off).1.map f, (attempt K₁ c k off).2) := by
  unfold attempt at h ⊢
  have e1 : (c.map f).length = c.length := rfl
  simp only [e1] at h ⊢
  generalize (if off > c.length then c.length else off) = o at h ⊢
  generalize decide ((k : Int) > c.length - o) = eof at h ⊢
  generalize (if eof = true then c.length - o else (k : Int)) = x at h ⊢
  by_cases ha : c.length - o > 0
  · simp only [if_pos ha] at h ⊢
    cases hg : goSlice (List.replicate k (0 : Byte)) 0 x with
    | none => rw [hg] at h; exact ⟨h, rfl⟩
    | some p =>
      rw [hg] at h
      obtain ⟨h3, h4⟩ := fetch_morph M c p.length o h
      dsimp only
      rw [h4]
      exact ⟨h3, rfl⟩
  · simp only [if_neg ha] at h ⊢; exact ⟨h, by trivial⟩

theorem served_morph (s : PosSys σ) (h : Nat) (b : PosBody) (c : PosCommon σ) (o : Int) (d : List Byte) (e : Option Err) :
    served (s.map f) h b (c.map f) o d e = ((served s h b c o d e).1.map f, (served s h b c o d e).2) ∧ (served s h b c o d e).1.common.rdr = c.rdr := by
  cases e with
  | none => exact ⟨rfl, rfl⟩
  | some e =>
    have e1 : (c.map f).length = c.length := rfl
    simp only [served, e1]
    by_cases h1 : o < c.length
    · simp only [if_pos h1]; exact ⟨rfl, by trivial⟩
    · simp only [if_neg h1]; exact ⟨rfl, by trivial⟩

theorem read_morph (M : K₁.Morph K₂ f P) (s : PosSys σ) (h : Nat) (b : PosBody) (k : Nat) (hP : P (read K₁ s h b k).1.common.rdr) :
    P s.common.rdr ∧ read K₂ (s.map f) h b k = ((read K₁ s h b k).1.map f, (read K₁ s h b k).2) := by
  unfold read at hP ⊢
  have e1 : (s.map f).common = s.common.map f := rfl
  have e2 : (s.common.map f).length = s.common.length := rfl
  have key := attempt_morph M s.common k b.offset
  rcases b with ⟨_ | e, o, _ | _⟩ <;> dsimp only at hP key ⊢
  · simp only [Bool.false_eq_true, if_false, e1, e2] at hP ⊢
    rcases hc : attempt K₁ s.common k o with ⟨c', ⟨d, e⟩ | p | _⟩ <;> rw [hc] at hP key <;> dsimp only at hP key ⊢
    · rw [(served_morph (f := id) s h _ c' _ d e).2] at hP
      obtain ⟨h3, h4⟩ := key hP
      rw [h4]
      exact ⟨h3, (served_morph _ _ _ _ _ _ _).1⟩
    · obtain ⟨h3, h4⟩ := key hP
      rw [h4]; exact ⟨h3, rfl⟩
    · obtain ⟨h3, h4⟩ := key hP
      rw [h4]; exact ⟨h3, rfl⟩
  all_goals simp only [Bool.false_eq_true, if_false, if_true] at hP ⊢; exact ⟨hP, by trivial⟩

theorem readAt_morph (M : K₁.Morph K₂ f P) (s : PosSys σ) (b : PosBody) (k : Nat) (off : Int) (hP : P (readAt K₁ s b k off).1.common.rdr) :
    P s.common.rdr ∧ readAt K₂ (s.map f) b k off = ((readAt K₁ s b k off).1.map f, (readAt K₁ s b k off).2) := by
  unfold readAt at hP ⊢
  have e1 : (s.map f).common = s.common.map f := rfl
  have key := attempt_morph M s.common k off
  by_cases h1 : b.closed = true
  · simp only [if_pos h1] at hP ⊢; exact ⟨hP, by trivial⟩
  · simp only [if_neg h1] at hP ⊢
    by_cases h2 : off < 0
    · simp only [if_pos h2] at hP ⊢; exact ⟨hP, by trivial⟩
    · simp only [if_neg h2, e1] at hP ⊢
      rcases hc : attempt K₁ s.common k off with ⟨c', ⟨d, e⟩ | p | _⟩ <;> rw [hc] at hP key <;> dsimp only at hP key ⊢ <;>
        obtain ⟨h3, h4⟩ := key hP <;> rw [h4] <;> exact ⟨h3, rfl⟩

theorem seek_morph (s : PosSys σ) (h : Nat) (b : PosBody) (off wh : Int) :
    seek (s.map f) h b off wh = ((seek s h b off wh).1.map f, (seek s h b off wh).2) ∧ (seek s h b off wh).1.common.rdr = s.common.rdr := by
  unfold seek ReaderAtBody.seek
  have e2 : ReaderAtBody.commonRemaining (s.map f).common = ReaderAtBody.commonRemaining s.common := rfl
  simp only [e2]
  generalize (if wh = 0 then off else if wh = 1 then i64 (off + b.offset) else i64 (off + ReaderAtBody.commonRemaining s.common)) = o
  by_cases h1 : b.closed = true
  · simp only [if_pos h1]; exact ⟨by trivial, by trivial⟩
  by_cases h2 : wh = 0 ∧ off < 0
  · simp only [if_neg h1, if_pos h2]; exact ⟨by trivial, by trivial⟩
  by_cases h3 : wh ≠ 0 ∧ wh ≠ 1 ∧ wh ≠ 2
  · simp only [if_neg h1, if_neg h2, if_pos h3]; exact ⟨by trivial, by trivial⟩
  by_cases h4 : o < 0
  · simp only [if_neg h1, if_neg h2, if_neg h3, if_pos h4]; exact ⟨by trivial, by trivial⟩
  · simp only [if_neg h1, if_neg h2, if_neg h3, if_neg h4]; exact ⟨rfl, by trivial⟩

theorem step_morph (M : K₁.Morph K₂ f P) (s : PosSys σ) (op : Op) (hP : P (step K₁ s op).1.common.rdr) :
    P s.common.rdr ∧ step K₂ (s.map f) op = ((step K₁ s op).1.map f, (step K₁ s op).2) := by
  unfold step at hP ⊢
  have e1 : (s.map f).heap = s.heap := rfl
  have e2 : (s.map f).common = s.common.map f := rfl
  rw [e1]
  cases hb : s.heap[op.h]? with
  | none => rw [hb] at hP; exact ⟨hP, rfl⟩
  | some b =>
    rw [hb] at hP
    cases op with
    | read h k => exact read_morph M s h b k hP
    | readAt h k off => exact readAt_morph M s b k off hP
    | seek h off wh =>
      dsimp only at hP ⊢
      rw [(seek_morph (f := id) s h b off wh).2] at hP
      exact ⟨hP, (seek_morph s h b off wh).1⟩
    | remaining h =>
      refine ⟨hP, ?_⟩
      dsimp only
      unfold remaining
      rw [M.clamp]; rfl
    | writeTo h w => exact ⟨hP, rfl⟩
    | copy h =>
      dsimp only at hP ⊢
      by_cases h1 : b.closed = true
      · simp only [if_pos h1] at hP ⊢; exact ⟨hP, by trivial⟩
      · simp only [if_neg h1] at hP ⊢; exact ⟨hP, rfl⟩
    | close h =>
      dsimp only at hP ⊢
      by_cases h1 : b.closed = true
      · simp only [if_pos h1] at hP ⊢; exact ⟨hP, by trivial⟩
      · simp only [if_neg h1] at hP ⊢
        obtain ⟨h3, h4⟩ := unref_morph M s.common hP
        rw [e2, h4]
        exact ⟨h3, rfl⟩
    | unwrap h => exact ⟨hP, rfl⟩

end Pos

/-! ## Stream-backed families -/

namespace BufSys

theorem readLoop_morph (M : R₁.Morph R₂ f P) (fuel : Nat) (c : BufCommon σ) (n : Int) (h : P (readLoop R₁ fuel c n).1.rdr) :
    P c.rdr ∧ readLoop R₂ fuel (c.map f) n = ((readLoop R₁ fuel c n).1.map f, (readLoop R₁ fuel c n).2) := by
  induction fuel generalizing c n with
  | zero =>
    unfold readLoop at h ⊢
    by_cases h1 : n > 0
    · simp only [h1, not_true_eq_false, if_false] at h ⊢; exact ⟨h, by trivial⟩
    · simp only [h1, not_false_eq_true, if_true] at h ⊢; exact ⟨h, by trivial⟩
  | succ fuel ih =>
    unfold readLoop at h ⊢
    by_cases h1 : n > 0
    · have e1 : (c.map f).hasR = c.hasR := rfl
      have e2 : (c.map f).rdr = f c.rdr := rfl
      simp only [h1, not_true_eq_false, if_false] at h ⊢
      cases h2 : c.hasR
      · simp only [e1, h2, Bool.not_false, if_true] at h ⊢; exact ⟨h, by trivial⟩
      · simp only [e1, h2, e2, Bool.not_true, Bool.false_eq_true, if_false] at h ⊢
        have key := M.read c.rdr n.toNat
        rcases hc : R₁.read c.rdr n.toNat with ⟨s', ⟨d, e⟩ | _ | p⟩ <;> rw [hc] at h key <;> dsimp only at h key ⊢
        · by_cases h3 : (d.length : Int) ≤ n
          · simp only [h3, not_true_eq_false, if_false] at h ⊢
            cases e with
            | some e =>
              obtain ⟨h4, h5⟩ := key h
              refine ⟨h4, ?_⟩
              rw [h5]
              simp only [h3, not_true_eq_false, if_false, BufCommon.map, h2]
            | none =>
              dsimp only at h ⊢
              obtain ⟨h4, h5⟩ := ih _ _ h
              obtain ⟨h6, h7⟩ := key h4
              refine ⟨h6, ?_⟩
              rw [h7, ← h5]
              simp only [h3, not_true_eq_false, if_false, BufCommon.map, h2]
          · simp only [h3, not_false_eq_true, if_true] at h ⊢
            obtain ⟨h4, h5⟩ := key h
            refine ⟨h4, ?_⟩
            rw [h5]
            simp only [h3, not_false_eq_true, if_true, BufCommon.map, h2]
        · obtain ⟨h4, h5⟩ := key h
          refine ⟨h4, ?_⟩
          rw [h5]
          simp only [BufCommon.map, h2]
        · obtain ⟨h4, h5⟩ := key h
          refine ⟨h4, ?_⟩
          rw [h5]
          simp only [BufCommon.map, h2]
    · simp only [h1, not_false_eq_true, if_true] at h ⊢; exact ⟨h, by trivial⟩

theorem fill_morph (M : R₁.Morph R₂ f P) (fuel : Nat) (c : BufCommon σ) (e : Int) (h : P (fill R₁ fuel c e).1.rdr) :
    P c.rdr ∧ fill R₂ fuel (c.map f) e = ((fill R₁ fuel c e).1.map f, (fill R₁ fuel c e).2) := by
  unfold fill at h ⊢
  have e1 : (c.map f).err = c.err := rfl
  have e2 : (c.map f).start = c.start := rfl
  have e3 : (c.map f).bytes = c.bytes := rfl
  have e4 : (c.map f).length = c.length := rfl
  simp only [e1, e2, e3, e4]
  by_cases h1 : c.err = none ∧ e > c.start + c.bytes.length
  · simp only [if_pos h1] at h ⊢
    by_cases h2 : c.length ≥ 0 ∧ ¬ c.start + c.bytes.length ≤ c.length
    · simp only [if_pos h2] at h ⊢; exact ⟨h, by trivial⟩
    · simp only [if_neg h2] at h ⊢
      generalize roundUp (e - (c.start + c.bytes.length)) = m at h ⊢
      generalize decide (c.length ≥ 0 ∧ m ≥ c.length - (c.start + c.bytes.length)) = eof at h ⊢
      generalize (if eof = true then c.length - (c.start + c.bytes.length) else m) = n at h ⊢
      have key := readLoop_morph M fuel c n
      rcases hr : readLoop R₁ fuel c n with ⟨c', _ | o⟩ <;> rw [hr] at h key <;> dsimp only at h key ⊢
      · by_cases h3 : eof = true ∧ c'.err = none
        · simp only [if_pos h3] at h ⊢
          obtain ⟨h4, h5⟩ := key h
          refine ⟨h4, ?_⟩
          rw [h5]
          have h3' : eof = true ∧ (c'.map f).err = none := h3
          simp only [if_pos h3']
          rfl
        · simp only [if_neg h3] at h ⊢
          obtain ⟨h4, h5⟩ := key h
          refine ⟨h4, ?_⟩
          rw [h5]
          have h3' : ¬ (eof = true ∧ (c'.map f).err = none) := h3
          simp only [if_neg h3']
      · obtain ⟨h4, h5⟩ := key h
        refine ⟨h4, ?_⟩
        rw [h5]
  · simp only [if_neg h1] at h ⊢; exact ⟨h, by trivial⟩

theorem updateStart_morph (s : BufSys σ) :
    updateStart (s.map f) = ((updateStart s).1.map f, (updateStart s).2) ∧ (updateStart s).1.common.rdr = s.common.rdr := by
  unfold updateStart
  have e1 : offsets (s.map f) = offsets s := rfl
  have e2 : (s.map f).common.start = s.common.start := rfl
  have e3 : (s.map f).common.bytes = s.common.bytes := rfl
  simp only [e1, e2, e3]
  generalize s.offsets.foldl scan (0, 0) = r
  by_cases h1 : r.1 ≥ s.common.start
  · by_cases h2 : r.2 ≥ 1
    · simp only [h1, h2, not_true_eq_false, if_false]
      cases goSlice s.common.bytes (r.1 - s.common.start) s.common.bytes.length with
      | none => exact ⟨by trivial, by trivial⟩
      | some b => exact ⟨rfl, rfl⟩
    · simp only [h1, h2, not_true_eq_false, not_false_eq_true, if_false, if_true]; exact ⟨by trivial, by trivial⟩
  · simp only [h1, not_false_eq_true, if_true]; exact ⟨by trivial, by trivial⟩

theorem advance_morph (s : BufSys σ) (o n : Int) :
    advance (s.map f) o n = ((advance s o n).1.map f, (advance s o n).2) ∧ (advance s o n).1.common.rdr = s.common.rdr := by
  unfold advance
  have e2 : (s.map f).common.start = s.common.start := rfl
  have e3 : (s.map f).common.bytes = s.common.bytes := rfl
  have e4 : (s.map f).common.refcnt = s.common.refcnt := rfl
  simp only [e2, e3, e4]
  by_cases h1 : o ≥ s.common.start
  · by_cases h2 : n ≥ o
    · by_cases h3 : s.common.start + s.common.bytes.length ≥ n
      · simp only [h1, h2, h3, not_true_eq_false, if_false]
        by_cases h4 : o = s.common.start ∧ n ≠ s.common.start
        · simp only [if_pos h4]
          by_cases h5 : s.common.refcnt - 1 ≤ 0
          · simp only [if_pos h5]
            have := updateStart_morph (f := f) { s with common := { s.common with refcnt := s.common.refcnt - 1 } }
            exact this
          · simp only [if_neg h5]; exact ⟨rfl, by trivial⟩
        · simp only [if_neg h4]; exact ⟨by trivial, by trivial⟩
      · simp only [h1, h2, h3, not_true_eq_false, not_false_eq_true, if_false, if_true]; exact ⟨by trivial, by trivial⟩
    · simp only [h1, h2, not_true_eq_false, not_false_eq_true, if_false, if_true]; exact ⟨by trivial, by trivial⟩
  · simp only [h1, not_false_eq_true, if_true]; exact ⟨by trivial, by trivial⟩

theorem finishRead_morph (s : BufSys σ) (h : Nat) (b : BufBody) (k : Nat) :
    finishRead (s.map f) h b k = ((finishRead s h b k).1.map f, (finishRead s h b k).2) ∧ (finishRead s h b k).1.common.rdr = s.common.rdr := by
  unfold finishRead
  have e1 : (s.map f).common.err = s.common.err := rfl
  have e2 : (s.map f).common.start = s.common.start := rfl
  have e3 : (s.map f).common.bytes = s.common.bytes := rfl
  have e4 : (s.map f).heap = s.heap := rfl
  simp only [e1, e2, e3, e4]
  generalize decide (b.offset + (k : Int) > s.common.start + s.common.bytes.length) = short
  generalize (if short = true then s.common.start + (s.common.bytes.length : Int) else b.offset + k) = e
  generalize (if short = true then s.common.err else none) = er
  generalize (if short = true then { b with eof := true } else b) = b'
  cases goSlice (List.replicate k (0 : Byte)) 0 (e - s.common.start - (b.offset - s.common.start)) with
  | none => exact ⟨rfl, rfl⟩
  | some _ =>
    cases goSlice s.common.bytes (b.offset - s.common.start) (e - s.common.start) with
    | none => exact ⟨rfl, rfl⟩
    | some d =>
      dsimp only
      have key := advance_morph (f := f) { s with heap := (s.heap.set h b').set h { b' with offset := e } } b.offset e
      have e5 : ({ common := (s.map f).common, heap := (s.heap.set h b').set h { b' with offset := e } } : BufSys τ) =
        BufSys.map f { s with heap := (s.heap.set h b').set h { b' with offset := e } } := rfl
      rw [e5, key.1]
      have e6 : s.common.rdr = ({ s with heap := (s.heap.set h b').set h { b' with offset := e } } : BufSys σ).common.rdr := rfl
      rw [e6, ← key.2]
      rcases ha : advance { s with heap := (s.heap.set h b').set h { b' with offset := e } } b.offset e with ⟨s', _ | p⟩ <;> exact ⟨rfl, rfl⟩

theorem read_morph (M : R₁.Morph R₂ f P) (fuel : Nat) (s : BufSys σ) (h : Nat) (b : BufBody) (k : Nat) (hP : P (read R₁ fuel s h b k).1.common.rdr) :
    P s.common.rdr ∧ read R₂ fuel (s.map f) h b k = ((read R₁ fuel s h b k).1.map f, (read R₁ fuel s h b k).2) := by
  unfold read at hP ⊢
  have e1 : (s.map f).common = s.common.map f := rfl
  have e2 : (s.common.map f).start = s.common.start := rfl
  have e3 : (s.common.map f).err = s.common.err := rfl
  simp only [e1, e2, e3]
  by_cases h1 : b.closed = true
  · simp only [if_pos h1] at hP ⊢; exact ⟨hP, by trivial⟩
  simp only [if_neg h1] at hP ⊢
  by_cases h2 : b.eof = true
  · simp only [if_pos h2] at hP ⊢; exact ⟨hP, by trivial⟩
  simp only [if_neg h2] at hP ⊢
  by_cases h3 : b.offset ≥ s.common.start
  · simp only [h3, not_true_eq_false, if_false] at hP ⊢
    have key := fill_morph M fuel s.common (b.offset + k)
    rcases hf : fill R₁ fuel s.common (b.offset + k) with ⟨c', _ | o⟩ <;> rw [hf] at hP key <;> dsimp only at hP key ⊢
    · have k2 := finishRead_morph (f := f) { s with common := c' } h b k
      rw [k2.2] at hP
      obtain ⟨h4, h5⟩ := key hP
      rw [h5]
      exact ⟨h4, k2.1⟩
    · obtain ⟨h4, h5⟩ := key hP
      rw [h5]
      exact ⟨h4, rfl⟩
  · simp only [h3, not_false_eq_true, if_true] at hP ⊢; exact ⟨hP, by trivial⟩

theorem unref_morph (M : R₁.Morph R₂ f P) (s : BufSys σ) (h : Nat) (b : BufBody) (hP : P (unref R₁ s h b).1.common.rdr) :
    P s.common.rdr ∧ unref R₂ (s.map f) h b = ((unref R₁ s h b).1.map f, (unref R₁ s h b).2) := by
  unfold unref at hP ⊢
  have e1 : (s.map f).common.bodies = s.common.bodies := rfl
  have e2 : (s.map f).common.start = s.common.start := rfl
  have e3 : (s.map f).common.refcnt = s.common.refcnt := rfl
  have e4 : (s.map f).common.hasR = s.common.hasR := rfl
  have e5 : (s.map f).common.rdr = f s.common.rdr := rfl
  have hR := M.isCloser
  simp only [e1, e2, e3, e4, e5, hR]
  by_cases h1 : (s.common.bodies.filter (· ≠ h)).length > 0
  · simp only [if_pos h1] at hP ⊢
    by_cases h2 : b.offset = s.common.start
    · simp only [if_pos h2] at hP ⊢
      by_cases h3 : s.common.refcnt - 1 ≤ 0
      · simp only [if_pos h3] at hP ⊢
        have key := updateStart_morph (f := f)
          { s with common := { s.common with bodies := s.common.bodies.filter (· ≠ h), refcnt := s.common.refcnt - 1 } }
        rw [key.2] at hP
        refine ⟨hP, ?_⟩
        have k1 := key.1
        simp only [BufSys.map, BufCommon.map] at k1 ⊢
        rw [k1]
      · simp only [if_neg h3] at hP ⊢; exact ⟨hP, rfl⟩
    · simp only [if_neg h2] at hP ⊢; exact ⟨hP, rfl⟩
  · simp only [if_neg h1] at hP ⊢
    by_cases h2 : (s.common.hasR && R₁.isCloser) = true
    · simp only [if_pos h2] at hP ⊢
      have key := M.close s.common.rdr
      rcases hc : R₁.close s.common.rdr with ⟨s', e | p⟩ <;> rw [hc] at hP key <;> dsimp only at hP key ⊢ <;> obtain ⟨h3, h4⟩ := key hP <;>
        rw [h4] <;> exact ⟨h3, rfl⟩
    · simp only [if_neg h2] at hP ⊢; exact ⟨hP, rfl⟩

theorem step_morph (M : R₁.Morph R₂ f P) (fuel : Nat) (s : BufSys σ) (op : Op) (hP : P (step R₁ fuel s op).1.common.rdr) :
    P s.common.rdr ∧ step R₂ fuel (s.map f) op = ((step R₁ fuel s op).1.map f, (step R₁ fuel s op).2) := by
  unfold step at hP ⊢
  have e1 : (s.map f).heap = s.heap := rfl
  rw [e1]
  cases hb : s.heap[op.h]? with
  | none => rw [hb] at hP; exact ⟨hP, rfl⟩
  | some b =>
    rw [hb] at hP
    cases op with
    | read h k => exact read_morph M fuel s h b k hP
    | readAt h k off => exact ⟨hP, rfl⟩
    | seek h off wh => exact ⟨hP, rfl⟩
    | remaining h => exact ⟨hP, rfl⟩
    | writeTo h w => exact ⟨hP, rfl⟩
    | copy h =>
      dsimp only at hP ⊢
      unfold copy at hP ⊢
      have e2 : (s.map f).common.hasR = s.common.hasR := rfl
      by_cases h1 : b.closed = true
      · simp only [if_pos h1] at hP ⊢; exact ⟨hP, by trivial⟩
      · simp only [if_neg h1, e2] at hP ⊢
        cases h2 : s.common.hasR
        · simp only [h2, Bool.not_false, if_true] at hP ⊢; exact ⟨hP, by trivial⟩
        · simp only [h2, Bool.not_true, Bool.false_eq_true, if_false] at hP ⊢
          unfold ref at hP ⊢
          have e3 : (s.map f).common.start = s.common.start := rfl
          simp only [e3, e1] at hP ⊢
          by_cases h3 : b.offset = s.common.start
          · simp only [if_pos h3] at hP ⊢; exact ⟨hP, rfl⟩
          · simp only [if_neg h3] at hP ⊢; exact ⟨hP, rfl⟩
    | close h =>
      dsimp only at hP ⊢
      unfold close at hP ⊢
      by_cases h1 : b.closed = true
      · simp only [if_pos h1] at hP ⊢; exact ⟨hP, by trivial⟩
      · simp only [if_neg h1] at hP ⊢
        have key := unref_morph M s h b
        rcases hu : unref R₁ s h b with ⟨s', e, _ | p⟩ <;> rw [hu] at hP key <;> dsimp only at hP key ⊢ <;> obtain ⟨h3, h4⟩ := key hP <;>
          rw [h4] <;> exact ⟨h3, rfl⟩
    | unwrap h => exact ⟨hP, rfl⟩

end BufSys

/-! ## Construction and histories -/

theorem fam_step_morph (M : R₁.Morph R₂ f P) (fuel : Nat) (s : ReaderFam σ) (op : Op) (hP : P (s.step R₁ fuel op).1.rdr) :
    P s.rdr ∧ (s.map f).step R₂ fuel op = ((s.step R₁ fuel op).1.map f, (s.step R₁ fuel op).2) := by
  cases s with
  | readerAt s =>
    simp only [ReaderFam.step, ReaderFam.map, ReaderFam.rdr, at_step] at hP ⊢
    obtain ⟨h1, h2⟩ := Pos.step_morph (atKind_morph M) s op hP
    rw [h2]; exact ⟨h1, by trivial⟩
  | seeker s =>
    simp only [ReaderFam.step, ReaderFam.map, ReaderFam.rdr, seek_step] at hP ⊢
    obtain ⟨h1, h2⟩ := Pos.step_morph (seekKind_morph M) s op hP
    rw [h2]; exact ⟨h1, by trivial⟩
  | buffered s =>
    simp only [ReaderFam.step, ReaderFam.map, ReaderFam.rdr] at hP ⊢
    obtain ⟨h1, h2⟩ := BufSys.step_morph M fuel s op hP
    rw [h2]; exact ⟨h1, by trivial⟩

theorem fam_run_morph (M : R₁.Morph R₂ f P) (fuel : Nat) (ops : List Op) (s : ReaderFam σ) (hP : P (run (ReaderFam.step R₁ fuel) s ops).1.rdr) :
    P s.rdr ∧ run (ReaderFam.step R₂ fuel) (s.map f) ops =
      ((run (ReaderFam.step R₁ fuel) s ops).1.map f, (run (ReaderFam.step R₁ fuel) s ops).2) := by
  induction ops generalizing s with
  | nil => exact ⟨hP, rfl⟩
  | cons op ops ih =>
    simp only [run] at hP ⊢
    obtain ⟨h1, h2⟩ := ih _ hP
    obtain ⟨h3, h4⟩ := fam_step_morph M fuel s op h1
    refine ⟨h3, ?_⟩
    rw [h4]
    dsimp only
    rw [h2]

/-- The second half of `measure`: asking a Seeker, when the length is still unknown. -/
def measureSeek (R : Rdr σ) (st : σ) (n : Int) : σ × Res (Except Err Int) :=
  if R.isSeeker && decide (n < 0) then
    match (R.seek st 0 2).2 with
    | .panics p => ((R.seek st 0 2).1, .panic p)
    | .ok (_, some e) => ((R.seek st 0 2).1, .ret (.error (.viaSeek e)))
    | .ok (m, none) =>
      if ¬ m ≥ 0 then ((R.seek st 0 2).1, .panic .badReader)
      else match (R.seek (R.seek st 0 2).1 0 0).2 with
        | .panics p => ((R.seek (R.seek st 0 2).1 0 0).1, .panic p)
        | .ok (_, some e) => ((R.seek (R.seek st 0 2).1 0 0).1, .ret (.error (.viaRewind e)))
        | .ok (_, none) => ((R.seek (R.seek st 0 2).1 0 0).1, .ret (.ok m))
  else (st, .ret (.ok n))

/-- The first half: asking a File. -/
def measureStat (R : Rdr σ) (st : σ) (n : Int) : σ × Res (Except Err Int) :=
  if R.isFile && decide (n < 0) then
    match (R.stat st).2 with
    | .panics p => ((R.stat st).1, .panic p)
    | .ok (_, some e) => ((R.stat st).1, .ret (.error (.viaStat e)))
    | .ok (n, none) => if ¬ n ≥ 0 then ((R.stat st).1, .panic .badReader) else ((R.stat st).1, .ret (.ok n))
  else (st, .ret (.ok n))

theorem measure_halves (R : Rdr σ) (st : σ) (n : Int) :
    measure R st n =
      match (measureStat R st (if n < 0 then -1 else n)).2 with
      | .ret (.ok m) => measureSeek R (measureStat R st (if n < 0 then -1 else n)).1 m
      | _ => measureStat R st (if n < 0 then -1 else n) := by
  unfold measure
  generalize (if n < 0 then (-1 : Int) else n) = n
  unfold measureStat
  by_cases h1 : (R.isFile && decide (n < 0)) = true
  · simp only [if_pos h1]
    rcases hs : R.stat st with ⟨s, ⟨m, _ | e⟩ | p⟩ <;> dsimp only
    by_cases h2 : m ≥ 0
    · simp only [h2, not_true_eq_false, if_false]
      unfold measureSeek
      by_cases h : (R.isSeeker && decide (m < 0)) = true
      · simp only [if_pos h]; rfl
      · simp only [if_neg h]
    · simp only [h2, not_false_eq_true, if_true]
  · simp only [if_neg h1]
    unfold measureSeek
    by_cases h : (R.isSeeker && decide (n < 0)) = true
    · simp only [if_pos h]; rfl
    · simp only [if_neg h]

theorem measureSeek_morph (M : R₁.Morph R₂ f P) (st : σ) (n : Int) (hP : P (measureSeek R₁ st n).1) :
    P st ∧ measureSeek R₂ (f st) n = (f (measureSeek R₁ st n).1, (measureSeek R₁ st n).2) := by
  unfold measureSeek at hP ⊢
  simp only [M.isSeeker] at hP ⊢
  by_cases h1 : (R₁.isSeeker && decide (n < 0)) = true
  · simp only [if_pos h1] at hP ⊢
    have key := M.seek st 0 2
    rcases hc : R₁.seek st 0 2 with ⟨s', ⟨m, _ | e⟩ | p⟩ <;> rw [hc] at hP key <;> dsimp only at hP key ⊢
    · by_cases h2 : m ≥ 0
      · simp only [h2, not_true_eq_false, if_false] at hP ⊢
        have key2 := M.seek s' 0 0
        rcases hd : R₁.seek s' 0 0 with ⟨s'', ⟨m', _ | e⟩ | p⟩ <;> rw [hd] at hP key2 <;> dsimp only at hP key2 ⊢ <;>
          obtain ⟨h3, h4⟩ := key2 hP <;> obtain ⟨h5, h6⟩ := key h3 <;> rw [h6] <;> dsimp only <;> rw [h4] <;>
          simp only [h2, not_true_eq_false, if_false] <;> exact ⟨h5, by trivial⟩
      · simp only [h2, not_false_eq_true, if_true] at hP ⊢
        obtain ⟨h5, h6⟩ := key hP
        rw [h6]; simp only [h2, not_false_eq_true, if_true]; exact ⟨h5, by trivial⟩
    · obtain ⟨h5, h6⟩ := key hP
      rw [h6]; exact ⟨h5, by trivial⟩
    · obtain ⟨h5, h6⟩ := key hP
      rw [h6]; exact ⟨h5, by trivial⟩
  · simp only [if_neg h1] at hP ⊢; exact ⟨hP, by trivial⟩

theorem measureStat_morph (M : R₁.Morph R₂ f P) (st : σ) (n : Int) (hP : P (measureStat R₁ st n).1) :
    P st ∧ measureStat R₂ (f st) n = (f (measureStat R₁ st n).1, (measureStat R₁ st n).2) := by
  unfold measureStat at hP ⊢
  simp only [M.isFile] at hP ⊢
  by_cases h1 : (R₁.isFile && decide (n < 0)) = true
  · simp only [if_pos h1] at hP ⊢
    have key := M.stat st
    rcases hc : R₁.stat st with ⟨s', ⟨m, _ | e⟩ | p⟩ <;> rw [hc] at hP key <;> dsimp only at hP key ⊢
    · by_cases h2 : m ≥ 0
      · simp only [h2, not_true_eq_false, if_false] at hP ⊢
        obtain ⟨h5, h6⟩ := key hP
        rw [h6]; simp only [h2, not_true_eq_false, if_false]; exact ⟨h5, by trivial⟩
      · simp only [h2, not_false_eq_true, if_true] at hP ⊢
        obtain ⟨h5, h6⟩ := key hP
        rw [h6]; simp only [h2, not_false_eq_true, if_true]; exact ⟨h5, by trivial⟩
    · obtain ⟨h5, h6⟩ := key hP
      rw [h6]; exact ⟨h5, by trivial⟩
    · obtain ⟨h5, h6⟩ := key hP
      rw [h6]; exact ⟨h5, by trivial⟩
  · simp only [if_neg h1] at hP ⊢; exact ⟨hP, by trivial⟩

theorem measure_morph (M : R₁.Morph R₂ f P) (st : σ) (n : Int) (hP : P (measure R₁ st n).1) :
    P st ∧ measure R₂ (f st) n = (f (measure R₁ st n).1, (measure R₁ st n).2) := by
  rw [measure_halves R₁] at hP ⊢
  rw [measure_halves R₂]
  generalize (if n < 0 then (-1 : Int) else n) = n at hP ⊢
  have key := measureStat_morph M st n
  rcases hm : measureStat R₁ st n with ⟨s', ⟨e | m⟩ | p | _⟩ <;> rw [hm] at hP key <;> dsimp only at hP key ⊢
  · obtain ⟨h3, h4⟩ := key hP
    rw [h4]; exact ⟨h3, by trivial⟩
  · obtain ⟨h1, h2⟩ := measureSeek_morph M s' m hP
    obtain ⟨h3, h4⟩ := key h1
    rw [h4]; exact ⟨h3, h2⟩
  · obtain ⟨h3, h4⟩ := key hP
    rw [h4]; exact ⟨h3, by trivial⟩
  · obtain ⟨h3, h4⟩ := key hP
    rw [h4]; exact ⟨h3, by trivial⟩

theorem fromReaderAndLength_morph (M : R₁.Morph R₂ f P) (st : σ) (n : Int) (hP : P (fromReaderAndLength R₁ st n).1) :
    P st ∧ fromReaderAndLength R₂ (f st) n =
      (f (fromReaderAndLength R₁ st n).1,
        match (fromReaderAndLength R₁ st n).2 with
        | .panic p => .panic p
        | .hang => .hang
        | .ret (.error e) => .ret (.error e)
        | .ret (.ok s) => .ret (.ok (s.map f))) := by
  unfold fromReaderAndLength at hP ⊢
  simp only [M.isReaderAt, M.isSeeker] at hP ⊢
  have key := measure_morph M st n
  rcases hm : measure R₁ st n with ⟨s', ⟨e | m⟩ | p | _⟩ <;> rw [hm] at hP key <;> dsimp only at hP key ⊢
  · obtain ⟨h3, h4⟩ := key hP
    rw [h4]; exact ⟨h3, by trivial⟩
  · by_cases h1 : (R₁.isReaderAt && decide (m ≥ 0)) = true
    · simp only [if_pos h1] at hP ⊢
      obtain ⟨h3, h4⟩ := key hP
      rw [h4]; simp only [if_pos h1]; exact ⟨h3, rfl⟩
    · simp only [if_neg h1] at hP ⊢
      by_cases h2 : (R₁.isSeeker && decide (m ≥ 0)) = true
      · simp only [if_pos h2] at hP ⊢
        obtain ⟨h3, h4⟩ := key hP
        rw [h4]; simp only [if_neg h1, if_pos h2]; exact ⟨h3, rfl⟩
      · simp only [if_neg h2] at hP ⊢
        obtain ⟨h3, h4⟩ := key hP
        rw [h4]; simp only [if_neg h1, if_neg h2]; exact ⟨h3, rfl⟩
  · obtain ⟨h3, h4⟩ := key hP
    rw [h4]; exact ⟨h3, by trivial⟩
  · obtain ⟨h3, h4⟩ := key hP
    rw [h4]; exact ⟨h3, by trivial⟩

end Verif
