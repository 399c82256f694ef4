import Verif.Proofs.PosFacts

/-! # Positional families: `Seek` over arbitrary readers -/

set_option linter.unusedSimpArgs false

set_option autoImplicit false

namespace Verif
open Spec

variable {σ : Type}

/-- Nothing exceeds the declared length. -/
structure PosBound (n : Int) (s : PosSys σ) : Prop where
  len : s.common.length ≤ n
  off : ∀ b ∈ s.heap, b.offset ≤ n

/-- Fetching never yields more than asked for. -/
def GetShort (K : PosKind σ) : Prop := ∀ st x off d e, (K.get st x off).2 = .ret (d, e) → d.length ≤ x

theorem checked_short {x : Nat} {r : RResp} {d : List Byte} {e : Option Err} (h : checked x r = .ret (d, e)) :
    d.length ≤ x := by
  cases r with
  | panics q => simp [checked] at h
  | negative => simp [checked] at h
  | got d' e' =>
    simp only [checked] at h
    by_cases hl : d'.length ≤ x
    · rw [if_pos hl] at h
      injection h with h
      injection h with h1 h2
      rw [← h1]; exact hl
    · rw [if_neg hl] at h; cases h

theorem getShort_at (R : Rdr σ) : GetShort (atKind R) := fun _ _ _ _ _ h => checked_short h

theorem getShort_seek (R : Rdr σ) : GetShort (seekKind R) := by
  intro st x off d e h
  simp only [seekKind] at h
  rcases hs : (R.seek st off 0).2 with ⟨n, e'⟩ | p
  rotate_left
  · rw [hs] at h; cases h
  cases e' with
  | some e' =>
    rw [hs] at h
    simp only [Res.ret.injEq, Prod.mk.injEq] at h
    rw [← h.1]; simp
  | none => rw [hs] at h; exact checked_short h

theorem attempt_short {K : PosKind σ} (hK : GetShort K) {c : PosCommon σ} {k : Nat} {off : Int} (hR : c.hasR = true)
    {c' : PosCommon σ} {d : List Byte} {e : Option Err} (h : Pos.attempt K c k off = (c', .ret (d, e))) :
    (if off > c.length then c.length else off) + d.length ≤ c.length := by
  by_cases hl : c.length ≤ off
  · rw [attempt_end hl] at h
    simp only [Prod.mk.injEq, Res.ret.injEq] at h
    rw [← h.2.1]
    simp only [List.length_nil]
    split <;> omega
  · rw [attempt_mid hR (by omega)] at h
    simp only [Prod.mk.injEq] at h
    have h2 := h.2
    cases hg : (K.get c.rdr (min k (c.length - off).toNat) off).2 with
    | panic q => rw [hg] at h2; simp [finish] at h2
    | hang => rw [hg] at h2; simp [finish] at h2
    | ret de =>
      obtain ⟨d', e'⟩ := de
      rw [hg] at h2
      simp only [finish, Res.ret.injEq, Prod.mk.injEq] at h2
      have := hK _ _ _ _ _ hg
      rw [← h2.1]
      split <;> omega

theorem posBound_step {K : PosKind σ} (hK : GetShort K) {n : Int} {s : PosSys σ} (hi : PosInv s) (hs : PosBound n s)
    (hn : 0 ≤ n) (op : Op) : PosBound n (Pos.step K s op).1 := by
  have setb : ∀ (c : PosCommon σ) (h : Nat) (b' : PosBody), c.length ≤ n → b'.offset ≤ n →
      PosBound n { common := c, heap := s.heap.set h b' } := by
    intro c h b' h1 h2
    refine ⟨h1, fun b hb => ?_⟩
    rcases List.mem_or_eq_of_mem_set hb with h | h
    · exact hs.off b h
    · rw [h]; exact h2
  unfold Pos.step
  cases hb : s.heap[op.h]? with
  | none => exact hs
  | some b =>
    have hbn := hs.off b (List.mem_of_getElem? hb)
    cases op with
    | read h k =>
      simp only [Op.h] at hb ⊢
      unfold Pos.read
      by_cases hc : b.closed = true
      · simp only [hc, if_true]; exact hs
      · have hc : b.closed = false := by simpa using hc
        have hR := hi.live (posOpen_pos hb hc)
        cases he : b.err with
        | some e => simp only [hc, Bool.false_eq_true, if_false]; exact hs
        | none =>
          simp only [hc, Bool.false_eq_true, if_false]
          generalize hr : Pos.attempt K s.common k b.offset = r
          obtain ⟨c', r⟩ := r
          obtain ⟨h1, -, -⟩ := attempt_common K _ _ _ hr
          have hplain : PosBound n { s with common := c' } := ⟨by simp only; rw [h1]; exact hs.len, hs.off⟩
          cases r with
          | panic p => exact hplain
          | hang => exact hplain
          | ret de =>
            obtain ⟨d, e⟩ := de
            have hd := attempt_short hK hR hr
            have hl := hs.len
            simp only
            generalize ho : ((if b.offset > s.common.length then s.common.length else b.offset) + (d.length : Int)) = o at *
            cases e with
            | none => exact setb _ _ _ (by rw [h1]; exact hl) (by simp only; omega)
            | some e =>
              refine setb _ _ _ ?_ (by simp only; omega)
              split
              · simp only; omega
              · rw [h1]; exact hl
    | readAt h k off =>
      simp only [Pos.readAt]
      by_cases hc : b.closed = true
      · simp only [hc, if_true]; exact hs
      · simp only [hc, if_false]
        by_cases h0 : off < 0
        · simp only [h0, if_true]; exact hs
        · simp only [h0, if_false]
          generalize hr : Pos.attempt K s.common k off = r
          obtain ⟨c', r⟩ := r
          obtain ⟨h1, -, -⟩ := attempt_common K _ _ _ hr
          have hplain : PosBound n { s with common := c' } := ⟨by simp only; rw [h1]; exact hs.len, hs.off⟩
          cases r <;> exact hplain
    | seek h off wh =>
      simp only
      rcases pos_seek_cases s h b off wh hi.len with ⟨e, he⟩ | ⟨_, o, _, h2, he⟩
      · rw [he]; exact hs
      · rw [he]; exact setb _ _ _ hs.len (by have := hs.len; simp only; omega)
    | remaining h => exact hs
    | copy h =>
      simp only
      split
      · exact hs
      · refine ⟨hs.len, fun b' hb' => ?_⟩
        rcases List.mem_append.1 hb' with h | h
        · exact hs.off b' h
        · rw [List.mem_singleton.1 h]; exact hbn
    | close h =>
      simp only
      split
      · exact hs
      · refine setb _ _ _ ?_ hn
        unfold Pos.unref
        split
        · exact hs.len
        · split
          · cases (K.R.close s.common.rdr).2 with
            | ok e => exact hn
            | panics p => exact hs.len
          · exact hn
    | unwrap h => exact hs
    | writeTo h w => exact hs

theorem posBound_run {K : PosKind σ} (hK : GetShort K) {n : Int} (hn : 0 ≤ n) (ops : List Op) {s : PosSys σ}
    (hi : PosInv s) (hs : PosBound n s) : PosBound n (run (Pos.step K) s ops).1 := by
  induction ops generalizing s with
  | nil => exact hs
  | cons op ops ih => rw [run_cons]; exact ih (posInv_step K s op hi) (posBound_step hK hi hs hn op)

/-- `Seek` on an open body, exactly. -/
theorem pos_seek_exact (s : PosSys σ) (h : Nat) (b : PosBody) (hc : b.closed = false) (l q : Nat)
    (hl : s.common.length = l) (hq : b.offset = q) (hl63 : l < 2 ^ 63) (hq63 : q < 2 ^ 63) (off wh : Int) (hv : IsI64 off) :
    Pos.seek s h b off wh = match seekAnswer l q off wh with
      | .ok p => ({ s with heap := s.heap.set h { b with err := none, offset := p } }, .seek p none)
      | .error e => (s, .seek (-1) (some e)) := by
  obtain ⟨berr, boff, bcl⟩ := b
  simp only at hc hq
  subst hc
  have hw : ∀ t : Int, -(2 ^ 63) ≤ t → t < 2 ^ 64 →
      ((if i64 t < 0 then (s, Out.seek (-1) (some (.negComputed (i64 t))))
        else ({ s with heap := s.heap.set h { err := none, offset := (if i64 t > (l : Int) then (l : Int) else i64 t) } },
          Out.seek (if i64 t > (l : Int) then (l : Int) else i64 t) none) : PosSys σ × Out)) =
      (match (if t < 0 then .error (.negComputed t) else if t < 2 ^ 63 then .ok (min t.toNat l)
          else .error (.negComputed (t - 2 ^ 64)) : Except Err Nat) with
        | .ok p => ({ s with heap := s.heap.set h { err := none, offset := p } }, .seek p none)
        | .error e => (s, .seek (-1) (some e))) := by
    intro t h1 h2
    by_cases hbig : 2 ^ 63 ≤ t
    · rw [i64_over hbig h2, if_pos (by omega), if_neg (by omega), if_neg (by omega)]
    · rw [i64_of_isI64 ⟨by omega, by omega⟩]
      by_cases hneg : t < 0
      · rw [if_pos hneg, if_pos hneg]
      · rw [if_neg hneg, if_neg hneg, if_pos (show t < 2 ^ 63 by omega)]
        have e1 : (if t > (l : Int) then (l : Int) else t) = ((min t.toNat l : Nat) : Int) := by
          split <;> omega
        rw [e1]
  unfold IsI64 at hv
  unfold Pos.seek ReaderAtBody.seek seekAnswer
  simp only [ReaderAtBody.commonRemaining, Bool.false_eq_true, if_false, hl, hq]
  by_cases w0 : wh = 0
  · subst w0
    by_cases hneg : off < 0
    · simp [hneg]
    · simp only [hneg, and_false, if_false, true_and, ne_eq, not_true, false_and, if_true]
      have e1 : (if off > (l : Int) then (l : Int) else off) = ((min off.toNat l : Nat) : Int) := by
        split <;> omega
      rw [e1]
  · rw [if_neg (by simp [w0]), if_neg w0]
    by_cases w1 : wh = 1
    · subst w1
      rw [if_neg (show ¬ ((1 : Int) ≠ 0 ∧ (1 : Int) ≠ 1 ∧ (1 : Int) ≠ 2) by simp), if_pos (show (1 : Int) = 1 ∨ (1 : Int) = 2 from .inl rfl)]
      simp only [w0, if_false, if_true]
      exact hw (off + q) (by omega) (by omega)
    · by_cases w2 : wh = 2
      · subst w2
        rw [if_neg (show ¬ ((2 : Int) ≠ 0 ∧ (2 : Int) ≠ 1 ∧ (2 : Int) ≠ 2) by simp), if_pos (show (2 : Int) = 1 ∨ (2 : Int) = 2 from .inr rfl)]
        simp only [w0, w1, if_false, if_true]
        exact hw (off + l) (by omega) (by omega)
      · rw [if_pos ⟨w0, w1, w2⟩, if_neg (show ¬ (wh = 1 ∨ wh = 2) from fun h => h.elim w1 w2)]; simp only [w0, if_false]

end Verif
