import Verif.Model.Bytes
import Verif.Proofs.Sim

/-! # Bytes and empty bodies refine independent cursors -/

set_option linter.unusedSimpArgs false

set_option autoImplicit false

namespace Verif

theorem goSlice_eq {α} (l : List α) (i j : Int) (h : 0 ≤ i ∧ i ≤ j ∧ j ≤ l.length) :
    goSlice l i j = some ((l.drop i.toNat).take (j - i).toNat) := by
  simp [goSlice, h]

/-- The relation between a bytes body and its cursor. -/
def BytesRel (data : List Byte) (b : BytesBody) (c : Spec.Cursor) : Prop :=
  c.isOpen = !b.closed ∧
  (b.closed = false → b.data = data ∧ c.content = data ∧ b.offset = c.pos ∧
    c.pos ≤ data.length ∧ b.eof = c.done)

theorem bytes_read_sim {data b c} (h : BytesRel data b c) (k : Nat) :
    (b.read k).2 = (c.read (memCfg data) {} k).2 ∧
      BytesRel data (b.read k).1 (c.read (memCfg data) {} k).1 := by
  obtain ⟨ho, hr⟩ := h
  cases hc : b.closed with
  | true => simp [BytesBody.read, Spec.Cursor.read, ho, hc, BytesRel]
  | false =>
    obtain ⟨rfl, h2, h3, h4, h5⟩ := hr hc
    cases he : b.eof with
    | true =>
      simp [BytesBody.read, Spec.Cursor.read, ho, hc, he, ← h5, BytesRel, memCfg, h2, h3, h4]
    | false =>
      by_cases hk : (k : Int) > b.data.length - b.offset
      · have hk' : b.data.length < c.pos + k := by omega
        simp only [BytesBody.read, Spec.Cursor.read, hc, he, ho, ← h5, hk, h2]
        simp only [Bool.false_eq_true, if_false, Bool.not_false, Bool.not_true, decide_true, if_true]
        rw [goSlice_eq _ _ _ (by simp; omega), goSlice_eq _ _ _ (by omega)]
        simp only [hk', decide_true, Bool.true_or, if_true, memCfg]
        have e1 : (b.offset + (↑b.data.length - b.offset) - b.offset).toNat = b.data.length - c.pos := by
          omega
        have e2 : b.offset.toNat = c.pos := by omega
        rw [e1, e2]
        have e3 : (List.drop c.pos b.data).take (b.data.length - c.pos) = (List.drop c.pos b.data).take k := by
          rw [List.take_of_length_le (by simp), List.take_of_length_le (by simp; omega)]
        refine ⟨by rw [e3], ?_⟩
        refine ⟨by simp [ho, hc], fun _ => ⟨by simp, by simp [h2], by simp; omega, by simp; omega, by simp⟩⟩
      · have hk' : ¬ b.data.length < c.pos + k := by omega
        simp only [BytesBody.read, Spec.Cursor.read, hc, he, ho, ← h5, hk, h2]
        simp only [Bool.false_eq_true, if_false, Bool.not_false, Bool.not_true, decide_false]
        rw [goSlice_eq _ _ _ (by simp), goSlice_eq _ _ _ (by omega)]
        simp only [hk', decide_false, Bool.false_or, Bool.false_and, Bool.false_eq_true, if_false]
        have e1 : (b.offset + ↑k - b.offset).toNat = k := by omega
        have e2 : b.offset.toNat = c.pos := by omega
        rw [e1, e2]
        refine ⟨rfl, ?_⟩
        refine ⟨by simp [ho, hc], fun _ => ⟨by simp, by simp [h2], by simp; omega, by simp; omega, by simp⟩⟩

theorem bytes_readAt_sim {data b c} (h : BytesRel data b c) (k : Nat) (off : Int) :
    b.readAt k off = c.readAt (memCfg data) {} k off := by
  obtain ⟨ho, hr⟩ := h
  cases hc : b.closed with
  | true => simp [BytesBody.readAt, Spec.Cursor.readAt, ho, hc]
  | false =>
    obtain ⟨rfl, h2, h3, h4, h5⟩ := hr hc
    simp only [BytesBody.readAt, Spec.Cursor.readAt, hc, ho, h2, Bool.false_eq_true, if_false,
      Bool.not_false, Bool.not_true]
    by_cases hoff : off < 0
    · simp [hoff]
    · simp only [hoff, if_false]
      have eo : (if off > (b.data.length : Int) then (b.data.length : Int) else off)
          = ((min off.toNat b.data.length : Nat) : Int) := by split <;> omega
      rw [eo]
      generalize hm : min off.toNat b.data.length = o
      have hol : o ≤ b.data.length := by omega
      by_cases hk : (k : Int) > b.data.length - o
      · have hk' : b.data.length < o + k := by omega
        simp only [hk, hk', decide_true, if_true, Bool.true_or]
        rw [goSlice_eq _ _ _ (by simp; omega), goSlice_eq _ _ _ (by omega)]
        have e1 : ((o : Int) + (↑b.data.length - ↑o) - ↑o).toNat = b.data.length - o := by omega
        have e3 : (List.drop o b.data).take (b.data.length - o) = (List.drop o b.data).take k := by
          rw [List.take_of_length_le (by simp), List.take_of_length_le (by simp; omega)]
        simp only [e1, Int.toNat_natCast, e3, memCfg]
      · have hk' : ¬ b.data.length < o + k := by omega
        simp only [hk, hk', decide_false, Bool.false_or, Bool.false_and, Bool.false_eq_true, if_false]
        rw [goSlice_eq _ _ _ (by simp), goSlice_eq _ _ _ (by omega)]
        have e1 : ((o : Int) + ↑k - ↑o).toNat = k := by omega
        simp only [e1, Int.toNat_natCast]

/-- Arithmetic of `offset += x` in `Seek`: either exact, or wrapped to a negative value. -/
theorem seek_arith {off x : Int} (ho : IsI64 off) (hx : 0 ≤ x ∧ x < 2 ^ 63) :
    (i64 (off + x) = off + x ∧ off + x < 2 ^ 63) ∨
    (i64 (off + x) = off + x - 2 ^ 64 ∧ 2 ^ 63 ≤ off + x ∧ off + x - 2 ^ 64 < 0) := by
  unfold IsI64 at ho
  by_cases h : off + x < 2 ^ 63
  · left; exact ⟨i64_of_isI64 (by unfold IsI64; omega), h⟩
  · right; exact ⟨i64_over (by omega) (by omega), by omega, by omega⟩

theorem bytes_seek_sim {data b c} (hlen : data.length < 2 ^ 63) (h : BytesRel data b c)
    (off wh : Int) (hv : IsI64 off) :
    (b.seek off wh).2 = (c.seek off wh).2 ∧ BytesRel data (b.seek off wh).1 (c.seek off wh).1 := by
  have h0 := h
  obtain ⟨ho, hr⟩ := h
  cases hc : b.closed with
  | true => simp [BytesBody.seek, Spec.Cursor.seek, ho, hc, BytesRel]
  | false =>
    obtain ⟨rfl, h2, h3, h4, h5⟩ := hr hc
    have hv' := hv
    unfold IsI64 at hv'
    simp only [BytesBody.seek, Spec.Cursor.seek, Spec.seekTarget, hc, ho, h2, Bool.false_eq_true,
      if_false, Bool.not_false, Bool.not_true]
    have fin : ∀ t : Int, 0 ≤ t → ∀ p : Nat, p = min t.toNat b.data.length →
        (Out.seek (if t > (b.data.length : Int) then (b.data.length : Int) else t) none
          = Out.seek (p : Int) none) ∧
        BytesRel b.data
          { data := b.data, offset := if t > (b.data.length : Int) then (b.data.length : Int) else t,
            eof := false, closed := b.closed }
          { content := b.data, pos := p, done := false, isOpen := c.isOpen } := by
      intro t ht p hp
      have e : (if t > (b.data.length : Int) then (b.data.length : Int) else t) = (p : Int) := by
        split <;> omega
      rw [e]
      refine ⟨rfl, by simp [ho, hc], fun _ => ⟨rfl, rfl, rfl, by simp; omega, rfl⟩⟩
    by_cases w0 : wh = 0
    · subst w0
      by_cases hn : off < 0
      · simp [hn, h0]
      · simp only [hn, and_false, if_false, if_true, ne_eq, not_true, false_and]
        have := fin off (by omega) _ rfl
        have e1 : ¬ (2 ^ 63 ≤ off) := by omega
        simp only [e1, if_false]
        simpa [hc, ho, h2] using this
    · by_cases w1 : wh = 1
      · subst w1
        simp only [show (1 : Int) ≠ 0 by decide, false_and, if_false, ne_eq, not_true, if_true,
          not_false_eq_true, and_false]
        rcases seek_arith hv (x := b.offset) (by omega) with ⟨e, hlt⟩ | ⟨e, hge, hneg⟩
        · rw [e]
          have e' : (c.pos : Int) + off = off + b.offset := by omega
          rw [e']
          by_cases hn : off + b.offset < 0
          · simp [hn, h0]
          · have e1 : ¬ (2 ^ 63 ≤ off + b.offset) := by omega
            simp only [hn, if_false, e1]
            have := fin (off + b.offset) (by omega) _ rfl
            simpa [hc, ho, h2] using this
        · rw [e]
          have e' : (c.pos : Int) + off = off + b.offset := by omega
          have e1 : ¬ off + b.offset < 0 := by omega
          simp only [e', hneg, hge, if_true, e1, if_false]
          exact ⟨by simp, h0⟩
      · by_cases w2 : wh = 2
        · subst w2
          simp only [show (2 : Int) ≠ 0 by decide, show (2 : Int) ≠ 1 by decide, false_and, if_false,
            ne_eq, not_true, if_true, not_false_eq_true, and_false]
          rcases seek_arith hv (x := (b.data.length : Int)) (by omega) with ⟨e, hlt⟩ | ⟨e, hge, hneg⟩
          · rw [e]
            have e' : (b.data.length : Int) + off = off + b.data.length := by omega
            rw [e']
            by_cases hn : off + (b.data.length : Int) < 0
            · simp [hn, h0]
            · have e1 : ¬ (2 ^ 63 ≤ off + (b.data.length : Int)) := by omega
              simp only [hn, if_false, e1]
              have := fin (off + b.data.length) (by omega) _ rfl
              simpa [hc, ho, h2] using this
          · rw [e]
            have e' : (b.data.length : Int) + off = off + b.data.length := by omega
            have e1 : ¬ off + (b.data.length : Int) < 0 := by omega
            simp only [e', hneg, hge, if_true, e1, if_false]
            exact ⟨by simp, h0⟩
        · simp [w0, w1, w2, h0]

theorem bytes_writeTo_sim {data b c} (h : BytesRel data b c) (w : WriteFn) :
    (b.writeTo w).2 = (c.writeTo w).2 ∧ BytesRel data (b.writeTo w).1 (c.writeTo w).1 := by
  have h0 := h
  obtain ⟨ho, hr⟩ := h
  cases hc : b.closed with
  | true => simp [BytesBody.writeTo, Spec.Cursor.writeTo, ho, hc, BytesRel]
  | false =>
    obtain ⟨rfl, h2, h3, h4, h5⟩ := hr hc
    cases he : b.eof with
    | true =>
      simp [BytesBody.writeTo, Spec.Cursor.writeTo, ho, hc, he, ← h5, h0]
    | false =>
      simp only [BytesBody.writeTo, Spec.Cursor.writeTo, hc, he, ho, ← h5, h2]
      simp only [Bool.false_eq_true, if_false, Bool.not_false, Bool.not_true]
      rw [goSlice_eq _ _ _ (by omega)]
      have e1 : (↑b.data.length - b.offset).toNat = b.data.length - c.pos := by omega
      have e2 : b.offset.toNat = c.pos := by omega
      have e3 : (List.drop c.pos b.data).take (b.data.length - c.pos) = List.drop c.pos b.data := by
        rw [List.take_of_length_le (by simp)]
      simp only [e1, e2, e3]
      rcases hw : w (List.drop c.pos b.data) with ⟨n, err⟩ | p
      rotate_left
      · exact ⟨rfl, h0⟩
      simp only [List.length_drop]
      by_cases h1 : 0 ≤ n
      · by_cases h6 : n ≤ ((b.data.length - c.pos : Nat) : Int)
        · have h7 : n ≤ ↑b.data.length - b.offset := by omega
          simp only [ge_iff_le, h1, h6, h7, not_true, if_false, and_self, if_true, true_and]
          refine ⟨by simp [ho, hc], fun _ => ⟨rfl, rfl, by simp; omega, by simp; omega, rfl⟩⟩
        · have h7 : ¬ n ≤ ↑b.data.length - b.offset := by omega
          simp only [ge_iff_le, h1, h6, h7, not_true, not_false_eq_true, if_false, if_true, and_false, true_and]
          exact h0
      · simp only [ge_iff_le, h1, not_false_eq_true, if_true, false_and, if_false, true_and]
        exact h0

/-- One call on a bytes family is matched by one call on cursors. -/
theorem bytes_step_sim {data} (hlen : data.length < 2 ^ 63) (s : List BytesBody)
    (f : List Spec.Cursor) (op : Op) (h : Pw (BytesRel data) s f) (hv : op.Valid) :
    (BytesBody.step s op).2 = (Spec.step (memCfg data) {} f op).2 ∧
      Pw (BytesRel data) (BytesBody.step s op).1 (Spec.step (memCfg data) {} f op).1 := by
  unfold BytesBody.step Spec.step
  cases hs : s[op.h]? with
  | none =>
    rw [(h.none_iff _).1 hs]
    exact ⟨rfl, h⟩
  | some b =>
    obtain ⟨c, hf, hbc⟩ := h.get hs
    rw [hf]
    obtain ⟨ho, hr⟩ := id hbc
    cases op with
    | read i k =>
      have := bytes_read_sim hbc k
      exact ⟨this.1, h.set _ this.2⟩
    | readAt i k off => exact ⟨bytes_readAt_sim hbc k off, h⟩
    | seek i off wh =>
      have := bytes_seek_sim hlen hbc off wh hv
      exact ⟨this.1, h.set _ this.2⟩
    | remaining i =>
      refine ⟨?_, h⟩
      cases hc : b.closed with
      | true => simp [BytesBody.bytesRemaining, Spec.Cursor.remaining, ho, hc]
      | false =>
        obtain ⟨rfl, h2, h3, h4, h5⟩ := hr hc
        simp [BytesBody.bytesRemaining, Spec.Cursor.remaining, ho, hc, h2, h3]
    | writeTo i w =>
      have := bytes_writeTo_sim hbc w
      exact ⟨this.1, h.set _ this.2⟩
    | copy i =>
      cases hc : b.closed with
      | true => simp [ho, hc, h]
      | false => simp [ho, hc, h.1]; exact h.append hbc
    | close i =>
      cases hc : b.closed with
      | true =>
        refine ⟨by simp [BytesBody.close, ho, hc], ?_⟩
        simp only [BytesBody.close, ho, hc]
        simp only [Op.h] at hs
        simpa [set_self hs] using h
      | false =>
        refine ⟨by simp [BytesBody.close, ho, hc, memCfg], ?_⟩
        simp only [BytesBody.close, ho, hc]
        apply h.set
        simp [BytesRel]
    | unwrap i => exact ⟨by simp [memCfg], h⟩

end Verif
