import Verif.Proofs.Machine

/-! # Machine arithmetic is exact: stream-backed families -/

set_option linter.unusedSimpArgs false

set_option autoImplicit false

namespace Verif
open Spec

variable {σ : Type}

/-! ## updateStart -/

/-- The scan counts no further than the number of offsets, and ends at one of them. -/
theorem scanM_eq (l : List Int) : ∀ (acc : Int × Int), 0 ≤ acc.2 → acc.2 + l.length < 2 ^ 31 →
    l.foldl BufSys.scanM acc = l.foldl BufSys.scan acc ∧ ((l.foldl BufSys.scan acc).1 = acc.1 ∨ (l.foldl BufSys.scan acc).1 ∈ l) := by
  induction l with
  | nil => intro acc _ _; exact ⟨rfl, .inl rfl⟩
  | cons x l ih =>
    intro acc h0 h1
    have h1 : acc.2 + (l.length + 1) < 2 ^ 31 := by simpa using h1
    have e : BufSys.scanM acc x = BufSys.scan acc x ∧ 0 ≤ (BufSys.scan acc x).2 ∧ (BufSys.scan acc x).2 ≤ acc.2 + 1 ∧
        ((BufSys.scan acc x).1 = acc.1 ∨ (BufSys.scan acc x).1 = x) := by
      unfold BufSys.scanM BufSys.scan
      by_cases hs : acc.2 ≤ 0 ∨ x < acc.1
      · simp only [hs, if_true]
        rw [i32_of (by omega) (by omega)]
        exact ⟨rfl, by omega, by omega, .inr trivial⟩
      · simp only [hs, if_false]
        by_cases hx : x = acc.1
        · rw [if_pos hx, if_pos hx, i32_of (by omega) (by omega)]
          exact ⟨rfl, by simp only; omega, by simp, .inl rfl⟩
        · rw [if_neg hx, if_neg hx]
          exact ⟨rfl, h0, by omega, .inl rfl⟩
    rw [List.foldl_cons, List.foldl_cons, e.1]
    obtain ⟨i1, i2⟩ := ih (BufSys.scan acc x) e.2.1 (by omega)
    refine ⟨i1, ?_⟩
    rcases i2 with i2 | i2
    · rw [i2]
      rcases e.2.2.2 with e | e
      · exact .inl e
      · exact .inr (by rw [e]; simp)
    · exact .inr (by simp [i2])

theorem updateStartM_eq (s : BufSys σ) (hn : s.offsets.length < 2 ^ 31) (h0 : 0 ≤ s.common.start)
    (ho : ∀ x ∈ s.offsets, x < 2 ^ 63) : s.updateStartM = s.updateStart := by
  obtain ⟨h1, h2⟩ := scanM_eq s.offsets (0, 0) (by simp) (by simp only; omega)
  unfold BufSys.updateStartM BufSys.updateStart
  simp only [h1]
  by_cases h3 : (s.offsets.foldl BufSys.scan (0, 0)).1 ≥ s.common.start
  · have : (s.offsets.foldl BufSys.scan (0, 0)).1 < 2 ^ 63 := by
      rcases h2 with h2 | h2
      · rw [h2]; decide
      · exact ho _ h2
    rw [i64_of (by omega) (by omega)]
    rfl
  · rw [if_pos h3, if_pos h3]

theorem advanceM_eq (s : BufSys σ) (x y : Int) (hn : s.offsets.length < 2 ^ 31) (h0 : 0 ≤ s.common.start)
    (ho : ∀ x ∈ s.offsets, x < 2 ^ 63) (hg : gone s < 2 ^ 63) (hr : 0 ≤ s.common.refcnt ∧ s.common.refcnt < 2 ^ 31) :
    s.advanceM x y = s.advance x y := by
  unfold gone at hg
  unfold BufSys.advanceM BufSys.advance
  simp only
  rw [i64_of (x := s.common.start + s.common.bytes.length) (by omega) (by omega), i32_of (x := s.common.refcnt - 1) (by omega) (by omega)]
  rw [updateStartM_eq { s with common := { s.common with refcnt := s.common.refcnt - 1 } } hn h0 ho]

theorem unrefM_eq (R : Rdr σ) (s : BufSys σ) (h : Nat) (b : BufBody) (hn : s.offsets.length < 2 ^ 31) (h0 : 0 ≤ s.common.start)
    (ho : ∀ x ∈ s.offsets, x < 2 ^ 63) (hr : 0 ≤ s.common.refcnt ∧ s.common.refcnt < 2 ^ 31) :
    BufSys.unrefM R s h b = BufSys.unref R s h b := by
  unfold BufSys.unrefM BufSys.unref
  simp only
  rw [i32_of (x := s.common.refcnt - 1) (by omega) (by omega)]
  have hsub : ((s.common.bodies.filter (· ≠ h)).filterMap (fun i => (s.heap[i]?).map (·.offset))).Sublist s.offsets :=
    List.Sublist.filterMap _ List.filter_sublist
  rw [updateStartM_eq { s with common := { s.common with bodies := s.common.bodies.filter (· ≠ h), refcnt := s.common.refcnt - 1 } }
    (Nat.lt_of_le_of_lt hsub.length_le hn) h0 (fun x hx => ho x (hsub.subset hx))]
  rfl

/-! ## Filling the buffer -/

theorem roundUpM_eq (n : Int) (h0 : 0 ≤ n) (h1 : n < 2 ^ 62) : BufSys.roundUpM n = BufSys.roundUp n := by
  unfold BufSys.roundUpM BufSys.roundUp blockSize
  rw [i64_of (x := n + 65536) (by omega) (by omega), i64_of (by omega) (by omega)]

/-- The loop with its own variables, and what it leaves alone. -/
theorem readLoopM_eq (R : Rdr σ) (cap : Int) (fuel : Nat) : ∀ (c : BufCommon σ) (num : Int), 0 ≤ c.start →
    c.start + cap < 2 ^ 63 → c.bytes.length + num ≤ cap → c.bytes.length ≤ cap →
    BufSys.readLoopM R cap fuel c c.bytes.length num (c.start + c.bytes.length) =
      ((BufSys.readLoop R fuel c num).1,
        (BufSys.readLoop R fuel c num).1.start + (BufSys.readLoop R fuel c num).1.bytes.length, (BufSys.readLoop R fuel c num).2) ∧
    (BufSys.readLoop R fuel c num).1.start = c.start ∧ ((BufSys.readLoop R fuel c num).1.bytes.length : Int) ≤ cap ∧
    (BufSys.readLoop R fuel c num).1.bodies = c.bodies ∧ (BufSys.readLoop R fuel c num).1.refcnt = c.refcnt ∧
    c.bytes.length ≤ (BufSys.readLoop R fuel c num).1.bytes.length := by
  induction fuel with
  | zero =>
    intro c num h0 h1 h2 h3
    by_cases hn : num > 0
    · rw [readLoop_zero R c num hn]
      unfold BufSys.readLoopM
      rw [if_neg (by omega)]
      exact ⟨rfl, rfl, h3, rfl, rfl, Nat.le_refl _⟩
    · rw [readLoop_done R 0 c num hn]
      unfold BufSys.readLoopM
      rw [if_pos hn]
      exact ⟨rfl, rfl, h3, rfl, rfl, Nat.le_refl _⟩
  | succ fuel ih =>
    intro c num h0 h1 h2 h3
    by_cases hn : num > 0
    · have e1 : i64 (c.bytes.length + num) = c.bytes.length + num := i64_of (by omega) (by omega)
      have e2 : (c.bytes.length : Int) + num - c.bytes.length = num := by omega
      rw [BufSys.readLoopM, if_neg (by omega)]
      simp only [e1]
      rw [if_neg (by omega), e2]
      by_cases hR : c.hasR = true
      · obtain ⟨st', resp, hr⟩ : ∃ st' resp, R.read c.rdr num.toNat = (st', resp) := ⟨_, _, rfl⟩
        rw [readLoop_succ R fuel c num hn hR st' resp hr]
        simp only [hR, hr, Bool.not_true, Bool.false_eq_true, if_false]
        cases resp with
        | panics p => exact ⟨rfl, rfl, h3, rfl, rfl, Nat.le_refl _⟩
        | negative => exact ⟨rfl, rfl, h3, rfl, rfl, Nat.le_refl _⟩
        | got d err =>
          simp only
          by_cases hd : (d.length : Int) ≤ num
          · rw [if_neg (by omega), if_neg (by omega)]
            have e3 : i64 (c.bytes.length + d.length) = ((c.bytes ++ d).length : Nat) := by
              rw [i64_of (by omega) (by omega)]; simp
            have hl : ((c.bytes ++ d).length : Int) = c.bytes.length + d.length := by simp
            have e4 : i64 (num - d.length) = num - d.length := i64_of (by omega) (by omega)
            rw [e3, e4, i64_of (x := c.start + ((c.bytes ++ d).length : Nat)) (by omega) (by omega)]
            cases err with
            | some e => exact ⟨rfl, rfl, by simp only; omega, rfl, rfl, by simp⟩
            | none =>
              obtain ⟨i1, i2, i3, i4, i5, i6⟩ :=
                ih { c with rdr := st', bytes := c.bytes ++ d } (num - d.length) h0 h1 (by simp only; omega) (by simp only; omega)
              simp only [hR] at i1 i2 i3 i4 i5 i6
              exact ⟨i1, i2, i3, i4, i5, by simp only; omega⟩
          · rw [if_pos (by omega), if_pos (by omega)]
            exact ⟨rfl, rfl, h3, rfl, rfl, Nat.le_refl _⟩
      · have hR : c.hasR = false := by simpa using hR
        have e3 : BufSys.readLoop R (fuel + 1) c num = (c, some (.panic .nilDeref)) := by
          rw [BufSys.readLoop, if_neg (by omega)]; simp only [hR]; rfl
        rw [e3]
        simp only [hR, Bool.not_false, if_true]
        exact ⟨trivial, trivial, h3, trivial, trivial, Nat.le_refl _⟩
    · rw [readLoop_done R _ c num hn]
      unfold BufSys.readLoopM
      rw [if_pos hn]
      exact ⟨rfl, rfl, h3, rfl, rfl, Nat.le_refl _⟩

theorem fillM_eq (R : Rdr σ) {w : Nat} (hw : Platform w) (fuel : Nat) (c : BufCommon σ) (endOffset : Int) (k : Nat) (h0 : 0 ≤ c.start)
    (hk : k < 2 ^ 62) (he : endOffset ≤ c.start + c.bytes.length + k) (h1 : c.start + c.bytes.length + k + 65536 ≤ 2 ^ 63)
    (h2 : c.bytes.length + k + 65536 ≤ lim w) (h3 : IsI64 c.length) :
    BufSys.fillM R w fuel c endOffset =
      ((BufSys.fill R fuel c endOffset).1,
        (BufSys.fill R fuel c endOffset).1.start + (BufSys.fill R fuel c endOffset).1.bytes.length, (BufSys.fill R fuel c endOffset).2) ∧
    (BufSys.fill R fuel c endOffset).1.start = c.start ∧
    ((BufSys.fill R fuel c endOffset).1.bytes.length : Int) < c.bytes.length + k + 65536 ∧
    (BufSys.fill R fuel c endOffset).1.bodies = c.bodies ∧ (BufSys.fill R fuel c endOffset).1.refcnt = c.refcnt ∧
    c.bytes.length ≤ (BufSys.fill R fuel c endOffset).1.bytes.length := by
  obtain ⟨h4, h5⟩ := h3
  have h63 := lim_le hw
  unfold BufSys.fillM BufSys.fill
  simp only
  rw [i64_of (x := c.start + c.bytes.length) (by omega) (by omega)]
  by_cases hc : c.err = none ∧ endOffset > c.start + c.bytes.length
  · obtain ⟨q1, q2, q3⟩ := roundUp_spec (endOffset - (c.start + c.bytes.length)) (by omega) (by omega)
    rw [if_pos hc, if_pos hc, i64_of (x := endOffset - (c.start + c.bytes.length)) (by omega) (by omega), roundUpM_eq _ (by omega) (by omega)]
    generalize BufSys.roundUp (endOffset - (c.start + c.bytes.length)) = num at q1 q2 q3 ⊢
    by_cases hi : c.length ≥ 0 ∧ ¬ c.start + c.bytes.length ≤ c.length
    · rw [if_pos hi, if_pos hi]
      exact ⟨rfl, rfl, by simp only; omega, rfl, rfl, Nat.le_refl _⟩
    · rw [if_neg hi, if_neg hi]
      have e1 : c.length ≥ 0 → i64 (c.length - (c.start + c.bytes.length)) = c.length - (c.start + c.bytes.length) :=
        fun h => i64_of (by omega) (by omega)
      have e2 : decide (c.length ≥ 0 ∧ num ≥ i64 (c.length - (c.start + c.bytes.length))) =
          decide (c.length ≥ 0 ∧ num ≥ c.length - (c.start + c.bytes.length)) := by
        by_cases h : c.length ≥ 0
        · rw [e1 h]
        · simp [h]
      have e3 : (if decide (c.length ≥ 0 ∧ num ≥ c.length - (c.start + c.bytes.length)) = true then
            i64 (c.length - (c.start + c.bytes.length)) else num) =
          if decide (c.length ≥ 0 ∧ num ≥ c.length - (c.start + c.bytes.length)) = true then
            c.length - (c.start + c.bytes.length) else num := by
        split
        · rename_i h
          rw [e1 (by simp at h; omega)]
        · rfl
      rw [e2, e3]
      have hn : 0 ≤ (if decide (c.length ≥ 0 ∧ num ≥ c.length - (c.start + c.bytes.length)) = true then
            c.length - (c.start + c.bytes.length) else num) ∧
          (if decide (c.length ≥ 0 ∧ num ≥ c.length - (c.start + c.bytes.length)) = true then
            c.length - (c.start + c.bytes.length) else num) ≤ num := by
        split
        · rename_i h; simp at h; omega
        · omega
      generalize (if decide (c.length ≥ 0 ∧ num ≥ c.length - (c.start + c.bytes.length)) = true then
            c.length - (c.start + c.bytes.length) else num) = n at hn ⊢
      rw [i64_of (x := c.start + c.bytes.length - c.start) (by omega) (by omega)]
      rw [show c.start + (c.bytes.length : Int) - c.start = c.bytes.length by omega]
      rw [i64_of (x := (c.bytes.length : Int) + n) (by omega) (by omega)]
      have e4 : (2 : Int) ^ (w - 1) = lim w := rfl
      rw [e4, if_neg (by omega), if_neg (by omega)]
      obtain ⟨g1, g2, g3, g4, g5, gm⟩ := readLoopM_eq R (c.bytes.length + n) fuel c n h0 (by omega) (by omega) (by omega)
      rw [g1]
      generalize BufSys.readLoop R fuel c n = r at g2 g3 g4 g5 gm ⊢
      obtain ⟨c', o⟩ := r
      simp only at g2 g3 g4 g5 gm ⊢
      cases o with
      | some o => exact ⟨rfl, g2, by simp only; omega, g4, g5, gm⟩
      | none =>
        simp only
        split
        · exact ⟨rfl, g2, by simp only; omega, g4, g5, gm⟩
        · exact ⟨rfl, g2, by simp only; omega, g4, g5, gm⟩
  · rw [if_neg hc, if_neg hc]
    exact ⟨rfl, rfl, by simp only; omega, rfl, rfl, Nat.le_refl _⟩

/-! ## The steps -/

/-- The numbers of a family. -/
structure BufFit (s : BufSys σ) : Prop where
  start0 : 0 ≤ s.common.start
  offs : ∀ b ∈ s.heap, b.closed = false → s.common.start ≤ b.offset ∧ b.offset ≤ gone s
  set : ∀ i ∈ s.common.bodies, ∃ b, s.heap[i]? = some b ∧ b.closed = false
  few : s.common.bodies.length ≤ s.heap.length
  cnt : (∃ b ∈ s.heap, b.closed = false) → 0 ≤ s.common.refcnt ∧ s.common.refcnt ≤ s.heap.length
  len : IsI64 s.common.length

theorem offsets_of_heap (s : BufSys σ) (hs : ∀ i ∈ s.common.bodies, ∃ b, s.heap[i]? = some b ∧ b.closed = false) {x : Int}
    (hx : x ∈ s.offsets) : ∃ b ∈ s.heap, b.closed = false ∧ b.offset = x := by
  unfold BufSys.offsets at hx
  obtain ⟨i, hi, e⟩ := List.mem_filterMap.1 hx
  obtain ⟨b, hb, hc⟩ := hs i hi
  rw [hb] at e
  exact ⟨b, List.mem_of_getElem? hb, hc, by simpa using e⟩

theorem offsets_length (s : BufSys σ) : s.offsets.length ≤ s.common.bodies.length := List.length_filterMap_le _ _

theorem finishReadM_eq {w : Nat} (hw : Platform w) (s : BufSys σ) (h : Nat) (b : BufBody) (k : Nat) (hb : s.heap[h]? = some b)
    (hc : b.closed = false) (h0 : 0 ≤ s.common.start) (hg : gone s < 2 ^ 63)
    (ho : ∀ b ∈ s.heap, b.closed = false → s.common.start ≤ b.offset ∧ b.offset ≤ gone s)
    (hset : ∀ i ∈ s.common.bodies, ∃ b, s.heap[i]? = some b ∧ b.closed = false) (hfew : s.common.bodies.length < 2 ^ 31)
    (hr : 0 ≤ s.common.refcnt ∧ s.common.refcnt < 2 ^ 31) (hl : (s.common.bytes.length : Int) < lim w) :
    s.finishReadM w h b k b.offset (b.offset + k) s.common.start (gone s) = s.finishRead h b k := by
  have hlw := lim_le hw
  have hbo := ho b (List.mem_of_getElem? hb) hc
  unfold BufSys.finishReadM BufSys.finishRead
  have eg : s.common.start + (s.common.bytes.length : Int) = gone s := rfl
  simp only [eg]
  have hE : b.offset ≤ (if decide (b.offset + k > gone s) = true then gone s else b.offset + k) ∧
      (if decide (b.offset + k > gone s) = true then gone s else b.offset + k) ≤ gone s := by
    split
    · omega
    · rename_i h; simp at h; omega
  generalize (if decide (b.offset + k > gone s) = true then gone s else b.offset + k) = E at hE ⊢
  have e1 : iw w (i64 (b.offset - s.common.start)) = b.offset - s.common.start := by
    rw [i64_of (by omega) (by omega), iw_of hw (by omega) (by omega)]
  have e2 : iw w (i64 (E - s.common.start)) = E - s.common.start := by
    rw [i64_of (by omega) (by omega), iw_of hw (by omega) (by omega)]
  rw [e1, e2, iw_of hw (x := E - s.common.start - (b.offset - s.common.start)) (by omega) (by omega)]
  have hb' : (if decide (b.offset + k > gone s) = true then { b with eof := true } else b).closed = false := by split <;> exact hc
  generalize (if decide (b.offset + k > gone s) = true then { b with eof := true } else b) = b' at hb' ⊢
  have hh := (List.getElem?_eq_some_iff.1 hb).1
  have hadv := advanceM_eq (⟨s.common, (s.heap.set h b').set h { b' with offset := E }⟩ : BufSys σ) b.offset E
    (Nat.lt_of_le_of_lt (offsets_length _) hfew) h0 (by
      intro x hx
      obtain ⟨y, hy, hyc, rfl⟩ := offsets_of_heap _ (by
        intro i hi
        obtain ⟨z, hz, hzc⟩ := hset i hi
        simp only [List.set_set]
        by_cases hih : i = h
        · subst hih
          exact ⟨{ b' with offset := E }, by rw [List.getElem?_set_self hh], hb'⟩
        · exact ⟨z, by rw [List.getElem?_set_ne (fun e => hih e.symm)]; exact hz, hzc⟩) hx
      simp only [List.set_set] at hy
      rcases List.mem_or_eq_of_mem_set hy with h1 | h1
      · have := ho y h1 hyc; omega
      · rw [h1]; simp only; omega) hg hr
  rw [hadv]
  rfl

theorem bytesRemainingM_eq (s : BufSys σ) (hs : BufFit s) (b : BufBody) (hb : b ∈ s.heap) : s.bytesRemainingM b = s.bytesRemaining b := by
  obtain ⟨h1, h2⟩ := hs.len
  have h0 := hs.start0
  unfold BufSys.bytesRemainingM BufSys.bytesRemaining
  cases hc : b.closed with
  | true => rfl
  | false =>
    have h3 := hs.offs b hb hc
    simp only [Bool.false_eq_true, if_false]
    cases b.eof with
    | true => rfl
    | false =>
      simp only [Bool.false_eq_true, if_false]
      by_cases hl : s.common.length < 0
      · rw [if_pos hl, if_pos hl]
      · rw [if_neg hl, if_neg hl, i64_of]
        · split <;> omega
        · split <;> omega

theorem buf_stepM (R : Rdr σ) {w : Nat} (hw : Platform w) (fuel : Nat) (s : BufSys σ) (hs : BufFit s) (op : Op) (hok : op.Small)
    (hroom : Room w s op) (hn : s.heap.length + copyCalls [op] < 2 ^ 31) : s.stepM R w fuel op = s.step R fuel op := by
  have h0 := hs.start0
  have hfew := hs.few
  have hlw := lim_le hw
  obtain ⟨r1, r2⟩ := hroom
  have el : (2 : Int) ^ (w - 1) = lim w := rfl
  rw [el] at r2
  have hoff : gone s < 2 ^ 63 → ∀ x ∈ s.offsets, x < 2 ^ 63 := by
    intro hg x hx
    obtain ⟨b, hb, hc, rfl⟩ := offsets_of_heap s hs.set hx
    have := hs.offs b hb hc
    omega
  unfold BufSys.stepM BufSys.step
  cases hb : s.heap[op.h]? with
  | none => rfl
  | some b =>
    have hm := List.mem_of_getElem? hb
    cases op with
    | read h k =>
      simp only [asked] at r1 r2
      have hok : k < 2 ^ 62 := hok
      simp only [Op.h] at hb ⊢
      unfold BufSys.readM BufSys.read
      cases hc : b.closed with
      | true => rfl
      | false =>
        have hbo := hs.offs b hm hc
        have hcnt := hs.cnt ⟨b, hm, hc⟩
        simp only [Bool.false_eq_true, if_false]
        cases b.eof with
        | true => rfl
        | false =>
          simp only [Bool.false_eq_true, if_false]
          have hg0 : s.common.start + (s.common.bytes.length : Int) = gone s := rfl
          rw [i64_of (x := b.offset + k) (by omega) (by omega), if_neg (by omega), if_neg (by omega)]
          obtain ⟨g1, g2, g3, g4, g5, gm⟩ := fillM_eq R hw fuel s.common (b.offset + k) k h0 hok (by omega) (by omega) (by omega) hs.len
          rw [g1]
          generalize BufSys.fill R fuel s.common (b.offset + k) = r at g1 g2 g3 g4 g5 gm ⊢
          obtain ⟨c, o⟩ := r
          simp only at g2 g3 g4 g5 gm ⊢
          cases o with
          | some o => rfl
          | none =>
            simp only
            have := finishReadM_eq hw { s with common := c } h b k hb hc (by simp only; omega) (by unfold gone; simp only; omega)
              (by
                intro x hx hxc
                have := hs.offs x hx hxc
                unfold gone at this ⊢
                simp only; omega)
              (by simp only; rw [g4]; exact hs.set) (by simp only; rw [g4]; omega) (by simp only; rw [g5]; omega) (by simp only; omega)
            unfold gone at this
            simp only at this
            rw [← g2]
            exact this
    | readAt h k off => rfl
    | seek h off wh => rfl
    | remaining h => simp only [bytesRemainingM_eq s hs b hm]
    | copy h =>
      simp only [copyCalls, isCopy, List.countP_cons, List.countP_nil, if_true] at hn
      simp only [BufSys.copyM, BufSys.copy, BufSys.refM, BufSys.ref]
      cases hc : b.closed with
      | true => rfl
      | false =>
        have hcnt := hs.cnt ⟨b, hm, hc⟩
        rw [i32_of (x := s.common.refcnt + 1) (by omega) (by omega)]
    | close h =>
      simp only [asked] at r1
      simp only [BufSys.closeM, BufSys.close]
      cases hc : b.closed with
      | true => rfl
      | false =>
        have hcnt := hs.cnt ⟨b, hm, hc⟩
        rw [unrefM_eq R s h b (by have := offsets_length s; omega) h0 (hoff (by omega)) (by omega)]
        rfl
    | unwrap h => rfl
    | writeTo h f => rfl

/-! ## Histories -/

theorem gone_obt {L : Int} {t : BufSys (Rec σ)} (hc : Core L t) : gone t = (obt t).length := by
  unfold gone
  rw [hc.bytes]; simp; have := hc.startLe; have := hc.start0; omega

theorem nodup_short {l : List Nat} (hn : l.Nodup) {n : Nat} (h : ∀ i ∈ l, i < n) : l.length ≤ n := by
  have : l.Perm ((List.range n).filter (fun i => decide (i ∈ l))) := by
    rw [List.perm_ext_iff_of_nodup hn (List.nodup_range.filter _)]
    intro i
    simp only [List.mem_filter, List.mem_range, decide_eq_true_eq]
    exact ⟨fun hi => ⟨h i hi, hi⟩, fun hi => hi.2⟩
  rw [this.length_eq]
  exact Nat.le_trans (List.length_filter_le _ _) (by simp)

theorem bufFit_of {L : Int} (hL : IsI64 L) {t : BufSys (Rec σ)} (hw : WInv L t) (hg : gone t < 2 ^ 63) : BufFit t := by
  have hmem : ∀ i ∈ t.common.bodies, ∃ b, t.heap[i]? = some b ∧ b.closed = false := fun i hi => (hw.set.mem i).1 hi
  have hfew : t.common.bodies.length ≤ t.heap.length := nodup_short hw.set.nodup (by
    intro i hi
    obtain ⟨b, hb, _⟩ := hmem i hi
    exact (List.getElem?_eq_some_iff.1 hb).1)
  by_cases ho : ∃ b ∈ t.heap, b.closed = false
  · have ha := hw.alive ho
    have hc := ha.core
    refine ⟨hc.start0, ?_, hmem, hfew, ?_, ?_⟩
    · intro b hb hcl
      have := hc.offs b hb hcl
      rw [gone_obt hc]
      exact ⟨this.1, this.2.1⟩
    · intro _
      have := ha.pos
      refine ⟨by omega, ?_⟩
      rw [ha.cnt]
      exact Int.ofNat_le.2 List.countP_le_length
    · cases he : t.common.err with
      | none => rw [(hc.live he).1]; exact hL
      | some e =>
        rw [(hc.over e he).1]
        rw [gone_obt hc] at hg
        exact ⟨by omega, hg⟩
  · have hd : ∀ b ∈ t.heap, b.closed = true := by
      intro b hb
      cases hcl : b.closed with
      | true => rfl
      | false => exact absurd ⟨b, hb, hcl⟩ ho
    obtain ⟨_, _, _, h4, h5⟩ := hw.dead hd
    refine ⟨by rw [h5]; decide, ?_, hmem, hfew, fun h => absurd h ho, by rw [h4]; decide⟩
    intro b hb hcl
    rw [hd b hb] at hcl; cases hcl

theorem BufFit.erase {t : BufSys (Rec σ)} (h : BufFit t) : BufFit t.erase := ⟨h.start0, h.offs, h.set, h.few, h.cnt, h.len⟩

/-- A call makes at most one body more. -/
theorem buf_heap_length (R : Rdr σ) (fuel : Nat) (s : BufSys σ) (op : Op) :
    (s.step R fuel op).1.heap.length ≤ s.heap.length + copyCalls [op] := by
  have upd : ∀ t : BufSys σ, t.updateStart.1.heap = t.heap := by
    intro t; unfold BufSys.updateStart; simp only
    split
    · rfl
    · split
      · rfl
      · split <;> rfl
  have adv : ∀ (t : BufSys σ) x y, (t.advance x y).1.heap = t.heap := by
    intro t x y; unfold BufSys.advance; simp only
    repeat' split
    all_goals first | rfl | exact upd _
  have unr : ∀ (t : BufSys σ) h b, (BufSys.unref R t h b).1.heap = t.heap := by
    intro t h b; unfold BufSys.unref; simp only
    repeat' split
    all_goals first | rfl | exact upd _
  unfold BufSys.step
  cases hb : s.heap[op.h]? with
  | none => exact Nat.le_add_right _ _
  | some b =>
    cases op with
    | read h k =>
      simp only
      refine Nat.le_trans (Nat.le_of_eq ?_) (Nat.le_add_right _ _)
      unfold BufSys.read
      split
      · rfl
      · split
        · rfl
        · split
          · rfl
          · simp only
            split
            · rfl
            · unfold BufSys.finishRead
              simp only
              split
              · have := adv
                split
                · rw [this]; simp
                · rw [this]; simp
              · simp
    | readAt h k off => exact Nat.le_add_right _ _
    | seek h off wh => exact Nat.le_add_right _ _
    | remaining h => exact Nat.le_add_right _ _
    | copy h =>
      simp only [BufSys.copy]
      split
      · exact Nat.le_add_right _ _
      · split
        · exact Nat.le_add_right _ _
        · simp [BufSys.ref, copyCalls, isCopy]
    | close h =>
      simp only [BufSys.close]
      split
      · exact Nat.le_add_right _ _
      · split
        · rw [unr]; exact Nat.le_add_right _ _
        · simp only [List.length_set]; rw [unr]; exact Nat.le_add_right _ _
    | unwrap h => exact Nat.le_add_right _ _
    | writeTo h f => exact Nat.le_add_right _ _

theorem copyCalls_cons (op : Op) (ops : List Op) : copyCalls (op :: ops) = copyCalls [op] + copyCalls ops := by
  simp [copyCalls, List.countP_cons]; omega

theorem buf_runM (R : Rdr σ) [R.CloseOk] {w : Nat} (hw : Platform w) (fuel : Nat) {L : Int} (hL : IsI64 L) (ops : List Op) :
    ∀ (t : BufSys (Rec σ)), WInv L t → (∀ op ∈ ops, op.Small) → RoomFor w (BufSys.step R fuel ·) t.erase ops →
    t.heap.length + copyCalls ops < 2 ^ 31 → run (BufSys.stepM R w fuel) t.erase ops = run (BufSys.step R fuel) t.erase ops := by
  induction ops with
  | nil => intro t _ _ _ _; rfl
  | cons op ops ih =>
    intro t ht hok hroom hn
    obtain ⟨hr, hroom⟩ := hroom
    rw [copyCalls_cons] at hn
    have hg : gone t < 2 ^ 63 := by have := hr.1; have e : gone t.erase = gone t := rfl; rw [e] at this; omega
    have hs := (bufFit_of hL ht hg).erase
    have e0 : t.erase.heap = t.heap := rfl
    have h1 := buf_stepM R hw fuel t.erase hs op (hok op (by simp)) hr (by rw [e0]; omega)
    have h2 := step_erase R fuel t op
    obtain ⟨ext, S⟩ := buf_step R fuel L t ht op (hok op (by simp))
    have h3 := buf_heap_length R.record fuel t op
    rw [run_cons, run_cons, h1, h2]
    simp only
    simp only [h2] at hroom
    rw [ih _ S.inv (fun o ho => hok o (by simp [ho])) hroom (by omega)]

/-! ## How far the stream can have been read -/

theorem updateStart_gone (s : BufSys σ) : gone s.updateStart.1 = gone s := by
  unfold BufSys.updateStart
  simp only
  split
  · rfl
  · split
    · rfl
    · split
      · rfl
      · rename_i h1 h2 bytes hb
        unfold goSlice at hb
        split at hb
        · rename_i hc
          cases hb
          unfold gone
          simp only [List.length_drop, List.length_take]
          have := h1
          omega
        · cases hb

theorem advance_gone (s : BufSys σ) (x y : Int) : gone (s.advance x y).1 = gone s := by
  unfold BufSys.advance
  simp only
  repeat' split
  all_goals first | rfl | exact (updateStart_gone _).trans rfl

theorem finishRead_gone (s : BufSys σ) (h : Nat) (b : BufBody) (k : Nat) : gone (s.finishRead h b k).1 = gone s := by
  unfold BufSys.finishRead
  simp only
  split
  · split
    · exact (advance_gone _ _ _).trans rfl
    · exact (advance_gone _ _ _).trans rfl
  · rfl

theorem unref_gone (R : Rdr σ) (s : BufSys σ) (h : Nat) (b : BufBody) (h0 : 0 ≤ gone s) : gone (BufSys.unref R s h b).1 ≤ gone s := by
  unfold BufSys.unref
  simp only
  repeat' split
  all_goals first | exact Int.le_refl _ | exact Int.le_of_eq ((updateStart_gone _).trans rfl) | exact h0

theorem buf_gone (R : Rdr σ) {w : Nat} (hw : Platform w) (fuel : Nat) (s : BufSys σ) (hs : BufFit s) (op : Op) (hok : op.Small)
    (hroom : Room w s op) : gone (s.step R fuel op).1 ≤ gone s + asked op := by
  have h0 := hs.start0
  have hlw := lim_le hw
  have hg0 : s.common.start + (s.common.bytes.length : Int) = gone s := rfl
  obtain ⟨r1, r2⟩ := hroom
  have el : (2 : Int) ^ (w - 1) = lim w := rfl
  rw [el] at r2
  have same : gone s ≤ gone s + asked op := by omega
  unfold BufSys.step
  cases hb : s.heap[op.h]? with
  | none => exact same
  | some b =>
    have hm := List.mem_of_getElem? hb
    cases op with
    | read h k =>
      simp only [asked] at r1 r2 same ⊢
      have hok : k < 2 ^ 62 := hok
      simp only [Op.h] at hb ⊢
      unfold BufSys.read
      cases hc : b.closed with
      | true => exact same
      | false =>
        have hbo := hs.offs b hm hc
        simp only [Bool.false_eq_true, if_false]
        cases b.eof with
        | true => exact same
        | false =>
          simp only [Bool.false_eq_true, if_false]
          rw [if_neg (by omega)]
          obtain ⟨-, g2, g3, -, -, -⟩ := fillM_eq R hw fuel s.common (b.offset + k) k h0 hok (by omega) (by omega) (by omega) hs.len
          generalize BufSys.fill R fuel s.common (b.offset + k) = r at g2 g3 ⊢
          obtain ⟨c, o⟩ := r
          simp only at g2 g3 ⊢
          have hgc : gone ({ s with common := c } : BufSys σ) ≤ gone s + (k + 65536 : Nat) := by
            unfold gone
            simp only
            omega
          cases o with
          | some o => exact hgc
          | none => simp only; rw [finishRead_gone]; exact hgc
    | readAt h k off => exact same
    | seek h off wh => exact same
    | remaining h => exact same
    | copy h =>
      refine Int.le_trans (Int.le_of_eq ?_) same
      simp only [BufSys.copy]
      split
      · rfl
      · split
        · rfl
        · unfold BufSys.ref gone
          simp only
          split <;> rfl
    | close h =>
      refine Int.le_trans ?_ same
      simp only [BufSys.close]
      have := unref_gone R s h b (by omega)
      split
      · exact Int.le_refl _
      · split
        · exact this
        · exact this
    | unwrap h => exact same
    | writeTo h f => exact same

/-- What a list of calls may take from the stream in all. -/
theorem room64 (R : Rdr σ) [R.CloseOk] (fuel : Nat) {L : Int} (hL : IsI64 L) (ops : List Op) : ∀ (t : BufSys (Rec σ)), WInv L t →
    (∀ op ∈ ops, op.Small) → gone t + ((ops.map asked).sum : Nat) < 2 ^ 63 → RoomFor 64 (BufSys.step R fuel ·) t.erase ops := by
  induction ops with
  | nil => intro t _ _ _; trivial
  | cons op ops ih =>
    intro t ht hok hsum
    simp only [List.map_cons, List.sum_cons] at hsum
    have hf := (bufFit_of hL ht (by omega)).erase
    have e : gone t.erase = gone t := rfl
    have h0 := hf.start0
    have hroom : Room 64 t.erase op := by
      refine ⟨by rw [e]; omega, ?_⟩
      rw [← e] at hsum
      unfold gone at hsum
      show _ ≤ (2 : Int) ^ 63
      omega
    have hg := buf_gone R (.inr rfl) fuel t.erase hf op (hok op (by simp)) hroom
    obtain ⟨ext, S⟩ := buf_step R fuel L t ht op (hok op (by simp))
    refine ⟨hroom, ?_⟩
    simp only [step_erase]
    rw [step_erase] at hg
    have e' : gone (t.step R.record fuel op).1.erase = gone (t.step R.record fuel op).1 := rfl
    refine ih _ S.inv (fun o ho => hok o (by simp [ho])) ?_
    simp only [e, e'] at hg
    omega

end Verif
