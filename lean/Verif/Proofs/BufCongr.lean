import Verif.Proofs.BufRun

/-! # Stream-backed families: what the behaviour does not depend on

The order in which Go iterates over the set of bodies, and whether the reader keeps a log. -/

set_option linter.unusedSimpArgs false

set_option autoImplicit false

namespace Verif
open Spec

variable {σ : Type}

/-! ## Iteration order -/

/-- The result of the scan in `updateStart` is the same for every iteration order. -/
theorem scan_perm {l l' : List Int} (h : l.Perm l') : l.foldl BufSys.scan (0, 0) = l'.foldl BufSys.scan (0, 0) := by
  by_cases hl : l = []
  · subst hl; have := h.nil_eq; subst this; rfl
  · have hl' : l' ≠ [] := fun e => hl (by subst e; exact h.eq_nil)
    obtain ⟨a1, a2, _, a4⟩ := (scan_spec l (0, 0) _ rfl (by simp)).2 rfl hl
    obtain ⟨b1, b2, _, b4⟩ := (scan_spec l' (0, 0) _ rfl (by simp)).2 rfl hl'
    have e1 : (l.foldl BufSys.scan (0, 0)).1 = (l'.foldl BufSys.scan (0, 0)).1 := by
      have h1 := a1 _ (h.mem_iff.2 b4)
      have h2 := b1 _ (h.mem_iff.1 a4)
      omega
    apply Prod.ext e1
    rw [a2, b2, e1, h.count_eq]

/-- Two families that differ only in the order in which the set of bodies is iterated over. -/
structure SameSet (s t : BufSys σ) : Prop where
  heap : s.heap = t.heap
  common : s.common = { t.common with bodies := s.common.bodies }
  perm : s.common.bodies.Perm t.common.bodies

theorem SameSet.mk' {c : BufCommon σ} {bs bs' : List Nat} {heap : List BufBody} (h : bs.Perm bs') :
    SameSet (⟨{ c with bodies := bs }, heap⟩ : BufSys σ) ⟨{ c with bodies := bs' }, heap⟩ :=
  ⟨rfl, rfl, h⟩

/-- Normal form of a pair of such families. -/
theorem SameSet.elim {s t : BufSys σ} (h : SameSet s t) : ∃ (c : BufCommon σ) (bs bs' : List Nat) (heap : List BufBody),
    bs.Perm bs' ∧ s = ⟨{ c with bodies := bs }, heap⟩ ∧ t = ⟨{ c with bodies := bs' }, heap⟩ := by
  refine ⟨t.common, s.common.bodies, t.common.bodies, s.heap, h.perm, ?_, ?_⟩
  · cases s; congr 1; exact h.common
  · rw [h.heap]

theorem updateStart_perm (c : BufCommon σ) (bs bs' : List Nat) (heap : List BufBody) (h : bs.Perm bs') :
    (⟨{ c with bodies := bs }, heap⟩ : BufSys σ).updateStart.2 =
      (⟨{ c with bodies := bs' }, heap⟩ : BufSys σ).updateStart.2 ∧
    ∃ c' : BufCommon σ, (⟨{ c with bodies := bs }, heap⟩ : BufSys σ).updateStart.1 = ⟨{ c' with bodies := bs }, heap⟩ ∧
      (⟨{ c with bodies := bs' }, heap⟩ : BufSys σ).updateStart.1 = ⟨{ c' with bodies := bs' }, heap⟩ := by
  have hoff : (⟨{ c with bodies := bs }, heap⟩ : BufSys σ).offsets.Perm
      (⟨{ c with bodies := bs' }, heap⟩ : BufSys σ).offsets := by
    unfold BufSys.offsets
    exact h.filterMap _
  unfold BufSys.updateStart
  simp only [scan_perm hoff]
  generalize List.foldl BufSys.scan (0, 0) _ = r
  by_cases h1 : ¬ r.1 ≥ c.start
  · simp only [h1, not_false_eq_true, if_true]
    exact ⟨trivial, c, rfl, rfl⟩
  · by_cases h2 : ¬ r.2 ≥ 1
    · simp only [h1, h2, not_false_eq_true, if_true, if_false]
      exact ⟨trivial, c, rfl, rfl⟩
    · simp only [h1, h2, if_false]
      cases goSlice c.bytes (r.1 - c.start) c.bytes.length with
      | none => exact ⟨rfl, c, rfl, rfl⟩
      | some b => exact ⟨rfl, { c with bytes := b, start := r.1, refcnt := r.2 }, rfl, rfl⟩

theorem advance_perm (c : BufCommon σ) (bs bs' : List Nat) (heap : List BufBody) (h : bs.Perm bs') (x y : Int) :
    ((⟨{ c with bodies := bs }, heap⟩ : BufSys σ).advance x y).2 =
      ((⟨{ c with bodies := bs' }, heap⟩ : BufSys σ).advance x y).2 ∧
    ∃ c' : BufCommon σ, ((⟨{ c with bodies := bs }, heap⟩ : BufSys σ).advance x y).1 = ⟨{ c' with bodies := bs }, heap⟩ ∧
      ((⟨{ c with bodies := bs' }, heap⟩ : BufSys σ).advance x y).1 = ⟨{ c' with bodies := bs' }, heap⟩ := by
  unfold BufSys.advance
  simp only
  by_cases h1 : ¬ x ≥ c.start
  · simp only [h1, not_false_eq_true, if_true]; exact ⟨trivial, c, rfl, rfl⟩
  · by_cases h2 : ¬ y ≥ x
    · simp only [h1, h2, not_false_eq_true, if_true, if_false]; exact ⟨trivial, c, rfl, rfl⟩
    · by_cases h3 : ¬ c.start + (c.bytes.length : Int) ≥ y
      · simp only [h1, h2, h3, not_false_eq_true, if_true, if_false]; exact ⟨trivial, c, rfl, rfl⟩
      · by_cases h4 : x = c.start ∧ y ≠ c.start
        · by_cases h5 : c.refcnt - 1 ≤ 0
          · rw [if_neg h1, if_neg h1, if_neg h2, if_neg h2, if_neg h3, if_neg h3, if_pos h4, if_pos h4, if_pos h5, if_pos h5]
            exact updateStart_perm { c with refcnt := c.refcnt - 1 } bs bs' heap h
          · rw [if_neg h1, if_neg h1, if_neg h2, if_neg h2, if_neg h3, if_neg h3, if_pos h4, if_pos h4, if_neg h5, if_neg h5]
            exact ⟨rfl, { c with refcnt := c.refcnt - 1 }, rfl, rfl⟩
        · simp only [h1, h2, h3, h4, if_false]; exact ⟨trivial, c, rfl, rfl⟩

theorem readLoop_bodies (R : Rdr σ) (bs : List Nat) : ∀ (fuel : Nat) (c : BufCommon σ) (num : Int),
    BufSys.readLoop R fuel { c with bodies := bs } num =
      ({ (BufSys.readLoop R fuel c num).1 with bodies := bs }, (BufSys.readLoop R fuel c num).2) := by
  intro fuel
  induction fuel with
  | zero =>
    intro c num
    unfold BufSys.readLoop
    by_cases h : num > 0 <;> simp [h]
  | succ fuel ih =>
    intro c num
    by_cases h : num > 0
    · by_cases hR : c.hasR = true
      · generalize hr : R.read c.rdr num.toNat = r
        obtain ⟨st', resp⟩ := r
        rw [readLoop_succ R fuel c num h hR st' resp hr,
          readLoop_succ R fuel { c with bodies := bs } num h hR st' resp hr]
        cases resp with
        | panics p => rfl
        | negative => rfl
        | got d err =>
          simp only
          by_cases hd : ¬ (d.length : Int) ≤ num
          · simp only [hd, not_false_eq_true, if_true]
          · simp only [hd, if_false]
            cases err with
            | some e => rfl
            | none => exact ih { c with rdr := st', bytes := c.bytes ++ d } _
      · rw [BufSys.readLoop, BufSys.readLoop]
        simp [h, hR]
    · rw [readLoop_done _ _ _ _ h, readLoop_done _ _ _ _ h]

theorem fill_bodies (R : Rdr σ) (fuel : Nat) (c : BufCommon σ) (bs : List Nat) (e : Int) :
    BufSys.fill R fuel { c with bodies := bs } e =
      ({ (BufSys.fill R fuel c e).1 with bodies := bs }, (BufSys.fill R fuel c e).2) := by
  unfold BufSys.fill
  simp only [readLoop_bodies]
  by_cases h1 : c.err = none ∧ e > c.start + (c.bytes.length : Int)
  · rw [if_pos h1, if_pos h1]
    by_cases h2 : c.length ≥ 0 ∧ ¬ c.start + (c.bytes.length : Int) ≤ c.length
    · rw [if_pos h2, if_pos h2]
    · rw [if_neg h2, if_neg h2]
      generalize BufSys.readLoop R fuel c _ = rl
      cases rl.2 with
      | some o => rfl
      | none =>
        simp only
        split <;> rfl
  · rw [if_neg h1, if_neg h1]

theorem finishRead_perm (c : BufCommon σ) (bs bs' : List Nat) (heap : List BufBody) (hp : bs.Perm bs')
    (h : Nat) (b : BufBody) (k : Nat) :
    ((⟨{ c with bodies := bs }, heap⟩ : BufSys σ).finishRead h b k).2 =
      ((⟨{ c with bodies := bs' }, heap⟩ : BufSys σ).finishRead h b k).2 ∧
    SameSet ((⟨{ c with bodies := bs }, heap⟩ : BufSys σ).finishRead h b k).1
      ((⟨{ c with bodies := bs' }, heap⟩ : BufSys σ).finishRead h b k).1 := by
  unfold BufSys.finishRead
  simp only
  generalize (if decide (b.offset + ↑k > c.start + ↑c.bytes.length) = true then c.start + ↑c.bytes.length
    else b.offset + ↑k : Int) = eo
  generalize goSlice (List.replicate k (0 : Byte)) 0 _ = g1
  generalize goSlice c.bytes _ _ = g2
  cases g1 with
  | none => exact ⟨rfl, SameSet.mk' hp⟩
  | some x =>
    cases g2 with
    | none => exact ⟨rfl, SameSet.mk' hp⟩
    | some d =>
      simp only
      generalize (heap.set h _).set h _ = heap'
      obtain ⟨q1, c', q2, q3⟩ := advance_perm c bs bs' heap' hp b.offset eo
      rw [q1, q2, q3]
      cases ((⟨{ c with bodies := bs' }, heap'⟩ : BufSys σ).advance b.offset eo).2 with
      | some p => exact ⟨rfl, SameSet.mk' hp⟩
      | none => exact ⟨rfl, SameSet.mk' hp⟩

/-- No call's result depends on the iteration order, and the families stay the same but for it. -/
theorem step_perm (R : Rdr σ) (fuel : Nat) {s t : BufSys σ} (h : SameSet s t) (op : Op) :
    (s.step R fuel op).2 = (t.step R fuel op).2 ∧ SameSet (s.step R fuel op).1 (t.step R fuel op).1 := by
  obtain ⟨c, bs, bs', heap, hp, rfl, rfl⟩ := h.elim
  unfold BufSys.step
  simp only
  cases hb : heap[op.h]? with
  | none => exact ⟨rfl, h⟩
  | some b =>
    simp only
    cases op with
    | read h' k =>
      simp only [BufSys.read, fill_bodies]
      by_cases h1 : b.closed = true
      · rw [if_pos h1, if_pos h1]; exact ⟨rfl, h⟩
      · rw [if_neg h1, if_neg h1]
        by_cases h2 : b.eof = true
        · rw [if_pos h2, if_pos h2]; exact ⟨rfl, h⟩
        · rw [if_neg h2, if_neg h2]
          by_cases h3 : ¬ b.offset ≥ c.start
          · rw [if_pos h3, if_pos h3]; exact ⟨rfl, h⟩
          · rw [if_neg h3, if_neg h3]
            generalize BufSys.fill R fuel c _ = fr
            cases fr.2 with
            | some o => exact ⟨rfl, SameSet.mk' hp⟩
            | none => exact finishRead_perm fr.1 bs bs' heap hp h' b k
    | remaining h' => exact ⟨rfl, h⟩
    | copy h' =>
      simp only [BufSys.copy]
      by_cases h1 : b.closed = true
      · rw [if_pos h1, if_pos h1]; exact ⟨rfl, h⟩
      · rw [if_neg h1, if_neg h1]
        by_cases h0 : (!c.hasR) = true
        · rw [if_pos h0, if_pos h0]; exact ⟨rfl, h⟩
        rw [if_neg h0, if_neg h0]
        simp only [BufSys.ref]
        refine ⟨trivial, ?_⟩
        have hp' : (if heap.length ∈ bs then bs else bs ++ [heap.length]).Perm
            (if heap.length ∈ bs' then bs' else bs' ++ [heap.length]) := by
          by_cases hm : heap.length ∈ bs
          · rw [if_pos hm, if_pos (hp.mem_iff.1 hm)]; exact hp
          · rw [if_neg hm, if_neg (fun x => hm (hp.mem_iff.2 x))]; exact hp.append_right _
        by_cases h2 : b.offset = c.start
        · simp only [h2, if_true]; exact SameSet.mk' (c := { c with refcnt := c.refcnt + 1 }) hp'
        · simp only [h2, if_false]; exact SameSet.mk' hp'
    | close h' =>
      simp only [BufSys.close]
      by_cases h1 : b.closed = true
      · rw [if_pos h1, if_pos h1]; exact ⟨rfl, h⟩
      · rw [if_neg h1, if_neg h1]
        have hpf : (bs.filter (· ≠ h')).Perm (bs'.filter (· ≠ h')) := hp.filter _
        have key : ((⟨{ c with bodies := bs }, heap⟩ : BufSys σ).unref R h' b).2 =
            ((⟨{ c with bodies := bs' }, heap⟩ : BufSys σ).unref R h' b).2 ∧
            SameSet ((⟨{ c with bodies := bs }, heap⟩ : BufSys σ).unref R h' b).1
              ((⟨{ c with bodies := bs' }, heap⟩ : BufSys σ).unref R h' b).1 := by
          simp only [BufSys.unref, hpf.length_eq]
          by_cases g1 : (bs'.filter (· ≠ h')).length > 0
          · rw [if_pos g1, if_pos g1]
            by_cases g2 : b.offset = c.start
            · rw [if_pos g2, if_pos g2]
              by_cases g3 : c.refcnt - 1 ≤ 0
              · rw [if_pos g3, if_pos g3]
                obtain ⟨q1, c', q2, q3⟩ := updateStart_perm { c with refcnt := c.refcnt - 1 } _ _ heap hpf
                simp only at q1 q2 q3 ⊢
                rw [q1, q2, q3]
                exact ⟨rfl, SameSet.mk' hpf⟩
              · rw [if_neg g3, if_neg g3]
                exact ⟨rfl, SameSet.mk' (c := { c with refcnt := c.refcnt - 1 }) hpf⟩
            · rw [if_neg g2, if_neg g2]
              exact ⟨rfl, SameSet.mk' hpf⟩
          · rw [if_neg g1, if_neg g1]
            by_cases g2 : (c.hasR && R.isCloser) = true
            · rw [if_pos g2]; exact ⟨rfl, rfl, rfl, List.Perm.refl _⟩
            · rw [if_neg g2]; exact ⟨rfl, rfl, rfl, List.Perm.refl _⟩
        obtain ⟨k1, k2⟩ := key
        rw [k1]
        split
        · exact ⟨rfl, k2⟩
        · refine ⟨rfl, ?_⟩
          simp only
          exact ⟨by show _ = _; simp only [k2.heap], k2.common, k2.perm⟩
    | unwrap h' => exact ⟨rfl, h⟩
    | readAt h' k off => exact ⟨rfl, h⟩
    | seek h' off wh => exact ⟨rfl, h⟩
    | writeTo h' w => exact ⟨rfl, h⟩

/-! ## The log -/

/-- Forget the log. -/
def BufCommon.erase (c : BufCommon (Rec σ)) : BufCommon σ :=
  ⟨c.hasR, c.rdr.inner, c.err, c.bodies, c.bytes, c.length, c.start, c.refcnt⟩

/-- Forget the log. -/
def BufSys.erase (s : BufSys (Rec σ)) : BufSys σ := ⟨s.common.erase, s.heap⟩

theorem updateStart_erase (s : BufSys (Rec σ)) :
    s.erase.updateStart = (s.updateStart.1.erase, s.updateStart.2) := by
  unfold BufSys.updateStart
  have : s.erase.offsets = s.offsets := rfl
  simp only [this]
  generalize List.foldl BufSys.scan (0, 0) _ = r
  have h1 : s.erase.common.start = s.common.start := rfl
  have h2 : s.erase.common.bytes = s.common.bytes := rfl
  rw [h1, h2]
  split
  · rfl
  · split
    · rfl
    · split <;> rfl

theorem advance_erase (s : BufSys (Rec σ)) (x y : Int) :
    s.erase.advance x y = ((s.advance x y).1.erase, (s.advance x y).2) := by
  unfold BufSys.advance
  simp only
  have h1 : s.erase.common.start = s.common.start := rfl
  have h2 : s.erase.common.bytes = s.common.bytes := rfl
  have h3 : s.erase.common.refcnt = s.common.refcnt := rfl
  simp only [h1, h2, h3]
  split
  · rfl
  · split
    · rfl
    · split
      · rfl
      · split
        · split
          · exact updateStart_erase { s with common := { s.common with refcnt := s.common.refcnt - 1 } }
          · rfl
        · rfl

theorem readLoop_erase (R : Rdr σ) : ∀ (fuel : Nat) (c : BufCommon (Rec σ)) (num : Int),
    BufSys.readLoop R fuel c.erase num =
      ((BufSys.readLoop R.record fuel c num).1.erase, (BufSys.readLoop R.record fuel c num).2) := by
  intro fuel
  induction fuel with
  | zero =>
    intro c num
    unfold BufSys.readLoop
    by_cases h : num > 0 <;> simp [h]
  | succ fuel ih =>
    intro c num
    by_cases h : num > 0
    · by_cases hR : c.hasR = true
      · generalize hr : R.read c.rdr.inner num.toNat = r
        obtain ⟨st', resp⟩ := r
        have hr2 : R.record.read c.rdr num.toNat = (⟨st', c.rdr.log ++ [.read num.toNat resp]⟩, resp) := by
          show ((⟨(R.read c.rdr.inner num.toNat).1, c.rdr.log ++ [.read num.toNat (R.read c.rdr.inner num.toNat).2]⟩ : Rec σ),
            (R.read c.rdr.inner num.toNat).2) = _
          rw [hr]
        rw [readLoop_succ R fuel c.erase num h hR st' resp hr,
          readLoop_succ R.record fuel c num h hR _ resp hr2]
        cases resp with
        | panics p => rfl
        | negative => rfl
        | got d err =>
          simp only
          by_cases hd : ¬ (d.length : Int) ≤ num
          · simp only [hd, not_false_eq_true, if_true]; rfl
          · simp only [hd, if_false]
            cases err with
            | some e => rfl
            | none => exact ih { c with rdr := ⟨st', c.rdr.log ++ [.read num.toNat (.got d none)]⟩, bytes := c.bytes ++ d } _
      · rw [BufSys.readLoop, BufSys.readLoop]
        have : c.erase.hasR = c.hasR := rfl
        simp [h, hR, this]
    · rw [readLoop_done _ _ _ _ h, readLoop_done _ _ _ _ h]

theorem fill_erase (R : Rdr σ) (fuel : Nat) (c : BufCommon (Rec σ)) (e : Int) :
    BufSys.fill R fuel c.erase e = ((BufSys.fill R.record fuel c e).1.erase, (BufSys.fill R.record fuel c e).2) := by
  unfold BufSys.fill
  have h1 : c.erase.start = c.start := rfl
  have h2 : c.erase.bytes = c.bytes := rfl
  have h3 : c.erase.length = c.length := rfl
  have h4 : c.erase.err = c.err := rfl
  simp only [readLoop_erase, h1, h2, h3, h4]
  by_cases h1 : c.err = none ∧ e > c.start + (c.bytes.length : Int)
  · simp only [h1, and_self, if_true]
    by_cases h2 : c.length ≥ 0 ∧ ¬ c.start + (c.bytes.length : Int) ≤ c.length
    · rw [if_pos h2, if_pos h2]
    · rw [if_neg h2, if_neg h2]
      generalize BufSys.readLoop R.record fuel c _ = rl
      cases rl.2 with
      | some o => rfl
      | none =>
        simp only
        have : rl.1.erase.err = rl.1.err := rfl
        rw [this]
        split <;> rfl
  · rw [if_neg h1, if_neg h1]

theorem finishRead_erase (s : BufSys (Rec σ)) (h : Nat) (b : BufBody) (k : Nat) :
    s.erase.finishRead h b k = ((s.finishRead h b k).1.erase, (s.finishRead h b k).2) := by
  unfold BufSys.finishRead
  have h1 : s.erase.common = s.common.erase := rfl
  have h2 : s.common.erase.start = s.common.start := rfl
  have h3 : s.common.erase.bytes = s.common.bytes := rfl
  have h4 : s.erase.heap = s.heap := rfl
  have h5 : s.common.erase.err = s.common.err := rfl
  simp only [h1, h2, h3, h4, h5]
  have hadv := fun hp x y => advance_erase (⟨s.common, hp⟩ : BufSys (Rec σ)) x y
  simp only [BufSys.erase] at hadv
  simp only [hadv]
  split
  · split <;> rfl
  · rfl

theorem step_erase (R : Rdr σ) (fuel : Nat) (s : BufSys (Rec σ)) (op : Op) :
    s.erase.step R fuel op = ((s.step R.record fuel op).1.erase, (s.step R.record fuel op).2) := by
  unfold BufSys.step
  have hh : s.erase.heap = s.heap := rfl
  rw [hh]
  cases hb : s.heap[op.h]? with
  | none => rfl
  | some b =>
    cases op with
    | read h k =>
      simp only [BufSys.read]
      have h1 : s.erase.common = s.common.erase := rfl
      have h2 : s.common.erase.start = s.common.start := rfl
      have h5 : s.common.erase.err = s.common.err := rfl
      simp only [h1, h2, h5, fill_erase]
      by_cases g1 : b.closed = true
      · rw [if_pos g1, if_pos g1]
      · rw [if_neg g1, if_neg g1]
        by_cases g2 : b.eof = true
        · rw [if_pos g2, if_pos g2]
        · rw [if_neg g2, if_neg g2]
          by_cases g3 : ¬ b.offset ≥ s.common.start
          · rw [if_pos g3, if_pos g3]
          · rw [if_neg g3, if_neg g3]
            generalize BufSys.fill R.record fuel s.common _ = fr
            cases fr.2 with
            | some o => rfl
            | none => exact finishRead_erase { s with common := fr.1 } h b k
    | remaining h => rfl
    | copy h =>
      simp only [BufSys.copy]
      by_cases g1 : b.closed = true
      · rw [if_pos g1, if_pos g1]
      · rw [if_neg g1, if_neg g1]
        unfold BufSys.ref
        have h1 : s.erase.common = s.common.erase := rfl
        have h2 : s.common.erase.start = s.common.start := rfl
        have h3 : s.common.erase.hasR = s.common.hasR := rfl
        simp only [h1, h2, h3, hh]
        by_cases g0 : (!s.common.hasR) = true
        · rw [if_pos g0, if_pos g0]
        rw [if_neg g0, if_neg g0]
        by_cases g2 : b.offset = s.common.start
        · simp only [g2, if_true]; rfl
        · simp only [g2, if_false]; rfl
    | close h =>
      simp only [BufSys.close]
      by_cases g1 : b.closed = true
      · rw [if_pos g1, if_pos g1]
      · rw [if_neg g1, if_neg g1]
        have key : BufSys.unref R s.erase h b = ((BufSys.unref R.record s h b).1.erase, (BufSys.unref R.record s h b).2) := by
          unfold BufSys.unref
          have h1 : s.erase.common = s.common.erase := rfl
          have h2 : s.common.erase.start = s.common.start := rfl
          have h3 : s.common.erase.bodies = s.common.bodies := rfl
          have h4 : s.common.erase.refcnt = s.common.refcnt := rfl
          have h5 : s.common.erase.hasR = s.common.hasR := rfl
          have h6 : R.record.isCloser = R.isCloser := rfl
          simp only [h1, h2, h3, h4, h5, h6]
          split
          · split
            · split
              · have := updateStart_erase { s with common := { s.common with
                    bodies := s.common.bodies.filter (· ≠ h), refcnt := s.common.refcnt - 1 } }
                simp only [BufSys.erase, BufCommon.erase] at this ⊢
                rw [this]
              · rfl
            · rfl
          · split
            · have k1 : (R.record.close s.common.rdr).2 = (R.close s.common.erase.rdr).2 := rfl
              rw [k1]
              cases (R.close s.common.erase.rdr).2 <;> rfl
            · rfl
        rw [key]
        simp only
        split <;> rfl
    | unwrap h => rfl
    | readAt h k off => rfl
    | seek h off wh => rfl
    | writeTo h w => rfl

/-- Keeping a log changes nothing. -/
theorem run_erase (R : Rdr σ) (fuel : Nat) (ops : List Op) : ∀ (s : BufSys (Rec σ)),
    run (BufSys.step R fuel) s.erase ops =
      ((run (BufSys.step R.record fuel) s ops).1.erase, (run (BufSys.step R.record fuel) s ops).2) := by
  induction ops with
  | nil => intro s; rfl
  | cons op ops ih =>
    intro s
    rw [run_cons, run_cons]
    rw [step_erase]
    simp only
    rw [ih]

end Verif
