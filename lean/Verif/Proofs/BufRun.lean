import Verif.Proofs.BufSim

/-! # Histories of stream-backed families -/

set_option linter.unusedSimpArgs false

set_option autoImplicit false

namespace Verif
open Spec

variable {σ : Type}

/-! ## Logs only grow, and stop growing once the stream is over -/

theorem term_append_silent {L : Int} {log ext : List Call} (h1 : obtained ext = []) (h2 : ended ext = none) :
    term L (log ++ ext) = term L log := by
  simp [term, ended_append, obtained_append, h1, h2]

theorem pre_of_later {L : Int} {C : List Byte} {fin : Err} {log ext : List Call}
    (hm : term L log = none ∨ (obtained ext = [] ∧ ended ext = none)) (hp : Pre L C fin (log ++ ext)) :
    Pre L C fin log := by
  refine ⟨List.IsPrefix.trans (by rw [obtained_append]; exact List.prefix_append _ _) hp.1, ?_⟩
  intro e he
  rcases hm with h | ⟨h1, h2⟩
  · rw [h] at he; cases he
  · obtain ⟨q1, q2⟩ := hp.2 e (by rw [term_append_silent h1 h2]; exact he)
    refine ⟨?_, q2⟩
    rw [obtained_append, h1] at q1
    simpa using q1

theorem run_mono (R : Rdr σ) [R.CloseOk] (fuel : Nat) (L : Int) (ops : List Op) : ∀ (s : BufSys (Rec σ)), WInv L s →
    (∀ op ∈ ops, op.Small) →
    WInv L (run (BufSys.step R.record fuel) s ops).1 ∧
    ∃ ext, (run (BufSys.step R.record fuel) s ops).1.common.rdr.log = s.common.rdr.log ++ ext ∧
      (term L s.common.rdr.log = none ∨ (obtained ext = [] ∧ ended ext = none)) := by
  induction ops with
  | nil => intro s hw _; exact ⟨hw, [], by simp [run_nil], .inr ⟨rfl, rfl⟩⟩
  | cons op ops ih =>
    intro s hw hok
    obtain ⟨e1, S⟩ := buf_step R fuel L s hw op (hok op (by simp))
    obtain ⟨hw', e2, h2, h3⟩ := ih (s.step R.record fuel op).1 S.inv (fun o ho => hok o (by simp [ho]))
    refine ⟨by rw [run_cons]; exact hw', e1 ++ e2, ?_, ?_⟩
    · rw [run_cons]; simp only; rw [h2, S.log, List.append_assoc]
    · rcases S.mono with h | ⟨h4, h5⟩
      · exact .inl h
      · rw [S.log, term_append_silent h4 h5] at h3
        rcases h3 with h | ⟨h6, h7⟩
        · exact .inl h
        · exact .inr ⟨by rw [obtained_append, h4, h6]; rfl, by rw [ended_append, h5, h7]; rfl⟩

/-! ## The simulation -/

theorem sim_run (R : Rdr σ) [R.CloseOk] (fuel : Nat) (L : Int) (C : List Byte) (fin : Err) (ops : List Op) :
    ∀ (s : BufSys (Rec σ)) (f : List Cursor), WInv L s → Pw (BRel C) s.heap f →
    (∀ op ∈ ops, op.Small) → Out.hang ∉ (run (BufSys.step R.record fuel) s ops).2 →
    Pre L C fin (run (BufSys.step R.record fuel) s ops).1.common.rdr.log →
    ∃ chs : List Choice, chs.length = ops.length ∧
      (∀ i ch, chs[i]? = some ch →
        Explained L (run (BufSys.step R.record fuel) s (ops.take i)).1.common.rdr.log
          (run (BufSys.step R.record fuel) s (ops.take (i + 1))).1.common.rdr.log ch) ∧
      (run (BufSys.step R.record fuel) s ops).2 = (Spec.run (streamCfg L fin) f (chs.zip ops)).2 ∧
      Pw (BRel C) (run (BufSys.step R.record fuel) s ops).1.heap
        (Spec.run (streamCfg L fin) f (chs.zip ops)).1 := by
  induction ops with
  | nil => intro s f hw hf _ _ _; exact ⟨[], rfl, by simp, rfl, hf⟩
  | cons op ops ih =>
    intro s f hw hf hok hh hp
    obtain ⟨e1, S⟩ := buf_step R fuel L s hw op (hok op (by simp))
    have hok' : ∀ o ∈ ops, o.Small := fun o ho => hok o (by simp [ho])
    rw [run_cons] at hh hp
    simp only [List.mem_cons, not_or] at hh
    obtain ⟨hw', e2, h2, h3⟩ := run_mono R fuel L ops (s.step R.record fuel op).1 S.inv hok'
    simp only at hp
    have hp1 : Pre L C fin (s.step R.record fuel op).1.common.rdr.log :=
      pre_of_later h3 (by rw [← h2]; exact hp)
    obtain ⟨ch, hex, ho, hf'⟩ := S.sim C fin f hf hp1 (fun h => hh.1 h.symm)
    obtain ⟨chs, c1, c2, c3, c4⟩ := ih _ _ S.inv hf' hok' hh.2 hp
    refine ⟨ch :: chs, by simp [c1], ?_, ?_, ?_⟩
    · intro i c hc
      cases i with
      | zero =>
        simp at hc; subst hc
        simpa [run_nil, run_cons] using hex
      | succ i =>
        have := c2 i c (by simpa using hc)
        simpa [run_cons] using this
    · rw [run_cons, List.zip_cons_cons]
      simp only [Spec.run]
      rw [← ho, c3]
    · rw [run_cons, List.zip_cons_cons]
      simp only [Spec.run]
      exact c4

theorem init_rel (st : σ) (L : Int) (C : List Byte) :
    Pw (BRel C) (BufSys.init (⟨st, []⟩ : Rec σ) L).heap [{ content := C }] := by
  unfold BufSys.init BufSys.ref
  exact Pw.single ⟨rfl, rfl, fun _ => rfl, fun _ => rfl⟩

/-- The log a history leaves is its own completion. -/
theorem pre_self (L : Int) (log : List Call) : Pre L (obtained log) ((term L log).getD .eof) log := by
  refine ⟨List.prefix_refl _, ?_⟩
  intro e he
  simp [he]

/-! ## The retained window -/

theorem filter_open_map {C : List Byte} {s : List BufBody} {f : List Cursor} (h : Pw (BRel C) s f) :
    (s.filter (fun b => !b.closed)).map (·.offset) = (f.filter (·.isOpen)).map (fun c => (c.pos : Int)) := by
  obtain ⟨hl, hp⟩ := h
  induction s generalizing f with
  | nil => cases f with
    | nil => rfl
    | cons c f => simp at hl
  | cons b s ih => cases f with
    | nil => simp at hl
    | cons c f =>
      have h0 := hp 0 b c (by simp) (by simp)
      have := ih (f := f) (by simpa using hl) (fun i a b' ha hb => hp (i + 1) a b' (by simpa using ha) (by simpa using hb))
      rw [List.filter_cons, List.filter_cons, h0.opn]
      cases hcl : b.closed with
      | true => simpa using this
      | false => simp [h0.pos hcl]; simpa using this

theorem window_eq {C : List Byte} {L : Int} {s : BufSys (Rec σ)} {f : List Cursor} (hw : WInv L s)
    (hf : Pw (BRel C) s.heap f) : s.common.bytes = window (obt s) f := by
  unfold window
  cases hm : ((f.filter (·.isOpen)).map (·.pos)).min? with
  | none =>
    simp only
    rw [List.min?_eq_none_iff] at hm
    have hnil : f.filter (·.isOpen) = [] := by simpa using hm
    have h1 := filter_open_map hf
    rw [hnil] at h1
    have h2 : s.heap.filter (fun b => !b.closed) = [] := by simpa using h1
    have : ∀ b ∈ s.heap, b.closed = true := by
      intro b hb
      have := List.filter_eq_nil_iff.1 h2 b hb
      simpa using this
    exact (hw.dead this).2.1
  | some m =>
    simp only
    rw [List.min?_eq_some_iff] at hm
    obtain ⟨hm1, hm2⟩ := hm
    have h1 := filter_open_map hf
    have hmem : ∀ x : Int, x ∈ (s.heap.filter (fun b => !b.closed)).map (·.offset) ↔
        ∃ p : Nat, p ∈ (f.filter (·.isOpen)).map (·.pos) ∧ (p : Int) = x := by
      intro x; rw [h1]; simp only [List.mem_map]
      constructor
      · rintro ⟨c, hc, rfl⟩; exact ⟨c.pos, ⟨c, hc, rfl⟩, rfl⟩
      · rintro ⟨p, ⟨c, hc, rfl⟩, rfl⟩; exact ⟨c, hc, rfl⟩
    obtain ⟨b, hb, hbo⟩ := List.mem_map.1 ((hmem m).2 ⟨m, hm1, rfl⟩)
    obtain ⟨hb1, hb2⟩ := List.mem_filter.1 hb
    have hcl : b.closed = false := by simpa using hb2
    have ha := hw.alive ⟨b, hb1, hcl⟩
    have hcnt : 0 < s.heap.countP (atPos s.common.start) := by
      have h3 := ha.cnt; have h4 := ha.pos; omega
    obtain ⟨b', hb', hat⟩ := List.countP_pos_iff.1 hcnt
    have hat' : b'.closed = false ∧ b'.offset = s.common.start := by simpa [atPos] using hat
    obtain ⟨p, hp1, hp2⟩ := (hmem b'.offset).1 (List.mem_map.2 ⟨b', List.mem_filter.2 ⟨hb', by simp [hat'.1]⟩, rfl⟩)
    have := hm2 p hp1
    have hle := (ha.core.offs b hb1 hcl).1
    have hst : s.common.start.toNat = m := by omega
    rw [ha.core.bytes, hst]

/-! ## Closing -/

/-- The reader is closed iff all bodies are. -/
def CloseInv (R : Rdr σ) (s : BufSys (Rec σ)) : Prop :=
  (AnyOpen s → closes s.common.rdr.log = []) ∧
  (¬ AnyOpen s → (closes s.common.rdr.log).length = if R.isCloser then 1 else 0)

theorem closeInv_step {R : Rdr σ} {L : Int} {s : BufSys (Rec σ)} {op : Op} {r : BufSys (Rec σ) × Out}
    {ext : List Call} (S : StepRes R L s op r ext) (h : CloseInv R s) : CloseInv R r.1 := by
  unfold CloseInv at *
  rw [S.log, closes_append]
  rcases S.cls with ⟨h1, h2⟩ | ⟨h1, h2, h3⟩
  · rw [h1, ← h2]; simpa using h
  · refine ⟨fun h' => absurd h' h2, fun _ => ?_⟩
    rw [h.1 h1]
    rcases h3 with ⟨h4, e, rfl, _⟩ | ⟨h4, rfl, _⟩
    · simp [closes, h4]
    · simp [closes, h4]

theorem closeInv_init (R : Rdr σ) (st : σ) (L : Int) : CloseInv R (BufSys.init (⟨st, []⟩ : Rec σ) L) := by
  unfold BufSys.init BufSys.ref
  refine ⟨fun _ => rfl, fun h => ?_⟩
  exact absurd ⟨{}, by simp, rfl⟩ h

theorem closeInv_run (R : Rdr σ) [R.CloseOk] (fuel : Nat) (L : Int) (ops : List Op) : ∀ (s : BufSys (Rec σ)), WInv L s →
    (∀ op ∈ ops, op.Small) → CloseInv R s → CloseInv R (run (BufSys.step R.record fuel) s ops).1 := by
  induction ops with
  | nil => intro s _ _ h; exact h
  | cons op ops ih =>
    intro s hw hok h
    obtain ⟨e1, S⟩ := buf_step R fuel L s hw op (hok op (by simp))
    rw [run_cons]
    exact ih _ S.inv (fun o ho => hok o (by simp [ho])) (closeInv_step S h)

theorem anyOpen_iff {C : List Byte} {s : BufSys (Rec σ)} {f : List Cursor} (h : Pw (BRel C) s.heap f) :
    AnyOpen s ↔ 0 < openCount f := by
  rw [openCount_eq h, List.countP_pos_iff]
  unfold AnyOpen
  simp

/-! ## Readers that are streams -/

theorem readLoop_pred (R : Rdr σ) (P : Rec σ → Prop)
    (hP : ∀ rc n, 0 < n → ended rc.log = none → closes rc.log = [] → P rc → P (R.record.read rc n).1) :
    ∀ (fuel : Nat) (c : BufCommon (Rec σ)) (num : Int), ended c.rdr.log = none → closes c.rdr.log = [] → P c.rdr →
      P (BufSys.readLoop R.record fuel c num).1.rdr := by
  intro fuel
  induction fuel with
  | zero =>
    intro c num he hcz hp
    unfold BufSys.readLoop
    split <;> exact hp
  | succ fuel ih =>
    intro c num he hcz hp
    unfold BufSys.readLoop
    split
    · exact hp
    · rename_i hn
      simp only
      split
      · exact hp
      · have h1 := hP c.rdr num.toNat (by omega) he hcz hp
        split
        · exact h1
        · exact h1
        · rename_i d err hr
          split
          · exact h1
          · split
            · exact h1
            · have : (R.record.read c.rdr num.toNat).1.log = c.rdr.log ++ [.read num.toNat (.got d none)] := by
                  show c.rdr.log ++ [.read num.toNat (R.read c.rdr.inner num.toNat).2] = _
                  have : (R.read c.rdr.inner num.toNat).2 = .got d none := hr
                  rw [this]
              apply ih
              · simp only
                rw [this, ended_append, he]; rfl
              · simp only
                rw [this, closes_append, hcz]; rfl
              · exact h1

theorem updateStart_rdr (s : BufSys σ) : s.updateStart.1.common.rdr = s.common.rdr := by
  unfold BufSys.updateStart
  simp only
  split
  · rfl
  · split
    · rfl
    · split <;> rfl

theorem advance_rdr (s : BufSys σ) (a b : Int) : (s.advance a b).1.common.rdr = s.common.rdr := by
  unfold BufSys.advance
  simp only
  split
  · rfl
  · split
    · rfl
    · split
      · rfl
      · split
        · split
          · rw [updateStart_rdr]
          · rfl
        · rfl

theorem finishRead_rdr (s : BufSys σ) (h : Nat) (b : BufBody) (k : Nat) :
    (s.finishRead h b k).1.common.rdr = s.common.rdr := by
  unfold BufSys.finishRead
  simp only
  split
  · split <;> rw [advance_rdr]
  · rfl

theorem fill_pred (R : Rdr σ) (P : Rec σ → Prop)
    (hP : ∀ rc n, 0 < n → ended rc.log = none → closes rc.log = [] → P rc → P (R.record.read rc n).1) (fuel : Nat)
    (c : BufCommon (Rec σ)) (e : Int) (he : c.err = none → ended c.rdr.log = none)
    (hcz : closes c.rdr.log = []) (hp : P c.rdr) :
    P (BufSys.fill R.record fuel c e).1.rdr := by
  unfold BufSys.fill
  simp only
  split
  · rename_i hc
    split
    · exact hp
    · have := readLoop_pred R P hP fuel c
        (if decide (c.length ≥ 0 ∧ BufSys.roundUp (e - (c.start + ↑c.bytes.length)) ≥ c.length - (c.start + ↑c.bytes.length)) = true
          then c.length - (c.start + ↑c.bytes.length) else BufSys.roundUp (e - (c.start + ↑c.bytes.length))) (he hc.1) hcz hp
      generalize BufSys.readLoop R.record fuel c _ = rl at this ⊢
      split
      · exact this
      · split <;> exact this
  · exact hp

theorem step_pred (R : Rdr σ) (P : Rec σ → Prop)
    (hP : ∀ rc n, 0 < n → ended rc.log = none → closes rc.log = [] → P rc → P (R.record.read rc n).1)
    (hC : ∀ rc, P rc → P (R.record.close rc).1) (fuel : Nat) (L : Int) (s : BufSys (Rec σ)) (hw : WInv L s)
    (hci : CloseInv R s) (op : Op) (hp : P s.common.rdr) : P (s.step R.record fuel op).1.common.rdr := by
  unfold BufSys.step
  split
  · exact hp
  · rename_i b hb
    split
    · rename_i h k
      unfold BufSys.read
      split
      · exact hp
      · rename_i hcl
        have hcl : b.closed = false := by simpa using hcl
        have ha := hw.alive ⟨b, List.mem_of_getElem? hb, hcl⟩
        split
        · exact hp
        · split
          · exact hp
          · have := fill_pred R P hP fuel s.common (b.offset + k) (fun he => (ha.core.live he).2)
              (hci.1 ⟨b, List.mem_of_getElem? hb, hcl⟩) hp
            simp only
            split
            · exact this
            · rw [finishRead_rdr]; exact this
    · exact hp
    · unfold BufSys.copy BufSys.ref
      split
      · exact hp
      · split
        · exact hp
        · simp only
          split <;> exact hp
    · rename_i h
      unfold BufSys.close
      split
      · exact hp
      · have : P (BufSys.unref R.record s h b).1.common.rdr := by
          unfold BufSys.unref
          simp only
          split
          · split
            · split
              · rw [updateStart_rdr]; exact hp
              · exact hp
            · exact hp
          · split
            · split <;> exact hC _ hp
            · exact hp
        simp only
        split <;> exact this
    all_goals exact hp

theorem pred_run (R : Rdr σ) [R.CloseOk] (P : Rec σ → Prop)
    (hP : ∀ rc n, 0 < n → ended rc.log = none → closes rc.log = [] → P rc → P (R.record.read rc n).1)
    (hC : ∀ rc, P rc → P (R.record.close rc).1) (fuel : Nat) (L : Int) (ops : List Op) :
    ∀ (s : BufSys (Rec σ)), WInv L s → (∀ op ∈ ops, op.Small) → CloseInv R s → P s.common.rdr →
      P (run (BufSys.step R.record fuel) s ops).1.common.rdr := by
  induction ops with
  | nil => intro s _ _ _ h; exact h
  | cons op ops ih =>
    intro s hw hok hci h
    obtain ⟨e1, S⟩ := buf_step R fuel L s hw op (hok op (by simp))
    rw [run_cons]
    exact ih _ S.inv (fun o ho => hok o (by simp [ho])) (closeInv_step S hci)
      (step_pred R P hP hC fuel L s hw hci op h)

theorem obtained_no_read {ext : List Call} (h : ∀ n a, Call.read n a ∉ ext) : obtained ext = [] := by
  induction ext with
  | nil => rfl
  | cons c ext ih =>
    have ih := ih (fun n a hm => h n a (by simp [hm]))
    cases c with
    | read n a => exact absurd (by simp) (h n a)
    | _ => simpa [obtained] using ih

/-- Never more than the declared length is obtained. -/
theorem within_step {R : Rdr σ} {L : Int} {s : BufSys (Rec σ)} {op : Op} {r : BufSys (Rec σ) × Out}
    {ext : List Call} (S : StepRes R L s op r ext)
    (h : 0 ≤ L → ((obtained s.common.rdr.log).length : Int) ≤ L) :
    0 ≤ L → ((obtained r.1.common.rdr.log).length : Int) ≤ L := by
  intro hL
  by_cases ho : AnyOpen r.1
  · exact (S.inv.alive ho).core.within hL
  · have : obtained ext = [] := by
      apply obtained_no_read
      intro n a hm
      rcases S.cls with ⟨_, h2⟩ | ⟨_, _, h3⟩
      · obtain ⟨pre, post, he⟩ := List.append_of_mem hm
        obtain ⟨_, _, b, _, hb, hcl, _⟩ := S.reqs pre n a post he
        exact ho (h2.1 ⟨b, List.mem_of_getElem? hb, hcl⟩)
      · rcases h3 with ⟨_, e, rfl, _⟩ | ⟨_, rfl, _⟩
        · simp at hm
        · simp at hm
    rw [S.log, obtained_append, this]
    simpa using h hL

theorem within_run (R : Rdr σ) [R.CloseOk] (fuel : Nat) (L : Int) (ops : List Op) : ∀ (s : BufSys (Rec σ)), WInv L s →
    (∀ op ∈ ops, op.Small) → (0 ≤ L → ((obtained s.common.rdr.log).length : Int) ≤ L) → 0 ≤ L →
    ((obtained (run (BufSys.step R.record fuel) s ops).1.common.rdr.log).length : Int) ≤ L := by
  induction ops with
  | nil => intro s _ _ h; exact h
  | cons op ops ih =>
    intro s hw hok h
    obtain ⟨e1, S⟩ := buf_step R fuel L s hw op (hok op (by simp))
    rw [run_cons]
    exact ih _ S.inv (fun o ho => hok o (by simp [ho])) (within_step S h)

/-- What is known of a stream reader and its log. -/
structure SInv (R : Rdr σ) (fin : Err) (Inv : σ → List Byte → Prop) (T : List Byte) (rc : Rec σ) : Prop where
  tame : ∀ n a, Call.read n a ∈ rc.log → ∃ d e, a = .got d e ∧ d.length ≤ n
  progress : (ended rc.log = some fin ∧ obtained rc.log = T) ∨
    (ended rc.log = none ∧ ∃ T', T = obtained rc.log ++ T' ∧ (closes rc.log = [] → Inv rc.inner T'))

theorem sinv_read {R : Rdr σ} {fin : Err} {Inv : σ → List Byte → Prop} (hS : IsStream R fin Inv) {T : List Byte}
    (rc : Rec σ) (n : Nat) (hn : 0 < n) (he : ended rc.log = none) (hc : closes rc.log = [])
    (h : SInv R fin Inv T rc) : SInv R fin Inv T (R.record.read rc n).1 := by
  obtain ⟨T', hT, hI⟩ : ∃ T', T = obtained rc.log ++ T' ∧ (closes rc.log = [] → Inv rc.inner T') := by
    rcases h.progress with ⟨h1, _⟩ | ⟨_, h2⟩
    · rw [he] at h1; cases h1
    · exact h2
  obtain ⟨st', d, e, T'', h1, h2, h3, h4, h5⟩ := hS.read rc.inner T' n hn (hI hc)
  have hrd : (R.record.read rc n).1 = ⟨st', rc.log ++ [.read n (.got d e)]⟩ := by
    show (⟨(R.read rc.inner n).1, rc.log ++ [.read n (R.read rc.inner n).2]⟩ : Rec σ) = _
    rw [h1]
  rw [hrd]
  refine ⟨?_, ?_⟩
  · intro m a hm
    simp only [List.mem_append, List.mem_singleton] at hm
    rcases hm with hm | hm
    · exact h.tame m a hm
    · cases hm; exact ⟨d, e, rfl, h2⟩
  · simp only
    rw [ended_append, he, obtained_append]
    cases e with
    | none =>
      right
      refine ⟨by simp [ended], T'', by simp [obtained, h2, hT, h3], fun _ => h4 rfl⟩
    | some x =>
      obtain ⟨k1, k2⟩ := h5 x rfl
      left
      refine ⟨by simp [ended, h2, k2], by simp [obtained, h2, hT, h3, k1]⟩

theorem sinv_close {R : Rdr σ} {fin : Err} {Inv : σ → List Byte → Prop} {T : List Byte}
    (rc : Rec σ) (h : SInv R fin Inv T rc) : SInv R fin Inv T (R.record.close rc).1 := by
  have hrd : (R.record.close rc).1 = ⟨(R.close rc.inner).1, rc.log ++ [.close (R.close rc.inner).2]⟩ := rfl
  rw [hrd]
  refine ⟨?_, ?_⟩
  · intro m a hm
    simp only [List.mem_append, List.mem_singleton] at hm
    rcases hm with hm | hm
    · exact h.tame m a hm
    · cases hm
  · simp only
    rw [ended_append, obtained_append, closes_append]
    rcases h.progress with ⟨h1, h2⟩ | ⟨h1, T', h2, _⟩
    · left; simp [h1, ended, obtained, h2]
    · right; refine ⟨by simp [h1, ended], T', by simp [obtained, ← h2], by simp [closes]⟩

theorem sinv_pre {R : Rdr σ} {fin : Err} {Inv : σ → List Byte → Prop} {T : List Byte} {rc : Rec σ} {L : Int}
    (h : SInv R fin Inv T rc) (hw : 0 ≤ L → ((obtained rc.log).length : Int) ≤ L)
    (hfin : fin = .eof ∨ L ≠ T.length) :
    Pre L (cut T L) (if 0 ≤ L ∧ L < T.length then .eof else fin) rc.log := by
  unfold cut
  rcases h.progress with ⟨h1, h2⟩ | ⟨h1, T', h2, _⟩
  · have hcut : (if 0 ≤ L then T.take L.toNat else T) = T := by
      split
      · rename_i hL; have := hw hL; rw [h2] at this
        exact List.take_of_length_le (by omega)
      · rfl
    rw [hcut]
    refine ⟨by rw [h2]; exact List.prefix_refl _, ?_⟩
    intro e he
    simp [term, h1] at he
    refine ⟨h2, ?_⟩
    rw [if_neg, he]
    rintro ⟨hL, hlt⟩
    have := hw hL; rw [h2] at this; omega
  · constructor
    · split
      · rename_i hL
        have := hw hL
        rw [h2, List.take_append]
        rw [List.take_of_length_le (by omega)]
        exact List.prefix_append _ _
      · rw [h2]; exact List.prefix_append _ _
    · intro e he
      simp only [term, h1] at he
      split at he
      · rename_i hL
        cases he
        refine ⟨?_, ?_⟩
        · rw [if_pos (by omega), hL, h2]; simp
        · split
          · rfl
          · rename_i hn
            rcases hfin with h | h
            · exact h.symm
            · exfalso
              have : (obtained rc.log).length ≤ T.length := by rw [h2]; simp
              omega
      · cases he

/-! ## Calls return -/

theorem readLoop_noHang {R : Rdr σ} {B : Nat} {idle : σ → Nat} (hE : Eager R B idle) :
    ∀ (fuel : Nat) (c : BufCommon (Rec σ)) (num : Int), c.hasR = true →
      num.toNat * (B + 1) + idle c.rdr.inner < fuel →
      (BufSys.readLoop R.record fuel c num).2 ≠ some .hang := by
  intro fuel
  induction fuel with
  | zero => intro c num _ h; omega
  | succ fuel ih =>
    intro c num hR hlt
    by_cases hn : num > 0
    · have hrd : R.record.read c.rdr num.toNat =
          (⟨(R.read c.rdr.inner num.toNat).1, c.rdr.log ++ [.read num.toNat (R.read c.rdr.inner num.toNat).2]⟩,
            (R.read c.rdr.inner num.toNat).2) := rfl
      have hdown := hE.down c.rdr.inner num.toNat (by omega)
      have hb := hE.bound (R.read c.rdr.inner num.toNat).1
      generalize hr : R.read c.rdr.inner num.toNat = r at *
      rw [readLoop_succ R.record fuel c num hn hR _ _ hrd]
      obtain ⟨st', resp⟩ := r
      cases resp with
      | panics p => simp
      | negative => simp
      | got d err =>
        simp only
        by_cases hd : ¬ (d.length : Int) ≤ num
        · rw [if_pos hd]; simp
        · rw [if_neg hd]
          cases err with
          | some e => simp
          | none =>
            simp only
            apply ih
            · exact hR
            · simp only
              cases d with
              | nil =>
                have := hdown rfl
                simp at this ⊢
                omega
              | cons x d =>
                simp only at hb
                have h1 : (num - ((x :: d).length : Int)).toNat + 1 ≤ num.toNat := by simp; simp at hd; omega
                have h2 : ((num - ((x :: d).length : Int)).toNat + 1) * (B + 1) ≤ num.toNat * (B + 1) :=
                  Nat.mul_le_mul_right _ h1
                rw [Nat.add_mul] at h2
                omega
    · rw [readLoop_done _ _ _ _ hn]; simp

theorem step_noHang {R : Rdr σ} [R.CloseOk] {B : Nat} {idle : σ → Nat} (hE : Eager R B idle) (fuel : Nat) (L : Int)
    (s : BufSys (Rec σ)) (hw : WInv L s) (op : Op) (hok : op.Small) (K : Nat)
    (hK : ∀ h k, op = .read h k → k ≤ K) (hf : (K + 65536) * (B + 1) + B < fuel) :
    (s.step R.record fuel op).2 ≠ .hang := by
  obtain ⟨ext, S⟩ := buf_step R fuel L s hw op hok
  intro hh
  obtain ⟨h, k, rfl⟩ := S.hang hh
  have hkK := hK h k rfl
  unfold BufSys.step at hh
  simp only [Op.h] at hh
  cases hb : s.heap[h]? with
  | none => simp [hb] at hh
  | some b =>
    simp only [hb] at hh
    unfold BufSys.read at hh
    by_cases hcl : b.closed = true
    · simp [hcl] at hh
    · have hcl : b.closed = false := by simpa using hcl
      have ha := hw.alive ⟨b, List.mem_of_getElem? hb, hcl⟩
      obtain ⟨o1, o2, _⟩ := ha.core.offs b (List.mem_of_getElem? hb) hcl
      by_cases he : b.eof = true
      · simp [hcl, he] at hh
      · have he : b.eof = false := by simpa using he
        simp only [hcl, he, Bool.false_eq_true, if_false] at hh
        rw [if_neg (by omega)] at hh
        obtain ⟨ext', F, hcore⟩ := core_fill R fuel L s ha.core (b.offset + k) (by
          have : s.common.start + (s.common.bytes.length : Int) = (obt s).length := by
            rw [ha.core.bytes]; simp; have := ha.core.startLe; have := ha.core.start0; omega
          have : k < 2 ^ 62 := hok
          omega)
        cases hfr : (BufSys.fill R.record fuel s.common (b.offset + k)).2 with
        | none =>
          rw [hfr] at hh
          simp only at hh
          have hs1 : SetOk { s with common := (BufSys.fill R.record fuel s.common (b.offset + k)).1 } :=
            ⟨fun i => by show i ∈ (BufSys.fill R.record fuel s.common (b.offset + k)).1.bodies ↔ _
                         rw [F.bodies]; exact hw.set.mem i,
              by show (BufSys.fill R.record fuel s.common (b.offset + k)).1.bodies.Nodup
                 rw [F.bodies]; exact hw.set.nodup⟩
          have ha1 : Alive L { s with common := (BufSys.fill R.record fuel s.common (b.offset + k)).1 } :=
            ⟨hcore, by show (BufSys.fill R.record fuel s.common (b.offset + k)).1.refcnt = _
                       rw [F.refcnt]
                       show _ = ((s.heap.countP (atPos (BufSys.fill R.record fuel s.common (b.offset + k)).1.start) : Nat) : Int)
                       rw [F.start]; exact ha.cnt,
              by show 1 ≤ (BufSys.fill R.record fuel s.common (b.offset + k)).1.refcnt
                 rw [F.refcnt]; exact ha.pos⟩
          obtain ⟨c', h1, _⟩ := finishRead_spec L _ hs1 ha1 hb hcl he k (F.enough hfr)
          rw [h1] at hh
          cases hh
        | some o =>
          rw [hfr] at hh
          simp only at hh
          subst hh
          -- the loop did not hang
          unfold BufSys.fill at hfr
          simp only at hfr
          split at hfr
          · rename_i hc
            split at hfr
            · simp at hfr
            · have hlenB : s.common.start + (s.common.bytes.length : Int) = (obt s).length := by
                rw [ha.core.bytes]; simp; have := ha.core.startLe; have := ha.core.start0; omega
              have hk62 : k < 2 ^ 62 := hok
              obtain ⟨r1, r2, _⟩ := roundUp_spec (b.offset + k - (s.common.start + s.common.bytes.length)) (by omega) (by omega)
              have hnh := readLoop_noHang hE fuel s.common
                (if decide (s.common.length ≥ 0 ∧ BufSys.roundUp (b.offset + ↑k - (s.common.start + ↑s.common.bytes.length)) ≥ s.common.length - (s.common.start + ↑s.common.bytes.length)) = true
                  then s.common.length - (s.common.start + ↑s.common.bytes.length) else BufSys.roundUp (b.offset + ↑k - (s.common.start + ↑s.common.bytes.length)))
                ha.core.hasR (by
                  have hb := hE.bound s.common.rdr.inner
                  have hle : (if decide (s.common.length ≥ 0 ∧ BufSys.roundUp (b.offset + ↑k - (s.common.start + ↑s.common.bytes.length)) ≥ s.common.length - (s.common.start + ↑s.common.bytes.length)) = true
                    then s.common.length - (s.common.start + ↑s.common.bytes.length) else BufSys.roundUp (b.offset + ↑k - (s.common.start + ↑s.common.bytes.length))).toNat ≤ K + 65536 := by
                    split
                    · rename_i hcc; simp at hcc; omega
                    · omega
                  have := Nat.mul_le_mul_right (B + 1) hle
                  omega)
              generalize BufSys.readLoop R.record fuel s.common _ = rl at hfr hnh
              split at hfr
              · rename_i o ho; simp at hfr; rw [ho, hfr] at hnh; exact hnh rfl
              · split at hfr <;> simp at hfr
          · simp at hfr

theorem noHang_run' {R : Rdr σ} [R.CloseOk] {B : Nat} {idle : σ → Nat} (hE : Eager R B idle) (fuel : Nat) (L : Int)
    (K : Nat) (hf : (K + 65536) * (B + 1) + B < fuel) (ops : List Op) :
    ∀ (s : BufSys (Rec σ)), WInv L s → (∀ op ∈ ops, op.Small) → (∀ h k, Op.read h k ∈ ops → k ≤ K) →
      Out.hang ∉ (run (BufSys.step R.record fuel) s ops).2 := by
  induction ops with
  | nil => intro s _ _ _; simp [run_nil]
  | cons op ops ih =>
    intro s hw hok hK
    obtain ⟨e1, S⟩ := buf_step R fuel L s hw op (hok op (by simp))
    rw [run_cons]
    simp only [List.mem_cons, not_or]
    refine ⟨fun h => step_noHang hE fuel L s hw op (hok op (by simp)) K ?_ hf h.symm,
      ih _ S.inv (fun o ho => hok o (by simp [ho])) (fun h k hm => hK h k (by simp [hm]))⟩
    intro h1 k he; subst he; exact hK h1 k (by simp)

/-- No `Read` loops once the end of the stream is known. -/
theorem no_hang_when_over (R : Rdr σ) [R.CloseOk] (fuel : Nat) (L : Int) (s : BufSys (Rec σ)) (hw : WInv L s) (h k : Nat)
    (hk : k < 2 ^ 62) (hend : term L s.common.rdr.log ≠ none) :
    (s.step R.record fuel (.read h k)).2 ≠ .hang := by
  intro hh
  unfold BufSys.step at hh
  simp only [Op.h] at hh
  cases hb : s.heap[h]? with
  | none => simp [hb] at hh
  | some b =>
    simp only [hb] at hh
    by_cases hcl : b.closed = true
    · simp [BufSys.read, hcl] at hh
    · have hcl : b.closed = false := by simpa using hcl
      have ha := hw.alive ⟨b, List.mem_of_getElem? hb, hcl⟩
      obtain ⟨o1, o2, _⟩ := ha.core.offs b (List.mem_of_getElem? hb) hcl
      by_cases he : b.eof = true
      · simp [BufSys.read, hcl, he] at hh
      · have he : b.eof = false := by simpa using he
        have hlen : s.common.start + (s.common.bytes.length : Int) = (obt s).length := by
          rw [ha.core.bytes]; simp; have := ha.core.startLe; have := ha.core.start0; omega
        have hfill : (BufSys.fill R.record fuel s.common (b.offset + k)).2 = none := by
          unfold BufSys.fill
          simp only
          by_cases hc : s.common.err = none ∧ b.offset + (k : Int) > s.common.start + s.common.bytes.length
          · rw [if_pos hc]
            obtain ⟨q1, q2⟩ := ha.core.live hc.1
            have hL : L = (obt s).length := by
              simp only [term, q2] at hend
              split at hend
              · rename_i hL; exact hL
              · exact absurd rfl hend
            have hru := roundUp_spec (b.offset + k - (s.common.start + s.common.bytes.length)) (by omega) (by
              have := ha.core.start0; omega)
            rw [if_neg (by omega)]
            have hdec : decide (s.common.length ≥ 0 ∧
                BufSys.roundUp (b.offset + ↑k - (s.common.start + ↑s.common.bytes.length)) ≥
                  s.common.length - (s.common.start + ↑s.common.bytes.length)) = true := by
              simp only [decide_eq_true_eq]; omega
            rw [hdec]
            simp only [if_true]
            rw [readLoop_done _ _ _ _ (by omega)]
            simp only
            split <;> rfl
          · rw [if_neg hc]
        simp only [BufSys.read, hcl, he, Bool.false_eq_true, if_false, hfill] at hh
        rw [if_neg (by omega)] at hh
        generalize hs' : ({ s with common := (BufSys.fill R.record fuel s.common (b.offset + k)).1 } : BufSys (Rec σ)) = s' at hh
        revert hh
        unfold BufSys.finishRead
        simp only
        split
        · split <;> simp
        · simp

end Verif
