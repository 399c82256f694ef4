import Verif.Proofs.SpecFacts

/-! # What refinement to independent cursors implies for the caller -/

set_option linter.unusedSimpArgs false

set_option autoImplicit false

namespace Verif
open Spec

variable {S : Type} {step : S → Op → S × Out} {cfg : Cfg} {Ok : Op → Prop} {Allowed : Choice → Prop}
  {s : S} {f : List Cursor}

/-- Refinement follows from a simulation. -/
theorem refines_of_sim (Rel : S → List Cursor → Prop)
    (hstep : ∀ s f op, Rel s f → Ok op → (step s op).2 ≠ .hang →
      ∃ ch, Allowed ch ∧ (step s op).2 = (Spec.step cfg ch f op).2 ∧
        Rel (step s op).1 (Spec.step cfg ch f op).1) (h : Rel s f) :
    Refines step cfg Ok Allowed s f := by
  intro ops hok hh
  obtain ⟨chs, h1, h2, h3, _⟩ := run_sim cfg step Rel Ok Allowed hstep ops s f h hok hh
  exact ⟨chs, h1, h2, h3⟩

/-- After any history of acceptable calls the state again refines some family, reached by the same
calls on the cursors. -/
theorem refines_after (Rel : S → List Cursor → Prop)
    (hstep : ∀ s f op, Rel s f → Ok op → (step s op).2 ≠ .hang →
      ∃ ch, Allowed ch ∧ (step s op).2 = (Spec.step cfg ch f op).2 ∧
        Rel (step s op).1 (Spec.step cfg ch f op).1) (h : Rel s f)
    (ops : List Op) (hok : ∀ op ∈ ops, Ok op) (hh : Out.hang ∉ (run step s ops).2) :
    ∃ chs : List Choice, chs.length = ops.length ∧
      Rel (run step s ops).1 (Spec.run cfg f (chs.zip ops)).1 ∧
      Refines step cfg Ok Allowed (run step s ops).1 (Spec.run cfg f (chs.zip ops)).1 := by
  obtain ⟨chs, h1, h2, _, h3⟩ := run_sim cfg step Rel Ok Allowed hstep ops s f h hok hh
  exact ⟨chs, h1, h3, refines_of_sim Rel hstep h3⟩

theorem Spec.Refines.one (hR : Refines step cfg Ok Allowed s f) (op : Op) (hok : Ok op)
    (hh : (step s op).2 ≠ .hang) : ∃ ch, Allowed ch ∧ (step s op).2 = (Spec.step cfg ch f op).2 := by
  obtain ⟨chs, h1, h2, h3⟩ := hR [op] (by simpa using hok) (by simpa [run_cons, run_nil] using hh.symm)
  match chs, h1 with
  | [ch], _ =>
    refine ⟨ch, h2 ch (by simp), ?_⟩
    simpa [run_cons, run_nil, Spec.run] using h3

theorem seek_answer_eq (c : Cursor) (off wh : Int) (ho : c.isOpen = true) (hv : IsI64 off) :
    c.seek off wh = match seekAnswer c.content.length c.pos off wh with
      | .ok p => ({ c with pos := p, done := false }, .seek p none)
      | .error e => (c, .seek (-1) (some e)) := by
  unfold Cursor.seek seekAnswer seekTarget
  unfold IsI64 at hv
  by_cases w0 : wh = 0
  · subst w0
    have hb : ¬ 9223372036854775808 ≤ off := by omega
    by_cases hn : off < 0
    · simp [ho, hn]
    · simp [ho, hn, hb]
  · by_cases w1 : wh = 1
    · subst w1
      rw [Int.add_comm off]
      by_cases hn : c.pos + off < 0
      · simp [ho, hn]
      · by_cases hb : 9223372036854775808 ≤ c.pos + off
        · simp [ho, hn, hb]
          rw [if_neg (by omega)]
        · simp [ho, hn, hb]
          rw [if_pos (by omega)]
    · by_cases w2 : wh = 2
      · subst w2
        rw [Int.add_comm off]
        by_cases hn : c.content.length + off < 0
        · simp [ho, hn]
        · by_cases hb : 9223372036854775808 ≤ c.content.length + off
          · simp [ho, hn, hb]
            rw [if_neg (by omega)]
          · simp [ho, hn, hb]
            rw [if_pos (by omega)]
      · simp [ho, w0, w1, w2]

theorem seekAnswer_le {n q p : Nat} {off wh : Int} (h : seekAnswer n q off wh = .ok p) : p ≤ n := by
  unfold seekAnswer at h
  by_cases w0 : wh = 0
  · by_cases hn : off < 0 <;> simp [w0, hn] at h
    omega
  · by_cases w : wh = 1 ∨ wh = 2
    · simp only [w0, w, if_true, if_false] at h
      generalize off + _ = t at h
      by_cases hn : t < 0
      · simp [hn] at h
      · by_cases hb : t < 9223372036854775808 <;> simp [hn, hb] at h
        omega
    · simp [w0, w] at h

theorem isOpen_get (hR : Refines step cfg Ok Allowed s f) {h : Nat} (hok : Ok (.copy h))
    (ho : IsOpen step s h) : ∃ c, f[h]? = some c ∧ c.isOpen = true := by
  obtain ⟨m, hm⟩ := ho
  obtain ⟨ch, _, e⟩ := hR.one (.copy h) hok (by rw [hm]; simp)
  rw [hm] at e
  unfold Spec.step at e
  simp only [Op.h] at e
  cases hc : f[h]? with
  | none => simp [hc] at e
  | some c =>
    refine ⟨c, rfl, ?_⟩
    rw [hc] at e
    by_cases h' : c.isOpen = true
    · exact h'
    · simp [h'] at e

theorem noHang_run (hN : ∀ s op, (step s op).2 ≠ .hang) (s : S) (ops : List Op) :
    Out.hang ∉ (run step s ops).2 := by
  induction ops generalizing s with
  | nil => simp [run_nil]
  | cons op ops ih =>
    rw [run_cons]
    simp only [List.mem_cons, not_or]
    exact ⟨fun e => hN s op e.symm, ih _⟩

theorem seekClamped_of_refines (hR : Refines step cfg Ok Allowed s f)
    (hN : ∀ s op, (step s op).2 ≠ .hang) {data : List Byte} (hf : FamOk data f)
    (hs : cfg.seekable = true) (hst : ∀ ch, Allowed ch → ch.stale = false ∧ ch.crash = none)
    {h : Nat} (hok1 : Ok (.copy h)) (hok2 : Ok (.remaining h)) (hok3 : ∀ k, Ok (.read h k))
    (hok4 : ∀ off wh, IsI64 off → Ok (.seek h off wh))
    (hfail : ∀ off wh e, (step s (.seek h off wh)).2 = .seek (-1) (some e) →
      (step s (.seek h off wh)).1 = s)
    (ho : IsOpen step s h) : SeekClamped step data s h := by
  obtain ⟨c, hc, hop⟩ := isOpen_get hR hok1 ho
  obtain ⟨hct, hp⟩ := hf c (List.mem_of_getElem? hc)
  refine ⟨c.pos, hp, ?_, ?_⟩
  · obtain ⟨ch, ha, e⟩ := hR.one (.remaining h) hok2 (hN _ _)
    rw [e]
    simp [Spec.step, Op.h, hc, Cursor.remaining, hop, (hst ch ha).1, hct]
  · intro off wh hv
    simp only
    -- the seek itself
    obtain ⟨ch0, ha0, e0⟩ := hR.one (.seek h off wh) (hok4 off wh hv) (hN _ _)
    simp only [Spec.step, Op.h, hc, hs, if_true] at e0
    have sa := seek_answer_eq c off wh hop hv
    rw [hct] at sa
    cases hsa : seekAnswer data.length c.pos off wh with
    | error e =>
      simp only
      rw [hsa] at sa
      simp only at sa
      rw [sa] at e0
      exact ⟨e0, hfail off wh e e0⟩
    | ok p =>
      simp only
      rw [hsa] at sa
      simp only at sa
      rw [sa] at e0
      refine ⟨e0, ?_, ?_⟩
      · obtain ⟨chs, hl, hal, e⟩ := hR [.seek h off wh, .remaining h]
          (by intro op hop'; simp at hop'; rcases hop' with rfl | rfl; exact hok4 _ _ hv; exact hok2)
          (noHang_run hN _ _)
        match chs, hl with
        | [c1, c2], _ =>
          simp [run_cons, run_nil, Spec.run, Spec.step, Op.h, hc, hs, sa] at e
          rw [e.2]
          obtain ⟨h', _⟩ := List.getElem?_eq_some_iff.1 hc
          simp [h', Cursor.remaining, hop, (hst c2 (hal c2 (by simp))).1, hct]
      · intro ks
        obtain ⟨chs, hl, hal, e⟩ := hR (.seek h off wh :: ks.map (Op.read h))
          (by intro op hop'; simp at hop'; rcases hop' with rfl | ⟨k, _, rfl⟩; exact hok4 _ _ hv; exact hok3 _)
          (noHang_run hN _ _)
        match chs, hl with
        | c1 :: chs, hl =>
          simp only [run_cons, List.zip_cons_cons, Spec.run, Spec.step, Op.h, hc, hs, sa, if_true,
            List.cons.injEq] at e
          rw [e.2]
          have hple : p ≤ data.length := seekAnswer_le hsa
          have := reads_delivered cfg h ks chs (by simpa using hl) (fun x hx => (hst x (hal x (by simp [hx]))).2) (f.set h { c with pos := p, done := false })
            { c with pos := p, done := false } (set_get hc) hop (by simp) (by simpa [hct] using hple)
          simp only [hct] at this
          exact this.1

/-- `RemainingExact` for a cursor that reports the end only there. -/
theorem remainingExact_of_cursor (hR : Refines step cfg Ok Allowed s f)
    (hN : ∀ s op, (step s op).2 ≠ .hang) {data : List Byte} {h : Nat}
    (hf : ∀ c, f[h]? = some c → c.content = data ∧ c.pos ≤ data.length ∧ (c.isOpen = true → c.done = true → c.pos = data.length))
    (hst : ∀ ch, Allowed ch → ch.stale = false ∧ ch.crash = none)
    (hok2 : Ok (.remaining h)) (hok3 : ∀ k, Ok (.read h k))
    (he : Spec.Exists step s h) : RemainingExact step s h := by
  obtain ⟨ch, ha, e⟩ := hR.one (.remaining h) hok2 (hN _ _)
  cases hc : f[h]? with
  | none =>
    exfalso; apply he; rw [e]; simp [Spec.step, Op.h, hc]
  | some c =>
    obtain ⟨hct, hp, hd⟩ := hf c hc
    cases hop : c.isOpen with
    | true =>
      refine ⟨data.length - c.pos, ?_, ?_⟩
      · rw [e]
        simp [Spec.step, Op.h, hc, Cursor.remaining, hop, (hst ch ha).1, hct]; omega
      · intro ks
        obtain ⟨chs, hl, hal, e⟩ := hR (ks.map (Op.read h))
          (by intro op hop'; simp at hop'; obtain ⟨k, _, rfl⟩ := hop'; exact hok3 _) (noHang_run hN _ _)
        rw [e]
        have := reads_delivered cfg h ks chs (by simpa using hl) (fun x hx => (hst x (hal x hx)).2) f c hc hop (by rw [hct]; exact hd hop) (by rw [hct]; exact hp)
        rw [this.1, hct]
        simp; omega
    | false =>
      refine ⟨0, ?_, ?_⟩
      · rw [e]
        simp [Spec.step, Op.h, hc, Cursor.remaining, hop]
      · intro ks
        obtain ⟨chs, hl, hal, e⟩ := hR (ks.map (Op.read h))
          (by intro op hop'; simp at hop'; obtain ⟨k, _, rfl⟩ := hop'; exact hok3 _) (noHang_run hN _ _)
        rw [e]
        clear e hal
        simp only [List.length_map] at hl
        induction ks generalizing chs with
        | nil => simp [Spec.run, delivered]
        | cons k ks ih =>
          cases chs with
          | nil => simp at hl
          | cons ch chs =>
            simp only [List.map_cons, List.zip_cons_cons, Spec.run, Spec.step, Op.h, hc]
            have er : c.read cfg ch k = (c, .read [] (some .closed)) := by simp [Cursor.read, hop]
            simp only [er, set_self hc, delivered]
            simpa using ih chs (by simpa using hl)

/-- `RemainingExact` for tight families. -/
theorem remainingExact_of_refines (hR : Refines step cfg Ok Allowed s f)
    (hN : ∀ s op, (step s op).2 ≠ .hang) {data : List Byte} (hf : FamTight data f)
    (hst : ∀ ch, Allowed ch → ch.stale = false ∧ ch.crash = none)
    {h : Nat} (hok2 : Ok (.remaining h)) (hok3 : ∀ k, Ok (.read h k))
    (he : Spec.Exists step s h) : RemainingExact step s h :=
  remainingExact_of_cursor hR hN (fun c hc => have hm := List.mem_of_getElem? hc
    ⟨(hf.1 c hm).1, (hf.1 c hm).2, fun _ => hf.2 c hm⟩) hst hok2 hok3 he

/-- A cursor that has reported the end delivers nothing. -/
theorem reads_done {h : Nat} {c : Cursor} (hc : f[h]? = some c) (hd : c.done = true) (ks : List Nat) :
    ∀ chs : List Choice, chs.length = ks.length → delivered (Spec.run cfg f (chs.zip (ks.map (Op.read h)))).2 = [] := by
  induction ks with
  | nil => intro chs _; simp [Spec.run, delivered]
  | cons k ks ih =>
    intro chs hl
    cases chs with
    | nil => simp at hl
    | cons ch chs =>
      simp only [List.map_cons, List.zip_cons_cons, Spec.run, Spec.step, Op.h, hc]
      obtain ⟨e, er⟩ : ∃ e, c.read cfg ch k = (c, .read [] e) := by
        unfold Cursor.read
        split
        · exact ⟨_, rfl⟩
        · exact ⟨_, rfl⟩
      simp only [er, set_self hc, delivered]
      simpa using ih chs (by simpa using hl)

end Verif
