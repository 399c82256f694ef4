import Verif.Proofs.Bytes

/-! # `FromBytes`/`FromString`/`Empty` families refine independent cursors -/

set_option linter.unusedSimpArgs false

set_option autoImplicit false

namespace Verif

/-- The relation between an empty body and its cursor. -/
def EmptyRel (b : EmptyBody) (c : Spec.Cursor) : Prop :=
  c.isOpen = !b.closed ∧
  (b.closed = false → c.content = [] ∧ c.pos = 0 ∧ b.eof = c.done)

theorem empty_read_sim {b c} (h : EmptyRel b c) (k : Nat) :
    (b.read k).2 = (c.read (memCfg []) {} k).2 ∧ EmptyRel (b.read k).1 (c.read (memCfg []) {} k).1 := by
  have h0 := h
  obtain ⟨ho, hr⟩ := h
  cases hc : b.closed with
  | true => simp [EmptyBody.read, Spec.Cursor.read, ho, hc, EmptyRel]
  | false =>
    obtain ⟨h1, h2, h3⟩ := hr hc
    cases he : b.eof with
    | true =>
      simp [EmptyBody.read, Spec.Cursor.read, ho, hc, he, ← h3, EmptyRel, memCfg, h2, h1]
    | false =>
      by_cases hk : k > 0
      · simp [EmptyBody.read, Spec.Cursor.read, ho, hc, he, ← h3, EmptyRel, memCfg, h2, h1, hk]
      · simp [EmptyBody.read, Spec.Cursor.read, ho, hc, he, ← h3, EmptyRel, memCfg, h2, h1, hk]

theorem empty_seek_sim {b c} (h : EmptyRel b c) (off wh : Int) (hv : IsI64 off) :
    (b.seek off wh).2 = (c.seek off wh).2 ∧ EmptyRel (b.seek off wh).1 (c.seek off wh).1 := by
  have h0 := h
  obtain ⟨ho, hr⟩ := h
  cases hc : b.closed with
  | true => simp [EmptyBody.seek, Spec.Cursor.seek, ho, hc, EmptyRel]
  | false =>
    obtain ⟨h1, h2, h3⟩ := hr hc
    unfold IsI64 at hv
    have hbig : ¬ (9223372036854775808 ≤ off) := by omega
    simp only [EmptyBody.seek, Spec.Cursor.seek, Spec.seekTarget, hc, ho, h1, h2]
    by_cases w0 : wh = 0
    · subst w0
      by_cases hn : off < 0
      · simp [hn, h0]
      · simp [hn, hbig]; simp [EmptyRel, ho, hc]
    · by_cases w1 : wh = 1
      · subst w1
        by_cases hn : off < 0
        · simp [hn, h0]
        · simp [hn, hbig]; simp [EmptyRel, ho, hc]
      · by_cases w2 : wh = 2
        · subst w2
          by_cases hn : off < 0
          · simp [hn, h0]
          · simp [hn, hbig]; simp [EmptyRel, ho, hc]
        · simp [w0, w1, w2, h0]

theorem empty_step_sim (s : List EmptyBody) (f : List Spec.Cursor) (op : Op) (h : Pw EmptyRel s f)
    (hv : op.Valid ∧ op.EmptyOk) :
    (EmptyBody.step s op).2 = (Spec.step (memCfg []) {} f op).2 ∧
      Pw EmptyRel (EmptyBody.step s op).1 (Spec.step (memCfg []) {} f op).1 := by
  unfold EmptyBody.step Spec.step
  cases hs : s[op.h]? with
  | none =>
    rw [(h.none_iff _).1 hs]
    exact ⟨rfl, h⟩
  | some b =>
    obtain ⟨c, hf, hbc⟩ := h.get hs
    rw [hf]
    obtain ⟨ho, hr⟩ := id hbc
    cases op with
    | read i k =>
      have := empty_read_sim hbc k
      exact ⟨this.1, h.set _ this.2⟩
    | readAt i k off =>
      refine ⟨?_, h⟩
      have hoff : ¬ off < 0 := by have := hv.2; simp [Op.EmptyOk] at this; omega
      cases hc : b.closed with
      | true => simp [EmptyBody.readAt, Spec.Cursor.readAt, ho, hc, memCfg]
      | false =>
        obtain ⟨h1, h2, h3⟩ := hr hc
        simp [EmptyBody.readAt, Spec.Cursor.readAt, ho, hc, memCfg, h1, hoff]
        by_cases hk : 0 < k <;> simp [hk]
    | seek i off wh =>
      have := empty_seek_sim hbc off wh hv.1
      exact ⟨this.1, h.set _ this.2⟩
    | remaining i =>
      refine ⟨?_, h⟩
      cases hc : b.closed with
      | true => simp [EmptyBody.bytesRemaining, Spec.Cursor.remaining, ho, hc]
      | false =>
        obtain ⟨h1, h2, h3⟩ := hr hc
        simp [EmptyBody.bytesRemaining, Spec.Cursor.remaining, ho, hc, h2, h1]
    | writeTo i w => exact absurd hv.2 (by simp [Op.EmptyOk])
    | copy i =>
      cases hc : b.closed with
      | true => simp [ho, hc, h]
      | false =>
        simp [ho, hc, h.1]
        refine h.append ?_
        obtain ⟨h1, h2, h3⟩ := hr hc
        simp [EmptyRel, ho, hc, h1, h2, h3]
    | close i =>
      cases hc : b.closed with
      | true =>
        refine ⟨by simp [EmptyBody.close, ho, hc], ?_⟩
        simp only [EmptyBody.close, ho, hc]
        simp only [Op.h] at hs
        simpa [set_self hs] using h
      | false =>
        refine ⟨by simp [EmptyBody.close, ho, hc, memCfg], ?_⟩
        simp only [EmptyBody.close, ho, hc]
        apply h.set
        simp [EmptyRel]
    | unwrap i => exact ⟨by simp [memCfg], h⟩

/-- Simulation relation for whole families. -/
def MemRel (data : List Byte) : MemFam → List Spec.Cursor → Prop
  | .empty s, f => data = [] ∧ Pw EmptyRel s f
  | .bytes s, f => data ≠ [] ∧ Pw (BytesRel data) s f

theorem mem_init (data : List Byte) : MemRel data (fromBytes data) [{ content := data }] := by
  unfold fromBytes emptyFam
  split
  · rename_i h
    have : data = [] := List.length_eq_zero_iff.1 h
    subst this
    exact ⟨rfl, Pw.single (by simp [EmptyRel])⟩
  · rename_i h
    exact ⟨fun e => h (by simp [e]), Pw.single (by simp [BytesRel])⟩

theorem mem_step_sim {data : List Byte} (hlen : data.length < 2 ^ 63) (s : MemFam)
    (f : List Spec.Cursor) (op : Op) (h : MemRel data s f)
    (hv : op.Valid ∧ (data = [] → op.EmptyOk)) :
    (s.step op).2 = (Spec.step (memCfg data) {} f op).2 ∧
      MemRel data (s.step op).1 (Spec.step (memCfg data) {} f op).1 := by
  cases s with
  | empty s =>
    obtain ⟨rfl, h⟩ := h
    have := empty_step_sim s f op h ⟨hv.1, hv.2 rfl⟩
    exact ⟨this.1, rfl, this.2⟩
  | bytes s =>
    have := bytes_step_sim hlen s f op h.2 hv.1
    exact ⟨this.1, h.1, this.2⟩

/-- Every history on a `FromBytes` family has the observations of independent cursors. -/
theorem mem_refines (data : List Byte) (hlen : data.length < 2 ^ 63) (ops : List Op)
    (hv : ∀ op ∈ ops, op.Valid ∧ (data = [] → op.EmptyOk)) :
    (run MemFam.step (fromBytes data) ops).2 =
      (Spec.run (memCfg data) [{ content := data }] (ops.map (({} : Spec.Choice), ·))).2 :=
  (run_sim_det (memCfg data) MemFam.step (MemRel data) _
    (fun s f op h ho => mem_step_sim hlen s f op h ho) ops _ _ (mem_init data) hv).1

end Verif
