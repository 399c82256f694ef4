import Verif.Props.Buffered

/-!
# C05, C14, C15, C20, C46 for bodies over a plain `io.Reader`
-/

set_option linter.unusedSimpArgs false

set_option autoImplicit false

namespace Verif
open Spec

variable {σ : Type}

theorem stream_isOpen {R : Rdr σ} {fuel : Nat} {L : Int} {s : BufSys (Rec σ)} (hw : WInv L s) {h : Nat} :
    IsOpen (streamStep R fuel) s h ↔ ∃ b, s.heap[h]? = some b ∧ b.closed = false := by
  constructor
  · rintro ⟨m, hm⟩
    cases hb : s.heap[h]? with
    | none => simp [streamStep, BufSys.step, Op.h, hb] at hm
    | some b =>
      refine ⟨b, rfl, ?_⟩
      cases hc : b.closed with
      | false => rfl
      | true => simp [streamStep, BufSys.step, Op.h, hb, BufSys.copy, hc] at hm
  · rintro ⟨b, hb, hc⟩
    have hR := (hw.alive ⟨b, List.mem_of_getElem? hb, hc⟩).core.hasR
    exact ⟨s.heap.length, by simp [streamStep, BufSys.step, Op.h, hb, BufSys.copy, hc, hR]⟩

theorem stream_anyOpen {R : Rdr σ} {fuel : Nat} {L : Int} {s : BufSys (Rec σ)} (hw : WInv L s) :
    (∃ h, IsOpen (streamStep R fuel) s h) ↔ AnyOpen s := by
  simp only [stream_isOpen hw]
  constructor
  · rintro ⟨h, b, hb, hc⟩; exact ⟨b, List.mem_of_getElem? hb, hc⟩
  · rintro ⟨b, hb, hc⟩
    obtain ⟨i, hi⟩ := List.mem_iff_getElem?.1 hb
    exact ⟨i, b, hi, hc⟩

theorem streamLog_snoc (R : Rdr σ) (fuel : Nat) (st : σ) (L : Int) (ops : List Op) (op : Op) :
    streamLog R fuel st L (ops ++ [op]) = (streamStep R fuel (streamAfter R fuel st L ops) op).1.common.rdr.log := by
  simp only [streamLog, streamAfter]
  rw [run_append]
  simp only [run_cons, run_nil]

/-! ## C05 -/

/-- A closed body stays as it is. -/
theorem step_keeps_closed (R : Rdr σ) [R.CloseOk] (fuel : Nat) (L : Int) (s : BufSys (Rec σ)) (hw : WInv L s) (op : Op)
    (hok : op.Small) {h : Nat} {b : BufBody} (hb : s.heap[h]? = some b) (hc : b.closed = true) :
    (streamStep R fuel s op).1.heap[h]? = some b := by
  simp only [streamStep, BufSys.step]
  cases hop : s.heap[op.h]? with
  | none => exact hb
  | some b' =>
    cases op with
    | read i k =>
      simp only [Op.h] at hop ⊢
      by_cases hcl : b'.closed = true
      · simp only [BufSys.read, hcl, if_true]; exact hb
      · have hcl : b'.closed = false := by simpa using hcl
        have hne : i ≠ h := by rintro rfl; rw [hop] at hb; cases hb; rw [hc] at hcl; cases hcl
        by_cases he : b'.eof = true
        · simp only [BufSys.read, hcl, he, Bool.false_eq_true, if_true, if_false]; exact hb
        · obtain ⟨ext, F⟩ := read_spec R fuel L s hw hop hcl (by simpa using he) k hok
          rcases F.res with ⟨o, _, h2, _⟩ | ⟨_, _, h3⟩
          · rw [h2]; exact hb
          · rw [h3, List.getElem?_set_ne hne]; exact hb
    | close i =>
      simp only [Op.h] at hop ⊢
      by_cases hcl : b'.closed = true
      · simp only [BufSys.close, hcl, if_true]; exact hb
      · have hcl : b'.closed = false := by simpa using hcl
        have hne : i ≠ h := by rintro rfl; rw [hop] at hb; cases hb; rw [hc] at hcl; cases hcl
        obtain ⟨c', e, h1, _⟩ := close_spec R L s hw hop hcl
        rw [h1]; simp only; rw [List.getElem?_set_ne hne]; exact hb
    | copy i =>
      simp only [Op.h] at hop ⊢
      by_cases hcl : b'.closed = true
      · simp only [BufSys.copy, hcl, if_true]; exact hb
      · obtain ⟨s', h1, h2, _⟩ := copy_spec L s hw hop (by simpa using hcl)
        rw [h1]; simp only [h2]
        obtain ⟨h', _⟩ := List.getElem?_eq_some_iff.1 hb
        rw [List.getElem?_append_left h']; exact hb
    | _ => exact hb

theorem run_keeps_closed (R : Rdr σ) [R.CloseOk] (fuel : Nat) (L : Int) (ops : List Op) : ∀ (s : BufSys (Rec σ)), WInv L s →
    (∀ op ∈ ops, op.Small) → ∀ {h : Nat} {b : BufBody}, s.heap[h]? = some b → b.closed = true →
    (run (streamStep R fuel) s ops).1.heap[h]? = some b := by
  induction ops with
  | nil => intro s _ _ h b hb _; exact hb
  | cons op ops ih =>
    intro s hw hok h b hb hc
    obtain ⟨e1, S⟩ := buf_step R fuel L s hw op (hok op (by simp))
    rw [run_cons]
    exact ih _ S.inv (fun o ho => hok o (by simp [ho]))
      (step_keeps_closed R fuel L s hw op (hok op (by simp)) hb hc) hc

theorem stream_inert {R : Rdr σ} {fuel : Nat} {s : BufSys (Rec σ)} {h : Nat} {b : BufBody}
    (hb : s.heap[h]? = some b) (hc : b.closed = true) : Inert (streamStep R fuel) false false s h := by
  refine ⟨?_, ?_, ?_, ?_, ?_, ?_, ?_, ?_, ?_⟩
  · intro op hop
    subst hop
    cases op <;> simp only [Op.h] at hb <;>
      simp [streamStep, BufSys.step, Op.h, hb, BufSys.read, BufSys.close, BufSys.copy, hc]
  all_goals
    intros
    simp [streamStep, BufSys.step, Op.h, hb, BufSys.read, BufSys.close, BufSys.copy, BufSys.unwrap,
      BufSys.bytesRemaining, hc]

/-- **C05** for Bodies over a plain Reader, whatever the Reader does: once `Close` was called on a Body it
is inert after every continuation: it gives the answers of a closed Body, and no call on it changes
anything, in particular neither the Reader (whose log is part of the state) nor any other Body. -/
theorem C05_closed_inert_stream (R : Rdr σ) [R.CloseOk] (fuel : Nat) (st : σ) (L : Int) (ops ops' : List Op) (h : Nat)
    (hok : ∀ op ∈ ops ++ ops', op.Small)
    (he : Spec.Exists (streamStep R fuel) (streamAfter R fuel st L ops) h) :
    Inert (streamStep R fuel) false false (streamAfter R fuel st L (ops ++ .close h :: ops')) h := by
  have hw := after_winv R fuel st L ops (fun o ho => hok o (by simp [ho]))
  have hafter : streamAfter R fuel st L (ops ++ .close h :: ops') =
      (run (streamStep R fuel) (streamStep R fuel (streamAfter R fuel st L ops) (.close h)).1 ops').1 := by
    simp only [streamAfter]; rw [run_append, run_cons]
  rw [hafter]
  obtain ⟨ext, S⟩ := buf_step R fuel L _ hw (.close h) trivial
  have hcl : ∃ b, (streamStep R fuel (streamAfter R fuel st L ops) (.close h)).1.heap[h]? = some b ∧ b.closed = true := by
    generalize streamAfter R fuel st L ops = s at *
    simp only [streamStep, BufSys.step, Op.h]
    cases hb : s.heap[h]? with
    | none => exact absurd (by simp [streamStep, BufSys.step, Op.h, hb]) he
    | some b =>
      by_cases hc : b.closed = true
      · simp only [BufSys.close, hc, if_true]; exact ⟨b, hb, hc⟩
      · obtain ⟨c', e, h1, _⟩ := close_spec R L s hw hb (by simpa using hc)
        simp only [h1]
        exact ⟨_, set_get hb, rfl⟩
  obtain ⟨b, hb, hc⟩ := hcl
  exact stream_inert (run_keeps_closed R fuel L ops' _ S.inv (fun o ho => hok o (by simp [ho])) hb hc) hc

example : Spec.Exists (streamStep (scripted) 10) (streamAfter (scripted) 10 [.got [1, 2] none] (-1)
    [.read 0 1, .copy 0, .close 0]) 1 := by
  unfold Spec.Exists; decide +kernel

/-! ## C14: correct length -/

/-- **C14** with a correct declared length: over a stream `T` (ending with `io.EOF`) whose length was
advertised, `BytesRemaining` of every open Body is, from the start, exactly the number of bytes that
reading it delivers. -/
theorem C14_exact_with_correct_length {R : Rdr σ} [R.CloseOk] {Inv : σ → List Byte → Prop} (hS : IsStream R .eof Inv)
    (fuel : Nat) (st : σ) (T : List Byte) (hI : Inv st T) (ops : List Op) (hok : ∀ op ∈ ops, op.Small)
    (hh : Out.hang ∉ streamOuts R fuel st T.length ops) (h : Nat)
    (ho : IsOpen (streamStep R fuel) (streamAfter R fuel st T.length ops) h) :
    ∃ n : Nat, (streamStep R fuel (streamAfter R fuel st T.length ops) (.remaining h)).2 = .remaining n ∧
      ∀ ks : List Nat, (∀ k ∈ ks, k < 2 ^ 62) →
        Out.hang ∉ (run (streamStep R fuel) (streamAfter R fuel st T.length ops) (ks.map (Op.read h))).2 →
        (delivered (run (streamStep R fuel) (streamAfter R fuel st T.length ops) (ks.map (Op.read h))).2).length =
          min n ks.sum := by
  generalize hL : (T.length : Int) = L at *
  have hsi : ∀ ops' : List Op, (∀ op ∈ ops', op.Small) → SInv R .eof Inv T (streamAfter R fuel st L ops').common.rdr :=
    fun ops' hok' => pred_run R (SInv R .eof Inv T) (sinv_read hS) sinv_close fuel L ops' (streamInit st L)
      (init_winv st L) hok' (closeInv_init R st L)
      ⟨by simp [BufSys.init, BufSys.ref], .inr ⟨rfl, T, rfl, fun _ => hI⟩⟩
  have hpre : ∀ ops' : List Op, (∀ op ∈ ops', op.Small) → Pre L T .eof (streamLog R fuel st L ops') := by
    intro ops' hok'
    have hp := sinv_pre (hsi ops' hok')
      (within_run R fuel L ops' (streamInit st L) (init_winv st L) hok'
        (by simp [BufSys.init, BufSys.ref, obtained])) (.inl rfl)
    have e1 : cut T L = T := by
      unfold cut; rw [if_pos (by omega), List.take_of_length_le (by omega)]
    rw [e1] at hp
    simpa using hp
  obtain ⟨chs, _, hf⟩ := stream_sim R fuel st L ops hok hh (hpre ops hok)
  have hw := after_winv R fuel st L ops hok
  obtain ⟨b, hb, hcl⟩ := (stream_isOpen hw).1 ho
  have ha := hw.alive ⟨b, List.mem_of_getElem? hb, hcl⟩
  obtain ⟨o1, o2, o3⟩ := ha.core.offs b (List.mem_of_getElem? hb) hcl
  have hp0 := hpre ops hok
  have hle : (obt (streamAfter R fuel st L ops)).length ≤ T.length := hp0.1.length_le
  have hover : ∀ e, (streamAfter R fuel st L ops).common.err = some e →
      (obt (streamAfter R fuel st L ops)).length = T.length := by
    intro e he
    have := (hp0.2 e (ha.core.over e he).2).1
    rw [← this]; rfl
  refine ⟨T.length - b.offset.toNat, ?_, ?_⟩
  · simp only [streamStep, BufSys.step, Op.h, hb, BufSys.bytesRemaining, hcl, Bool.false_eq_true, if_false]
    have hlen : (streamAfter R fuel st L ops).common.length = T.length := by
      cases herr : (streamAfter R fuel st L ops).common.err with
      | some e => rw [(ha.core.over e herr).1, hover e herr]
      | none => rw [(ha.core.live herr).1]; exact hL.symm
    have := ha.core.start0
    by_cases he : b.eof = true
    · rw [if_pos he]
      obtain ⟨h5, h6⟩ := o3 he
      cases herr : (streamAfter R fuel st L ops).common.err with
      | none => exact absurd herr h6
      | some e => have := hover e herr; congr 1; omega
    · rw [if_neg he, hlen, if_neg (by omega), if_neg (by omega)]; congr 1; omega
  · intro ks hks hhk
    have hsm : ∀ op ∈ ks.map (Op.read h), op.Small := by
      intro op hop
      simp only [List.mem_map] at hop
      obtain ⟨k, hk, rfl⟩ := hop
      exact hks k hk
    have hok2 : ∀ op ∈ ops ++ ks.map (Op.read h), op.Small := by
      intro op hop
      rcases List.mem_append.1 hop with h1 | h1
      · exact hok op h1
      · exact hsm op h1
    refine exact_of_known hok hf ks hks h (hpre _ hok2) hhk ?_ hb hcl
    -- no panic
    intro p hp
    obtain ⟨i, hi⟩ := List.mem_iff_getElem?.1 hp
    have hilen : i < ks.length := by
      have := (List.getElem?_eq_some_iff.1 hi).1
      rw [run_length] at this; simpa using this
    have hsplit : ks.map (Op.read h) = (ks.take i).map (Op.read h) ++ .read h ks[i] :: (ks.drop (i + 1)).map (Op.read h) := by
      rw [← List.map_cons (f := Op.read h), ← List.map_append, List.getElem_cons_drop, List.take_append_drop]
    have hout : (streamStep R fuel (streamAfter R fuel st L (ops ++ (ks.take i).map (Op.read h))) (.read h ks[i])).2 = .panic p := by
      rw [hsplit, run_append, run_cons] at hi
      have hl : (run (streamStep R fuel) (streamAfter R fuel st L ops) ((ks.take i).map (Op.read h))).2.length = i := by
        rw [run_length]; simp; omega
      rw [List.getElem?_append_right (by omega), hl] at hi
      simp at hi
      simp only [streamAfter] at hi ⊢
      rw [run_append, List.map_take]; exact hi
    obtain ⟨ext, h1, pre, n, r, h2, h3⟩ := panics_blame_closeOk R fuel st L _ _ (by
      intro op hop
      apply hok2
      simp only [List.mem_append, List.mem_singleton, List.mem_map] at hop ⊢
      rcases hop with (hop | ⟨k, hk, rfl⟩) | rfl
      · exact .inl hop
      · exact .inr ⟨k, List.mem_of_mem_take hk, rfl⟩
      · exact .inr ⟨_, List.getElem_mem _, rfl⟩) p hout
    have hmem : Call.read n r ∈ streamLog R fuel st L (ops ++ (ks.take i).map (Op.read h) ++ [.read h ks[i]]) := by
      rw [h1, h2]; simp
    obtain ⟨d, e, h4, h5⟩ := (hsi _ (by
      intro op hop
      apply hok2
      simp only [List.mem_append, List.mem_singleton, List.mem_map] at hop ⊢
      rcases hop with (hop | ⟨k, hk, rfl⟩) | rfl
      · exact .inl hop
      · exact .inr ⟨k, List.mem_of_mem_take hk, rfl⟩
      · exact .inr ⟨_, List.getElem_mem _, rfl⟩)).tame n r hmem
    subst h4
    rcases h3 with ⟨_, h6 | ⟨d', e', h6, h7⟩⟩ | h6
    · cases h6
    · cases h6; omega
    · cases h6

example : streamOuts (scripted) 10 [.got [1, 2, 3] none, .got [4, 5] none] 5
    [.remaining 0, .read 0 2, .copy 0, .remaining 1, .read 1 1, .remaining 1, .read 1 3, .remaining 1, .remaining 0] =
    [.remaining 5, .read [1, 2] none, .copied 1, .remaining 3, .read [3] none, .remaining 2,
      .read [4, 5] (some .eof), .remaining 0, .remaining 3] := by decide +kernel

/-! ## C15 -/

/-- **C15** (Reader-backed streams): while a Body is open the Reader has not been closed; once all are
closed it has been closed exactly once, if it can be closed at all. -/
theorem C15_closed_exactly_once_stream (R : Rdr σ) [R.CloseOk] (fuel : Nat) (st : σ) (L : Int) (ops : List Op)
    (hok : ∀ op ∈ ops, op.Small) :
    ((∃ h, IsOpen (streamStep R fuel) (streamAfter R fuel st L ops) h) → closes (streamLog R fuel st L ops) = []) ∧
    ((¬ ∃ h, IsOpen (streamStep R fuel) (streamAfter R fuel st L ops) h) →
      (closes (streamLog R fuel st L ops)).length = if R.isCloser then 1 else 0) := by
  rw [stream_anyOpen (after_winv R fuel st L ops hok)]
  exact closeInv_run R fuel L ops _ (init_winv st L) hok (closeInv_init R st L)

/-- **C15**: the first `Close` of a Body returns nil and does not touch the Reader unless it closes the last open
Body; then it calls the Reader's `Close`, once and nothing else, and returns its error; it returns nil if the Reader has no
`Close`. -/
theorem C15_close_answers_stream (R : Rdr σ) [R.CloseOk] (fuel : Nat) (st : σ) (L : Int) (ops : List Op) (h : Nat)
    (hok : ∀ op ∈ ops, op.Small) (ho : IsOpen (streamStep R fuel) (streamAfter R fuel st L ops) h)
    {r : BufSys (Rec σ) × Out} (hr : r = streamStep R fuel (streamAfter R fuel st L ops) (.close h)) :
    ¬ IsOpen (streamStep R fuel) r.1 h ∧
    ((∃ i, IsOpen (streamStep R fuel) r.1 i) →
      r.2 = .closed none ∧ r.1.common.rdr.log = streamLog R fuel st L ops) ∧
    ((¬ ∃ i, IsOpen (streamStep R fuel) r.1 i) →
      (R.isCloser = true → ∃ e, r.2 = .closed e ∧ r.1.common.rdr.log = streamLog R fuel st L ops ++ [.close (.ok e)]) ∧
      (R.isCloser = false → r.2 = .closed none ∧ r.1.common.rdr.log = streamLog R fuel st L ops)) := by
  have hw := after_winv R fuel st L ops hok
  obtain ⟨b, hb, hcl⟩ := (stream_isOpen hw).1 ho
  simp only [streamLog]
  generalize streamAfter R fuel st L ops = s at *
  obtain ⟨c', e, h1, h2, h3, h4⟩ := close_spec R L s hw hb hcl
  have hr' : r = ({ common := c', heap := s.heap.set h { offset := 0, eof := false, closed := true } }, .closed e) := by
    rw [hr]; simp only [streamStep, BufSys.step, Op.h, hb]; exact h1
  have hwr : WInv L r.1 := by rw [hr']; exact h2
  rw [stream_anyOpen hwr]
  have hset : ∀ i, i ≠ h → r.1.heap[i]? = s.heap[i]? := by
    intro i hi; rw [hr']; simp only; rw [List.getElem?_set_ne (Ne.symm hi)]
  have hseth : r.1.heap[h]? = some { offset := 0, eof := false, closed := true } := by rw [hr']; exact set_get hb
  have hany : AnyOpen r.1 ↔ ∃ i b', i ≠ h ∧ s.heap[i]? = some b' ∧ b'.closed = false := by
    rw [← stream_anyOpen (R := R) (fuel := fuel) hwr]
    simp only [stream_isOpen hwr]
    constructor
    · rintro ⟨i, b', hb', hc'⟩
      have hne : i ≠ h := by
        rintro rfl; rw [hseth] at hb'; cases hb'; cases hc'
      exact ⟨i, b', hne, by rw [← hset i hne]; exact hb', hc'⟩
    · rintro ⟨i, b', hne, hb', hc'⟩
      exact ⟨i, b', by rw [hset i hne]; exact hb', hc'⟩
  refine ⟨?_, ?_, ?_⟩
  · rw [stream_isOpen hwr]; rintro ⟨b', hb', hc'⟩; rw [hseth] at hb'; cases hb'; cases hc'
  · intro ha
    obtain ⟨g1, g2, _⟩ := h3 (hany.1 ha)
    rw [hr']; exact ⟨by rw [g1], by simp only [g2]⟩
  · intro ha
    rw [hany] at ha
    have hall : ∀ i b', i ≠ h → s.heap[i]? = some b' → b'.closed = true := by
      intro i b' hi hb'
      cases hc : b'.closed with
      | true => rfl
      | false => exact absurd ⟨i, b', hi, hb', hc⟩ ha
    obtain ⟨g1, g2⟩ := h4 hall
    refine ⟨fun hR => ⟨e, by rw [hr'], by rw [hr']; simp only [(g1 hR).2]⟩, fun hR => ?_⟩
    obtain ⟨g3, g4⟩ := g2 hR
    rw [hr']; exact ⟨by rw [g3], by simp only [g4]⟩

/-- **C15**: no other call closes the Reader. -/
theorem C15_only_close_closes_stream (R : Rdr σ) [R.CloseOk] (fuel : Nat) (st : σ) (L : Int) (ops : List Op) (op : Op)
    (hok : ∀ op' ∈ ops ++ [op], op'.Small) (hne : ∀ h, op ≠ .close h) :
    closes (streamLog R fuel st L (ops ++ [op])) = closes (streamLog R fuel st L ops) := by
  have hw := after_winv R fuel st L ops (fun o ho => hok o (by simp [ho]))
  rw [streamLog_snoc]
  simp only [streamLog]
  generalize streamAfter R fuel st L ops = s at *
  obtain ⟨ext, S⟩ := buf_step R fuel L s hw op (hok op (by simp))
  rw [show (streamStep R fuel s op).1.common.rdr.log = _ from S.log, closes_append]
  rcases S.cls with ⟨h1, _⟩ | ⟨_, _, h3⟩
  · rw [h1]; simp
  · exfalso
    have hout : ∃ e, (BufSys.step R.record fuel s op).2 = .closed e := by
      rcases h3 with ⟨_, e, _, h⟩ | ⟨_, _, h⟩
      · exact ⟨e, h⟩
      · exact ⟨_, h⟩
    obtain ⟨e, he⟩ := hout
    revert he
    unfold BufSys.step
    cases hb : s.heap[op.h]? with
    | none => simp
    | some b =>
      cases op with
      | close h => exact absurd rfl (hne h)
      | read h k =>
        simp only [Op.h] at hb ⊢
        by_cases hcl : b.closed = true
        · simp [BufSys.read, hcl]
        · have hcl : b.closed = false := by simpa using hcl
          by_cases he : b.eof = true
          · simp [BufSys.read, hcl, he]
          · obtain ⟨ext, F⟩ := read_spec R fuel L s hw hb hcl (by simpa using he) k (hok (.read h k) (by simp))
            rcases F.res with ⟨o, h1, _, h2 | ⟨p, h2, _⟩⟩ | ⟨h1, _⟩
            · rw [h1, h2]; simp
            · rw [h1, h2]; simp
            · rw [h1]; simp
      | copy h =>
        simp only [BufSys.copy]; split <;> try split
        all_goals simp
      | unwrap h => simp only [BufSys.unwrap]; split <;> simp
      | _ => simp

example : closes (streamLog (scripted) 10 [.got [1, 2] none] (-1) [.read 0 1, .copy 0, .close 0, .close 0, .read 1 1]) = [] ∧
    streamOuts (scripted) 10 [.got [1, 2] none] (-1) [.read 0 1, .copy 0, .close 0, .close 0, .close 1, .close 1] =
      [.read [1] none, .copied 1, .closed none, .closed (some .closed), .closed (some (.ext 7)), .closed (some .closed)] ∧
    closes (streamLog (scripted) 10 [.got [1, 2] none] (-1) [.read 0 1, .copy 0, .close 0, .close 0, .close 1, .close 1]) =
      [.ok (some (.ext 7))] ∧
    closes (streamLog (scripted false) 10 [.got [1, 2] none] (-1) [.read 0 1, .close 0]) = [] := by decide +kernel

/-! ## C20 -/

/-- **C20** (streams): `BytesRemaining` is never negative, except that it is `-1` on an open Body while no
length is advertised and the end of the stream is not known. -/
theorem C20_remaining_stream (R : Rdr σ) [R.CloseOk] (fuel : Nat) (st : σ) (L : Int) (ops : List Op)
    (hok : ∀ op ∈ ops, op.Small) (h : Nat) (n : Int)
    (hn : (streamStep R fuel (streamAfter R fuel st L ops) (.remaining h)).2 = .remaining n) :
    0 ≤ n ∨ (n = -1 ∧ L < 0 ∧ IsOpen (streamStep R fuel) (streamAfter R fuel st L ops) h ∧
      term L (streamLog R fuel st L ops) = none) := by
  have hw := after_winv R fuel st L ops hok
  rw [stream_isOpen hw]
  simp only [streamLog]
  generalize streamAfter R fuel st L ops = s at *
  cases hb : s.heap[h]? with
  | none => simp [streamStep, BufSys.step, Op.h, hb] at hn
  | some b =>
    simp only [streamStep, BufSys.step, Op.h, hb, BufSys.bytesRemaining, Out.remaining.injEq] at hn
    by_cases hcl : b.closed = true
    · rw [if_pos hcl] at hn; omega
    · rw [if_neg hcl] at hn
      by_cases he : b.eof = true
      · rw [if_pos he] at hn; omega
      · rw [if_neg he] at hn
        have hcl : b.closed = false := by simpa using hcl
        have ha := hw.alive ⟨b, List.mem_of_getElem? hb, hcl⟩
        by_cases hlen : s.common.length < 0
        · rw [if_pos hlen] at hn
          refine .inr ⟨hn.symm, ?_⟩
          cases herr : s.common.err with
          | some e => have := (ha.core.over e herr).1; omega
          | none =>
            obtain ⟨q1, q2⟩ := ha.core.live herr
            refine ⟨by omega, ⟨b, rfl, hcl⟩, ?_⟩
            simp only [term, q2]
            rw [if_neg (by omega)]
        · rw [if_neg hlen] at hn
          split at hn <;> omega

/-! ## C46 -/

/-- A history in which Go iterates over the set of copies in an arbitrary order, another one at every
call: before call number `i` the set is put in the order `sh i`. -/
def shuffledRun (R : Rdr σ) (fuel : Nat) (sh : Nat → List Nat → List Nat) : Nat → BufSys σ → List Op → List Out
  | _, _, [] => []
  | i, s, op :: ops =>
    let s := { s with common := { s.common with bodies := sh i s.common.bodies } }
    let r := s.step R fuel op
    r.2 :: shuffledRun R fuel sh (i + 1) r.1 ops

/-- **C46** (streams): the observations do not depend on the order in which Go iterates over the set of
copies. -/
theorem C46_iteration_order_stream (R : Rdr σ) (fuel : Nat) (sh : Nat → List Nat → List Nat)
    (hsh : ∀ i l, (sh i l).Perm l) (st : σ) (L : Int) (ops : List Op) :
    shuffledRun R fuel sh 0 (BufSys.init st L) ops = (run (BufSys.step R fuel) (BufSys.init st L) ops).2 := by
  have key : ∀ (ops : List Op) (i : Nat) (s t : BufSys σ), SameSet s t →
      shuffledRun R fuel sh i s ops = (run (BufSys.step R fuel) t ops).2 := by
    intro ops
    induction ops with
    | nil => intro i s t _; rfl
    | cons op ops ih =>
      intro i s t h
      rw [run_cons]
      simp only [shuffledRun]
      have h' : SameSet { s with common := { s.common with bodies := sh i s.common.bodies } } t := by
        obtain ⟨c, bs, bs', heap, hp, rfl, rfl⟩ := h.elim
        exact SameSet.mk' ((hsh i bs).trans hp)
      obtain ⟨h1, h2⟩ := step_perm R fuel h' op
      rw [h1, ih (i + 1) _ _ h2]
  exact key ops 0 _ _ ⟨rfl, rfl, List.Perm.refl _⟩

example : shuffledRun (scripted) 10 (fun _ l => l.reverse) 0 (BufSys.init [.got [1, 2, 3] none] (-1))
    [.copy 0, .read 1 2, .copy 1, .read 0 3, .close 2, .read 1 1] =
    [.copied 1, .read [1, 2] none, .copied 2, .read [1, 2, 3] none, .closed none, .read [3] none] := by decide +kernel

end Verif
