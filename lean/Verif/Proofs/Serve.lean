import Verif.Model.Serve
import Verif.Spec.Http

/-! # The log of `Serve` -/

set_option autoImplicit false

namespace Verif
open Spec
variable {β ω : Type}

theorem handed_append (a b : List WEv) : handed (a ++ b) = handed a ++ handed b := by
  induction a with
  | nil => rfl
  | cons e a ih => rw [List.cons_append]; cases e <;> simp [handed, ih]

theorem bodyGave_append (a b : List BEv) : bodyGave (a ++ b) = bodyGave a ++ bodyGave b := by
  induction a with
  | nil => rfl
  | cons e a ih =>
    rw [List.cons_append]
    cases e with
    | read k r => cases r <;> simp [bodyGave, ih]
    | _ => simp [bodyGave, ih]

theorem bodyCloses_append (a b : List BEv) : bodyCloses (a ++ b) = bodyCloses a ++ bodyCloses b := by
  simp [bodyCloses]

/-! ## The pushes -/

/-- Nothing but successful pushes, or pushes up to and including the first real failure. -/
theorem pushAll_record (D : RW ω) (urls : List GoStr) (w : ω) (l : List WEv) :
    (∃ w' P, pushAll D.record urls ⟨w, l⟩ = (⟨w', l ++ P⟩, none) ∧ pushes P = urls ∧ PushesOk P) ∨
    (∃ w' P u r rest, pushAll D.record urls ⟨w, l⟩ = (⟨w', l ++ P ++ [.push u r]⟩, some r) ∧ urls = pushes P ++ u :: rest ∧
      PushesOk P ∧ r ≠ .ret none ∧ r ≠ .ret (some .notSupported)) := by
  induction urls generalizing w l with
  | nil => exact .inl ⟨w, [], by simp [pushAll], rfl, by simp [PushesOk]⟩
  | cons url urls ih =>
    unfold pushAll
    have cons : ∀ P : List WEv, ∀ r, r = .ret none ∨ r = .ret (some .notSupported) → PushesOk P →
        PushesOk (.push url r :: P) := by
      intro P r hr hP e he
      rcases List.mem_cons.1 he with rfl | he
      · rcases hr with rfl | rfl
        · exact ⟨url, .inl rfl⟩
        · exact ⟨url, .inr rfl⟩
      · exact hP e he
    rcases hd : D.push w url with ⟨w1, r⟩
    have go : (r = .ret none ∨ r = .ret (some .notSupported)) →
        (∃ w' P, pushAll D.record urls ⟨w1, l ++ [.push url r]⟩ = (⟨w', l ++ P⟩, none) ∧ pushes P = url :: urls ∧ PushesOk P) ∨
        (∃ w' P u r' rest, pushAll D.record urls ⟨w1, l ++ [.push url r]⟩ = (⟨w', l ++ P ++ [.push u r']⟩, some r') ∧
          url :: urls = pushes P ++ u :: rest ∧ PushesOk P ∧ r' ≠ .ret none ∧ r' ≠ .ret (some .notSupported)) := by
      intro hr
      rcases ih w1 (l ++ [.push url r]) with ⟨w', P, h1, h2, h3⟩ | ⟨w', P, u, r', rest, h1, h2, h3, h4⟩
      · exact .inl ⟨w', .push url r :: P, by simpa using h1, by simpa [pushes] using h2, cons P r hr h3⟩
      · exact .inr ⟨w', .push url r :: P, u, r', rest, by simpa using h1, by simpa [pushes] using h2, cons P r hr h3, h4⟩
    have fin : (r ≠ .ret none ∧ r ≠ .ret (some .notSupported)) →
        ∃ w' P u r' rest, ((⟨w1, l ++ [.push url r]⟩ : Logged WEv ω), some r) = (⟨w', l ++ P ++ [.push u r']⟩, some r') ∧
          url :: urls = pushes P ++ u :: rest ∧ PushesOk P ∧ r' ≠ .ret none ∧ r' ≠ .ret (some .notSupported) :=
      fun hr => ⟨w1, [], url, r, urls, by simp, rfl, by simp [PushesOk], hr⟩
    cases r with
    | ret a =>
      cases a with
      | none => simpa [RW.record, hd] using go (.inl rfl)
      | some e =>
        by_cases he : e = .notSupported
        · subst he; simpa [RW.record, hd] using go (.inr rfl)
        · right; simpa [RW.record, hd, he] using fin ⟨by simp, by simpa using he⟩
    | panic p => right; simpa [RW.record, hd] using fin ⟨by simp, by simp⟩
    | hang => right; simpa [RW.record, hd] using fin ⟨by simp, by simp⟩

/-! ## The headers -/

theorem setAll_record (D : RW ω) (hdrs : List (GoStr × List GoStr)) (w : ω) (l : List WEv) :
    setAll D.record hdrs ⟨w, l⟩ =
      ⟨setAll D hdrs w, l ++ (hdrs.filter fun e => e.1 ≠ headerPush).map fun e => .set e.1 e.2⟩ := by
  induction hdrs generalizing w l with
  | nil => simp [setAll]
  | cons e hdrs ih =>
    simp only [setAll, List.foldl_cons] at ih ⊢
    by_cases he : e.1 = headerPush
    · simp only [he, ne_eq, not_true_eq_false, if_false, List.filter_cons, decide_false]
      rw [ih]; simp
    · simp only [ne_eq, he, not_false_eq_true, if_true, List.filter_cons, decide_true, List.map_cons, RW.record]
      have := ih (D.setHeader w e.1 e.2) (l ++ [.set e.1 e.2])
      simpa [RW.record] using this

/-! ## The copying -/

theorem passes_ok {T : List WEv} (h : ∀ e ∈ T, passesBody e = true) :
    statuses T = [] ∧ pushes T = [] ∧ ∀ k v, WEv.set k v ∉ T := by
  refine ⟨?_, ?_, ?_⟩
  · simp only [statuses, List.filterMap_eq_nil_iff]
    intro e he
    have := h e he
    revert this; cases e <;> simp [passesBody]
  · simp only [pushes, List.filterMap_eq_nil_iff]
    intro e he
    have := h e he
    revert this; cases e <;> simp [passesBody]
  · intro k v hm
    have := h _ hm
    simp [passesBody] at this

theorem runWT_record (D : RW ω) (t : WT β) (w : ω) (l : List WEv) (m : List BEv) :
    ∃ b' bm w' T, runWT D.record.write (t.record m) ⟨w, l⟩ =
        (⟨b', m ++ bm⟩, ⟨w', l ++ T⟩, (runWT D.write t w).2.2) ∧ (runWT D.write t w).1 = b' ∧ (runWT D.write t w).2.1 = w' ∧
      (∀ e ∈ T, passesBody e = true) ∧ bodyCloses bm = [] ∧ WEv.readFrom ∉ T ∧ (∀ n e, WEv.readFromDone n e ∉ T) ∧
      (∃ x, handed T = bodyGave bm ++ x ∧ (∀ n err, (runWT D.write t w).2.2 = .ret (n, err) → x = [])) ∧
      (∀ k r, BEv.read k r ∉ bm) ∧
      ∀ n err, (runWT D.write t w).2.2 = .ret (n, err) → bm.getLast? = some (.writeToDone n err) := by
  induction t generalizing w l m with
  | done b n err =>
    refine ⟨b, [.writeToDone n err], w, [], by simp [WT.record, runWT], rfl, rfl, by simp, rfl, by simp, by simp,
      ⟨[], rfl, by simp⟩, by simp, ?_⟩
    intro n' err' h
    simp [runWT] at h
    simp [h]
  | write b d cont ih =>
    rcases hw : D.write w d with ⟨w1, r⟩
    cases r with
    | ret a =>
      obtain ⟨n, err⟩ := a
      obtain ⟨b', bm, w', T, h1, h2, h3, h4, h5, h6, h7, ⟨x, h8, h8'⟩, h9, h10⟩ :=
        ih n err w1 (l ++ [.write d (.ret (n, err))]) (m ++ [.gave d n err])
      simp only [runWT, WT.record, hw]
      simp only [RW.record, hw] at h1 ⊢
      refine ⟨b', .gave d n err :: bm, w', .write d (.ret (n, err)) :: T, by simpa using h1, h2, h3, ?_, ?_, by simpa using h6,
        by simpa using h7, ⟨x, by simp [handed, bodyGave, h8], h8'⟩, by simpa using h9, ?_⟩
      · intro e he
        rcases List.mem_cons.1 he with rfl | he
        · rfl
        · exact h4 e he
      · simpa [bodyCloses] using h5
      · intro n' err' h
        have := h10 n' err' h
        simp [List.getLast?_cons, this]
    | panic p =>
      simp only [runWT, WT.record, RW.record, hw]
      exact ⟨b, [], w1, [.write d (.panic p)], by simp, rfl, rfl, by simp [passesBody], rfl, by simp, by simp,
        ⟨d, by simp [handed, bodyGave], by simp⟩, by simp, by simp⟩
    | hang =>
      simp only [runWT, WT.record, RW.record, hw]
      exact ⟨b, [], w1, [.write d .hang], by simp, rfl, rfl, by simp [passesBody], rfl, by simp, by simp,
        ⟨d, by simp [handed, bodyGave], by simp⟩, by simp, by simp⟩
  | panic b p =>
    exact ⟨b, [], w, [], by simp [WT.record, runWT], rfl, rfl, by simp, rfl, by simp, by simp, ⟨[], rfl, by simp⟩, by simp,
      by simp [runWT]⟩
  | hang b =>
    exact ⟨b, [], w, [], by simp [WT.record, runWT], rfl, rfl, by simp, rfl, by simp, by simp, ⟨[], rfl, by simp⟩, by simp,
      by simp [runWT]⟩

/-- The Body's log does not depend on who is written to. -/
theorem runWT_body (write : ω → List Byte → ω × WAns) (t : WT β) (w : ω) (m : List BEv) :
    ∃ bm, runWT write (t.record m) w = (⟨(runWT write t w).1, m ++ bm⟩, (runWT write t w).2) ∧ bodyCloses bm = [] := by
  induction t generalizing w m with
  | done b n err => exact ⟨[.writeToDone n err], by simp [WT.record, runWT], rfl⟩
  | write b d cont ih =>
    rcases hw : write w d with ⟨w1, r⟩
    cases r with
    | ret a =>
      obtain ⟨n, err⟩ := a
      obtain ⟨bm, h1, h2⟩ := ih n err w1 (m ++ [.gave d n err])
      refine ⟨.gave d n err :: bm, ?_, by simpa [bodyCloses] using h2⟩
      simp only [WT.record, runWT, hw]
      rw [h1]; simp
    | panic p => exact ⟨[], by simp [WT.record, runWT, hw], rfl⟩
    | hang => exact ⟨[], by simp [WT.record, runWT, hw], rfl⟩
  | panic b p => exact ⟨[], by simp [WT.record, runWT], rfl⟩
  | hang b => exact ⟨[], by simp [WT.record, runWT], rfl⟩

theorem discardLoop_record (B : BodyOps β) (fuel : Nat) (b : β) (n : Int) (m : List BEv) :
    ∃ bm, discardLoop B.record fuel ⟨b, m⟩ n = (⟨(discardLoop B fuel b n).1, m ++ bm⟩, (discardLoop B fuel b n).2) ∧
      bodyCloses bm = [] ∧ ∀ e ∈ bm, ∃ k r, e = .read k r := by
  induction fuel generalizing b n m with
  | zero => exact ⟨[], by simp [discardLoop], rfl, by simp⟩
  | succ fuel ih =>
    rcases hr : B.read b 8192 with ⟨b1, r⟩
    cases r with
    | ret a =>
      obtain ⟨d, e⟩ := a
      cases e with
      | none =>
        obtain ⟨bm, h1, h2, h3⟩ := ih b1 (n + d.length) (m ++ [.read 8192 (.ret (d, none))])
        refine ⟨.read 8192 (.ret (d, none)) :: bm, ?_, by simpa [bodyCloses] using h2, by simpa using h3⟩
        simp only [discardLoop, hr]
        simp only [BodyOps.record, hr] at h1 ⊢
        rw [h1]; simp
      | some e =>
        exact ⟨[.read 8192 (.ret (d, some e))], by simp [discardLoop, hr, BodyOps.record], rfl, by simp⟩
    | panic p => exact ⟨[.read 8192 (.panic p)], by simp [discardLoop, hr, BodyOps.record], rfl, by simp⟩
    | hang => exact ⟨[.read 8192 .hang], by simp [discardLoop, hr, BodyOps.record], rfl, by simp⟩

theorem discardAll_record (B : BodyOps β) (fuel : Nat) (b : β) (m : List BEv) :
    ∃ bm, discardAll B.record fuel ⟨b, m⟩ = (⟨(discardAll B fuel b).1, m ++ bm⟩, (discardAll B fuel b).2) ∧
      bodyCloses bm = [] ∧ (B.isWriterTo = false → ∀ n err, BEv.writeToDone n err ∉ bm) := by
  unfold discardAll
  by_cases h : B.isWriterTo = true
  · have h' : B.record.isWriterTo = true := h
    rw [if_pos h, if_pos h']
    obtain ⟨bm, h1, h2⟩ := runWT_body (fun (w : Unit) (d : List Byte) => (w, (.ret (d.length, none) : WAns))) (B.writeTo b) () m
    exact ⟨bm, by simp only [BodyOps.record]; rw [h1], h2, by simp [h]⟩
  · have h' : ¬ B.record.isWriterTo = true := h
    rw [if_neg h, if_neg h']
    obtain ⟨bm, h1, h2, h3⟩ := discardLoop_record B fuel b 0 m
    refine ⟨bm, h1, h2, fun _ n err hm => ?_⟩
    obtain ⟨k, r, h⟩ := h3 _ hm
    simp at h

theorem runRF_record (B : BodyOps β) (fuel : Nat) (t : RF ω) (b : β) (l : List WEv) (m : List BEv) :
    ∃ bm T, runRF B.record fuel (t.record l) ⟨b, m⟩ =
        (⟨(runRF B fuel t b).1, m ++ bm⟩, ⟨(runRF B fuel t b).2.1, l ++ T⟩, (runRF B fuel t b).2.2) ∧
      (∀ e ∈ T, passesBody e = true) ∧ bodyCloses bm = [] ∧ (handed T).Sublist (bodyGave bm) ∧
      (NoDrain t → handed T = bodyGave bm) ∧
      (∀ n err, (runRF B fuel t b).2.2 = .ret (n, err) → T.getLast? = some (.readFromDone n err)) ∧
      (B.isWriterTo = false → ∀ n err, BEv.writeToDone n err ∉ bm) := by
  induction t generalizing b l m with
  | done w n err =>
    refine ⟨[], [.readFromDone n err], by simp [RF.record, runRF], by simp [passesBody], rfl, by simp [handed], by simp [handed, bodyGave],
      ?_, by simp⟩
    intro n' err' h
    simp [runRF] at h
    simp [h]
  | read w k cont ih =>
    rcases hr : B.read b k with ⟨b1, r⟩
    cases r with
    | ret a =>
      obtain ⟨d, e⟩ := a
      obtain ⟨bm, T, h1, h2, h3, h4, h5, h6, h7⟩ := ih d e b1 (l ++ [.took d]) (m ++ [.read k (.ret (d, e))])
      refine ⟨.read k (.ret (d, e)) :: bm, .took d :: T, ?_, ?_, by simpa [bodyCloses] using h3, ?_, ?_, ?_, ?_⟩
      · simp only [RF.record, runRF, hr]
        simp only [BodyOps.record, hr] at h1 ⊢
        rw [h1]; simp
      · intro x hx
        rcases List.mem_cons.1 hx with rfl | hx
        · rfl
        · exact h2 x hx
      · simpa [handed, bodyGave] using h4
      · intro hn
        simp [handed, bodyGave, h5 (hn d e)]
      · intro n err h
        simp only [runRF, hr] at h
        have := h6 n err h
        simp [List.getLast?_cons, this]
      · intro hb n err h
        simp at h
        exact h7 hb n err h
    | panic p =>
      exact ⟨[.read k (.panic p)], [], by simp [RF.record, runRF, hr, BodyOps.record], by simp, rfl, by simp [handed],
        by simp [handed, bodyGave], by simp [runRF, hr], by simp⟩
    | hang =>
      exact ⟨[.read k .hang], [], by simp [RF.record, runRF, hr, BodyOps.record], by simp, rfl, by simp [handed],
        by simp [handed, bodyGave], by simp [runRF, hr], by simp⟩
  | drain w cont ih =>
    obtain ⟨bm0, g1, g2, g3⟩ := discardAll_record B fuel b m
    rcases hr : discardAll B fuel b with ⟨b1, r⟩
    rw [hr] at g1
    cases r with
    | ret a =>
      obtain ⟨n, e⟩ := a
      obtain ⟨bm, T, h1, h2, h3, h4, h5, h6, h7⟩ := ih n e b1 l (m ++ bm0)
      refine ⟨bm0 ++ bm, T, ?_, h2, by rw [bodyCloses_append, g2, h3]; rfl, ?_, by simp [NoDrain], ?_, ?_⟩
      · simp only [RF.record, runRF, hr, g1]
        rw [h1]; simp
      · rw [bodyGave_append]
        exact h4.trans (List.sublist_append_right _ _)
      · intro n err h
        simp only [runRF, hr] at h
        exact h6 n err h
      · intro hb n err h
        rcases List.mem_append.1 h with h | h
        · exact g3 hb n err h
        · exact h7 hb n err h
    | panic p =>
      exact ⟨bm0, [], by simp [RF.record, runRF, hr, g1], by simp, g2, by simp [handed],
        by simp [NoDrain], by simp [runRF, hr], g3⟩
    | hang =>
      exact ⟨bm0, [], by simp [RF.record, runRF, hr, g1], by simp, g2, by simp [handed],
        by simp [NoDrain], by simp [runRF, hr], g3⟩
  | panic w p =>
    exact ⟨[], [], by simp [RF.record, runRF], by simp, rfl, by simp [handed], by simp [handed, bodyGave], by simp [runRF], by simp⟩
  | hang w =>
    exact ⟨[], [], by simp [RF.record, runRF], by simp, rfl, by simp [handed], by simp [handed, bodyGave], by simp [runRF], by simp⟩

/-- The loop of `io.Copy`. -/
theorem copyLoop_record (D : RW ω) (B : BodyOps β) (fuel : Nat) (b : β) (w : ω) (n0 : Int) (l : List WEv) (m : List BEv) :
    ∃ bm T, copyLoop D.record B.record fuel ⟨b, m⟩ ⟨w, l⟩ n0 =
        (⟨(copyLoop D B fuel b w n0).1, m ++ bm⟩, ⟨(copyLoop D B fuel b w n0).2.1, l ++ T⟩, (copyLoop D B fuel b w n0).2.2) ∧
      (∀ e ∈ T, ∃ d r, e = .write d r) ∧ (∀ e ∈ bm, ∃ k r, e = .read k r) ∧ (handed T).Sublist (bodyGave bm) ∧
      (∀ n err, (copyLoop D B fuel b w n0).2.2 = .ret (n, err) → handed T = bodyGave bm ∧ bm ≠ [] ∧
        (err = none ↔ (∃ k d, bm.getLast? = some (.read k (.ret (d, some .eof)))) ∧
          ∀ d r, WEv.write d r ∈ T → r = .ret (d.length, none))) := by
  induction fuel generalizing b w n0 l m with
  | zero => exact ⟨[], [], by simp [copyLoop], by simp, by simp, by simp [handed], by simp [copyLoop]⟩
  | succ fuel ih =>
    rcases hr : B.read b 32768 with ⟨b1, r⟩
    cases r with
    | panic p =>
      exact ⟨[.read 32768 (.panic p)], [], by simp [copyLoop, hr, BodyOps.record], by simp, by simp, by simp [handed], by simp [copyLoop, hr]⟩
    | hang =>
      exact ⟨[.read 32768 .hang], [], by simp [copyLoop, hr, BodyOps.record], by simp, by simp, by simp [handed], by simp [copyLoop, hr]⟩
    | ret a =>
      obtain ⟨d, er⟩ := a
      by_cases hd : d.length > 0
      · by_cases hd2 : d.length > 32768
        · exact ⟨[.read 32768 (.ret (d, er))], [], by simp [copyLoop, hr, BodyOps.record, hd, hd2], by simp, by simp, by simp [handed],
            by simp [copyLoop, hr, hd, hd2]⟩
        · rcases hw : D.write w d with ⟨w1, rw1⟩
          cases rw1 with
          | panic p =>
            exact ⟨[.read 32768 (.ret (d, er))], [.write d (.panic p)], by simp [copyLoop, hr, BodyOps.record, hd, hd2, RW.record, hw],
              by simp, by simp, by simp [handed, bodyGave], by simp [copyLoop, hr, hd, hd2, hw]⟩
          | hang =>
            exact ⟨[.read 32768 (.ret (d, er))], [.write d .hang], by simp [copyLoop, hr, BodyOps.record, hd, hd2, RW.record, hw],
              by simp, by simp, by simp [handed, bodyGave], by simp [copyLoop, hr, hd, hd2, hw]⟩
          | ret a =>
            obtain ⟨nw, ew⟩ := a
            -- the outcome of this round does not depend on the logs
            by_cases hok : nw = d.length ∧ ew = none
            · obtain ⟨rfl, rfl⟩ := hok
              have hbad : ¬ ((d.length : Int) < 0) := by omega
              cases er with
              | some e =>
                refine ⟨[.read 32768 (.ret (d, some e))], [.write d (.ret (d.length, none))], ?_, by simp, by simp,
                  by simp [handed, bodyGave], ?_⟩
                · simp [copyLoop, hr, BodyOps.record, hd, hd2, RW.record, hw, hbad]
                · intro n err h
                  simp [copyLoop, hr, hd, hd2, hw, hbad] at h
                  obtain ⟨-, rfl⟩ := h
                  refine ⟨by simp [handed, bodyGave], by simp, ?_⟩
                  by_cases he : e = .eof
                  · subst he; simp
                  · simp [he]
              | none =>
                obtain ⟨bm, T, h1, h2, h3, h4, h5⟩ := ih b1 w1 (n0 + d.length) (l ++ [.write d (.ret (d.length, none))])
                  (m ++ [.read 32768 (.ret (d, none))])
                have e0 : copyLoop D B (fuel + 1) b w n0 = copyLoop D B fuel b1 w1 (n0 + d.length) := by
                  rw [copyLoop]; simp [hr, hd, hd2, hw, hbad]
                have e1 : copyLoop D.record B.record (fuel + 1) ⟨b, m⟩ ⟨w, l⟩ n0 =
                    copyLoop D.record B.record fuel ⟨b1, m ++ [.read 32768 (.ret (d, none))]⟩
                      ⟨w1, l ++ [.write d (.ret (d.length, none))]⟩ (n0 + d.length) := by
                  rw [copyLoop]; simp [hr, hd, hd2, hw, hbad, BodyOps.record, RW.record]
                refine ⟨.read 32768 (.ret (d, none)) :: bm, .write d (.ret (d.length, none)) :: T, ?_, by simpa using h2,
                  by simpa using h3, by simpa [handed, bodyGave] using h4, ?_⟩
                · rw [e1, h1, e0]; simp
                · intro n err h
                  rw [e0] at h
                  obtain ⟨q1, q2, q3⟩ := h5 n err h
                  refine ⟨by simp [handed, bodyGave, q1], by simp, ?_⟩
                  rw [q3]
                  have e3 : (BEv.read 32768 (.ret (d, none)) :: bm).getLast? = bm.getLast? := by
                    cases bm with
                    | nil => exact absurd rfl q2
                    | cons x bm => simp [List.getLast?_cons]
                  rw [e3]
                  constructor
                  · rintro ⟨a1, a2⟩
                    refine ⟨a1, ?_⟩
                    intro d' r' hm
                    rcases List.mem_cons.1 hm with hm | hm
                    · cases hm; rfl
                    · exact a2 d' r' hm
                  · rintro ⟨a1, a2⟩
                    exact ⟨a1, fun d' r' hm => a2 d' r' (List.mem_cons_of_mem _ hm)⟩
            · refine ⟨[.read 32768 (.ret (d, er))], [.write d (.ret (nw, ew))], ?_, by simp, by simp, by simp [handed, bodyGave], ?_⟩
              · by_cases hbad : nw < 0 ∨ (d.length : Int) < nw
                · cases ew <;> simp [copyLoop, hr, BodyOps.record, hd, hd2, RW.record, hw, hbad]
                · cases ew with
                  | some e => simp [copyLoop, hr, BodyOps.record, hd, hd2, RW.record, hw, hbad]
                  | none =>
                    have : ¬ ((d.length : Int) = nw) := fun h => hok ⟨h.symm, rfl⟩
                    simp [copyLoop, hr, BodyOps.record, hd, hd2, RW.record, hw, hbad, this]
              · intro n err h
                refine ⟨by simp [handed, bodyGave], by simp, ?_⟩
                have hne : err ≠ none := by
                  by_cases hbad : nw < 0 ∨ (d.length : Int) < nw
                  · cases ew <;> simp [copyLoop, hr, hd, hd2, hw, hbad] at h <;> simp [← h.2]
                  · cases ew with
                    | some e => simp [copyLoop, hr, hd, hd2, hw, hbad] at h; simp [← h.2]
                    | none =>
                      have : ¬ ((d.length : Int) = nw) := fun h => hok ⟨h.symm, rfl⟩
                      simp [copyLoop, hr, hd, hd2, hw, hbad, this] at h; simp [← h.2]
                constructor
                · intro h'; exact absurd h' hne
                · rintro ⟨-, a2⟩
                  have := a2 d _ (List.mem_singleton.2 rfl)
                  simp at this
                  exact absurd this hok
      · have hd0 : d = [] := by cases d <;> simp_all
        subst hd0
        cases er with
        | some e =>
          refine ⟨[.read 32768 (.ret ([], some e))], [], ?_, by simp, by simp, by simp [handed, bodyGave], ?_⟩
          · simp [copyLoop, hr, BodyOps.record]
          · intro n err h
            simp [copyLoop, hr] at h
            obtain ⟨-, rfl⟩ := h
            refine ⟨by simp [handed, bodyGave], by simp, ?_⟩
            by_cases he : e = .eof
            · subst he; simp
            · simp [he]
        | none =>
          obtain ⟨bm, T, h1, h2, h3, h4, h5⟩ := ih b1 w n0 l (m ++ [.read 32768 (.ret ([], none))])
          have e0 : copyLoop D B (fuel + 1) b w n0 = copyLoop D B fuel b1 w n0 := by
            rw [copyLoop]; simp [hr]
          have e1 : copyLoop D.record B.record (fuel + 1) ⟨b, m⟩ ⟨w, l⟩ n0 =
              copyLoop D.record B.record fuel ⟨b1, m ++ [.read 32768 (.ret ([], none))]⟩ ⟨w, l⟩ n0 := by
            rw [copyLoop]; simp [hr, BodyOps.record]
          refine ⟨.read 32768 (.ret ([], none)) :: bm, T, ?_, h2, by simpa using h3, by simpa [bodyGave] using h4, ?_⟩
          · rw [e1, h1, e0]; simp
          · intro n err h
            rw [e0] at h
            obtain ⟨q1, q2, q3⟩ := h5 n err h
            refine ⟨by simp [bodyGave, q1], by simp, ?_⟩
            rw [q3]
            have e3 : (BEv.read 32768 (.ret ([], none)) :: bm).getLast? = bm.getLast? := by
              cases bm with
              | nil => exact absurd rfl q2
              | cons x bm => simp [List.getLast?_cons]
            rw [e3]

/-- `io.Copy`: recording changes nothing, and what is appended to the logs. -/
theorem ioCopy_record (D : RW ω) (B : BodyOps β) (fuel : Nat) (b : β) (w : ω) (l : List WEv) (m : List BEv) :
    ∃ bm T, ioCopy D.record B.record fuel ⟨b, m⟩ ⟨w, l⟩ =
        (⟨(ioCopy D B fuel b w).1, m ++ bm⟩, ⟨(ioCopy D B fuel b w).2.1, l ++ T⟩, (ioCopy D B fuel b w).2.2) ∧
      (∀ e ∈ T, passesBody e = true) ∧ bodyCloses bm = [] ∧
      (∀ n err, (ioCopy D B fuel b w).2.2 = .ret (n, err) → (err = none ↔ Delivered bm T)) ∧
      ((∀ w, NoDrain (D.readFrom w)) → ∀ n err, (ioCopy D B fuel b w).2.2 = .ret (n, err) → handed T = bodyGave bm) := by
  by_cases hW : B.isWriterTo = true
  · have e0 : ioCopy D B fuel b w = runWT D.write (B.writeTo b) w := by simp [ioCopy, hW]
    have e1 : ioCopy D.record B.record fuel ⟨b, m⟩ ⟨w, l⟩ = runWT D.record.write ((B.writeTo b).record m) ⟨w, l⟩ := by
      have : B.record.isWriterTo = true := hW
      simp only [ioCopy, this, if_true]; rfl
    obtain ⟨b', bm, w', T, h1, h2, h3, h4, h5, h6, h7, ⟨x, h8, h8'⟩, h9, h10⟩ := runWT_record D (B.writeTo b) w l m
    refine ⟨bm, T, ?_, h4, h5, ?_, ?_⟩
    · rw [e0, e1, h1, h2, h3]
    · intro n err h
      rw [e0] at h
      have hl := h10 n err h
      constructor
      · rintro rfl; exact .inl ⟨n, hl⟩
      · rintro (⟨n', h'⟩ | ⟨n', h'⟩ | ⟨⟨k, d, h'⟩, -, -⟩)
        · rw [hl] at h'; simp at h'; exact h'.2
        · exact absurd (List.mem_of_getLast? h') (h7 n' none)
        · exact absurd (List.mem_of_getLast? h') (h9 _ _)
    · intro _ n err h
      rw [e0] at h
      rw [h8, h8' n err h]; simp
  · have hW' : B.isWriterTo = false := by simpa using hW
    by_cases hR : D.isReaderFrom = true
    · have e0 : ioCopy D B fuel b w = runRF B fuel (D.readFrom w) b := by simp [ioCopy, hW', hR]
      have e1 : ioCopy D.record B.record fuel ⟨b, m⟩ ⟨w, l⟩ = runRF B.record fuel ((D.readFrom w).record (l ++ [.readFrom])) ⟨b, m⟩ := by
        have h1 : B.record.isWriterTo = false := hW'
        have h2 : D.record.isReaderFrom = true := hR
        simp only [ioCopy, h1, h2, if_true, Bool.false_eq_true, if_false]; rfl
      obtain ⟨bm, T, h1, h2, h3, h4, h5, h6, h7⟩ := runRF_record B fuel (D.readFrom w) b (l ++ [.readFrom]) m
      refine ⟨bm, .readFrom :: T, ?_, ?_, h3, ?_, ?_⟩
      · rw [e0, e1, h1]; simp
      · intro e he
        rcases List.mem_cons.1 he with rfl | he
        · rfl
        · exact h2 e he
      · intro n err h
        rw [e0] at h
        have hl := h6 n err h
        have hl' : (WEv.readFrom :: T).getLast? = some (.readFromDone n err) := by simp [List.getLast?_cons, hl]
        constructor
        · rintro rfl; exact .inr (.inl ⟨n, hl'⟩)
        · rintro (⟨n', h'⟩ | ⟨n', h'⟩ | ⟨-, h', -⟩)
          · exact absurd (List.mem_of_getLast? h') (h7 hW' n' none)
          · rw [hl'] at h'; simp at h'; exact h'.2
          · simp at h'
      · intro hN n err h
        simpa [handed] using h5 (hN w)
    · have hR' : D.isReaderFrom = false := by simpa using hR
      have e0 : ioCopy D B fuel b w = copyLoop D B fuel b w 0 := by simp [ioCopy, hW', hR']
      have e1 : ioCopy D.record B.record fuel ⟨b, m⟩ ⟨w, l⟩ = copyLoop D.record B.record fuel ⟨b, m⟩ ⟨w, l⟩ 0 := by
        have h1 : B.record.isWriterTo = false := hW'
        have h2 : D.record.isReaderFrom = false := hR'
        simp only [ioCopy, h1, h2, Bool.false_eq_true, if_false]
      obtain ⟨bm, T, h1, h2, h3, h4, h5⟩ := copyLoop_record D B fuel b w 0 l m
      have hrf : WEv.readFrom ∉ T := by
        intro hm; obtain ⟨d, r, h⟩ := h2 _ hm; simp at h
      refine ⟨bm, T, ?_, ?_, ?_, ?_, ?_⟩
      · rw [e0, e1, h1]
      · intro e he
        obtain ⟨d, r, rfl⟩ := h2 e he; rfl
      · simp only [bodyCloses, List.filterMap_eq_nil_iff]
        intro e he
        obtain ⟨k, r, rfl⟩ := h3 e he; rfl
      · intro n err h
        rw [e0] at h
        rw [(h5 n err h).2.2]
        constructor
        · rintro ⟨a, b⟩; exact .inr (.inr ⟨a, hrf, b⟩)
        · rintro (⟨n', h'⟩ | ⟨n', h'⟩ | ⟨a, -, b⟩)
          · obtain ⟨k, r, h⟩ := h3 _ (List.mem_of_getLast? h'); simp at h
          · obtain ⟨k, r, h⟩ := h2 _ (List.mem_of_getLast? h'); simp at h
          · exact ⟨a, b⟩
      · intro _ n err h
        rw [e0] at h
        exact (h5 n err h).1

/-! ## Serving -/

/-- The `set` events for the headers other than Push. -/
def sets (hdrs : List (GoStr × List GoStr)) : List WEv := (hdrs.filter fun e => e.1 ≠ headerPush).map fun e => .set e.1 e.2

/-- The two logs of `Serve`. -/
theorem serve_record (D : RW ω) (B : BodyOps β) (fuel : Nat) (r : Resp β) (w : ω) (l : List WEv) (m : List BEv) :
    ∃ bm L o, serve D.record B.record fuel { code := r.code, hdrs := r.hdrs, body := ⟨r.body, m⟩, err := r.err } ⟨w, l⟩ =
        (⟨(serve D B fuel r w).1, m ++ bm⟩, ⟨(serve D B fuel r w).2.1, l ++ L⟩, o) ∧ o = (serve D B fuel r w).2.2 ∧
      ((∃ P u q rest, D.isPusher = true ∧ L = P ++ [.push u q] ∧ hdrGet r.hdrs headerPush = pushes P ++ u :: rest ∧ PushesOk P ∧
          q ≠ .ret none ∧ q ≠ .ret (some .notSupported) ∧ o = q ∧ bm = []) ∨
       (∃ P T, L = P ++ sets r.hdrs ++ .status r.code :: T ∧ PushesOk P ∧
          pushes P = (if D.isPusher then hdrGet r.hdrs headerPush else []) ∧
          (∀ e ∈ T, passesBody e = true) ∧
          ((o = .hang ∧ bodyCloses bm = []) ∨ (∃ p, o = .panic p ∧ bodyCloses bm = []) ∨
           (∃ bm' q, bm = bm' ++ [.close q] ∧ bodyCloses bm' = [] ∧
             ((∀ err, q = .ret err → (o = .ret none ↔ err = none ∧ Delivered bm' T) ∧ ∃ e, o = .ret e) ∧
              (∀ p, q = .panic p → o = .panic p) ∧ (q = .hang → o = .hang)) ∧
             ((∀ w, NoDrain (D.readFrom w)) → handed T = bodyGave bm'))))) := by
  -- the pushes
  have hpush : (∃ w' P, (if D.record.isPusher then pushAll D.record (hdrGet r.hdrs headerPush) ⟨w, l⟩ else (⟨w, l⟩, none)) =
        (⟨w', l ++ P⟩, none) ∧ (if D.isPusher then pushAll D (hdrGet r.hdrs headerPush) w else (w, none)) = (w', none) ∧
        PushesOk P ∧ pushes P = (if D.isPusher then hdrGet r.hdrs headerPush else [])) ∨
      (∃ w' P u q rest, (if D.record.isPusher then pushAll D.record (hdrGet r.hdrs headerPush) ⟨w, l⟩ else (⟨w, l⟩, none)) =
        (⟨w', l ++ P ++ [.push u q]⟩, some q) ∧
        (if D.isPusher then pushAll D (hdrGet r.hdrs headerPush) w else (w, none)) = (w', some q) ∧ D.isPusher = true ∧
        hdrGet r.hdrs headerPush = pushes P ++ u :: rest ∧ PushesOk P ∧ q ≠ .ret none ∧ q ≠ .ret (some .notSupported)) := by
    have hsame : D.record.isPusher = D.isPusher := rfl
    rw [hsame]
    by_cases hp : D.isPusher = true
    · simp only [hp, if_true]
      have htr : ∀ (urls : List GoStr) (w : ω) (l : List WEv), pushAll D urls w =
          ((pushAll D.record urls ⟨w, l⟩).1.inner, (pushAll D.record urls ⟨w, l⟩).2) := by
        intro urls
        induction urls with
        | nil => intro w l; rfl
        | cons u urls ih =>
          intro w l
          rcases hd : D.push w u with ⟨w1, q⟩
          cases q with
          | ret a =>
            cases a with
            | none => simp only [pushAll, RW.record, hd]; exact ih _ _
            | some e =>
              by_cases he : e = .notSupported
              · simp only [pushAll, RW.record, hd, he]; exact ih _ _
              · simp [pushAll, RW.record, hd, he]
          | panic p => simp [pushAll, RW.record, hd]
          | hang => simp [pushAll, RW.record, hd]
      rcases pushAll_record D (hdrGet r.hdrs headerPush) w l with ⟨w', P, h1, h2, h3⟩ | ⟨w', P, u, q, rest, h1, h2⟩
      · exact .inl ⟨w', P, h1, by rw [htr _ w l, h1], h3, h2⟩
      · exact .inr ⟨w', P, u, q, rest, h1, by rw [htr _ w l, h1], trivial, h2⟩
    · have hp : D.isPusher = false := by simpa using hp
      simp only [hp, Bool.false_eq_true, if_false]
      exact .inl ⟨w, [], by simp, rfl, by simp [PushesOk], rfl⟩
  rcases hpush with ⟨w1, P, h1, h2, h3, h4⟩ | ⟨w1, P, u, q, rest, h1, h2, h3, h4, h5, h6, h7⟩
  · rcases hst : D.writeHeader (setAll D r.hdrs w1) r.code with ⟨w2, rs⟩
    have es : setAll D.record r.hdrs ⟨w1, l ++ P⟩ = ⟨setAll D r.hdrs w1, l ++ P ++ sets r.hdrs⟩ := setAll_record D r.hdrs w1 (l ++ P)
    have ew : D.record.writeHeader ⟨setAll D r.hdrs w1, l ++ P ++ sets r.hdrs⟩ r.code =
        (⟨w2, l ++ P ++ sets r.hdrs ++ [.status r.code]⟩, rs) := by simp [RW.record, hst]
    cases rs with
    | panic p =>
      refine ⟨[], P ++ sets r.hdrs ++ [.status r.code], .panic p, ?_, ?_, .inr ⟨P, [], by simp, h3, h4, by simp, .inr (.inl ⟨p, rfl, rfl⟩)⟩⟩
      · simp only [serve, h1, h2, es, ew, hst]; simp
      · simp [serve, h2, hst]
    | hang =>
      refine ⟨[], P ++ sets r.hdrs ++ [.status r.code], .hang, ?_, ?_, .inr ⟨P, [], by simp, h3, h4, by simp, .inl ⟨rfl, rfl⟩⟩⟩
      · simp only [serve, h1, h2, es, ew, hst]; simp
      · simp [serve, h2, hst]
    | ret u =>
      obtain ⟨bm, T, c1, c2, c3, c4, c5⟩ := ioCopy_record D B fuel r.body w2 (l ++ P ++ sets r.hdrs ++ [.status r.code]) m
      rcases hc : ioCopy D B fuel r.body w2 with ⟨b3, w3, ans⟩
      rw [hc] at c1 c4 c5
      dsimp only at c1 c4 c5
      cases ans with
      | panic p =>
        refine ⟨bm, P ++ sets r.hdrs ++ .status r.code :: T, .panic p, ?_, ?_,
          .inr ⟨P, T, by simp, h3, h4, c2, .inr (.inl ⟨p, rfl, c3⟩)⟩⟩
        · simp only [serve, h1, h2, es, ew, hst, c1, hc]; simp
        · simp [serve, h2, hst, hc]
      | hang =>
        refine ⟨bm, P ++ sets r.hdrs ++ .status r.code :: T, .hang, ?_, ?_,
          .inr ⟨P, T, by simp, h3, h4, c2, .inl ⟨rfl, c3⟩⟩⟩
        · simp only [serve, h1, h2, es, ew, hst, c1, hc]; simp
        · simp [serve, h2, hst, hc]
      | ret a =>
        obtain ⟨n, err⟩ := a
        rcases hcl : B.close b3 with ⟨b4, q⟩
        have ecl : B.record.close ⟨b3, m ++ bm⟩ = (⟨b4, m ++ bm ++ [.close q]⟩, q) := by simp [BodyOps.record, hcl]
        cases q with
        | panic p =>
          refine ⟨bm ++ [.close (.panic p)], P ++ sets r.hdrs ++ .status r.code :: T, .panic p, ?_, ?_,
            .inr ⟨P, T, by simp, h3, h4, c2, .inr (.inr ⟨bm, .panic p, rfl, c3, ⟨by simp, by simp, by simp⟩, fun hN => c5 hN n err rfl⟩)⟩⟩
          · simp only [serve, h1, h2, es, ew, hst, c1, hc, ecl, hcl]; simp
          · simp [serve, h2, hst, hc, hcl]
        | hang =>
          refine ⟨bm ++ [.close .hang], P ++ sets r.hdrs ++ .status r.code :: T, .hang, ?_, ?_,
            .inr ⟨P, T, by simp, h3, h4, c2, .inr (.inr ⟨bm, .hang, rfl, c3, ⟨by simp, by simp, by simp⟩, fun hN => c5 hN n err rfl⟩)⟩⟩
          · simp only [serve, h1, h2, es, ew, hst, c1, hc, ecl, hcl]; simp
          · simp [serve, h2, hst, hc, hcl]
        | ret err2 =>
          refine ⟨bm ++ [.close (.ret err2)], P ++ sets r.hdrs ++ .status r.code :: T, .ret (if err = none then err2 else err), ?_, ?_,
            .inr ⟨P, T, by simp, h3, h4, c2, .inr (.inr ⟨bm, .ret err2, rfl, c3, ⟨?_, by simp, by simp⟩, fun hN => c5 hN n err rfl⟩)⟩⟩
          · simp only [serve, h1, h2, es, ew, hst, c1, hc, ecl, hcl]; simp
          · simp [serve, h2, hst, hc, hcl]
          · intro err' he
            simp at he
            subst he
            refine ⟨?_, _, rfl⟩
            rw [← c4 n err rfl]
            cases err <;> simp
  · refine ⟨[], P ++ [.push u q], q, ?_, ?_, .inl ⟨P, u, q, rest, h3, rfl, h4, h5, h6, h7, rfl, rfl⟩⟩
    · simp only [serve, h1, h2]; simp
    · simp [serve, h2]

/-! ## Bodies with a content -/

theorem runWT_source (D : RW ω) (hD : HonestWriter D) (t : WT β) (C : List Byte) (ht : WTGood t C) (w : ω) (l : List WEv) :
    ∃ T C', (runWT D.record.write t ⟨w, l⟩).2.1.log = l ++ T ∧ C = handed T ++ C' ∧
      ∀ n, (runWT D.record.write t ⟨w, l⟩).2.2 = .ret (n, none) → C' = [] := by
  induction t generalizing C w l with
  | done b n err =>
    refine ⟨[], C, by simp [runWT], rfl, ?_⟩
    intro n' h
    simp [runWT] at h
    exact ht h.2
  | write b d cont ih =>
    obtain ⟨C1, rfl, h1, h2⟩ := ht
    rcases hw : D.write w d with ⟨w1, r⟩
    cases r with
    | ret a =>
      obtain ⟨n, err⟩ := a
      cases err with
      | none =>
        have hn : n = d.length := hD.write w d n (by rw [hw])
        subst hn
        obtain ⟨T, C', q1, q2, q3⟩ := ih _ _ C1 h1 w1 (l ++ [.write d (.ret (d.length, none))])
        have e1 : runWT D.record.write (.write b d cont) ⟨w, l⟩ =
            runWT D.record.write (cont d.length none) ⟨w1, l ++ [.write d (.ret (d.length, none))]⟩ := by
          simp only [runWT, RW.record, hw]
        rw [e1]
        exact ⟨.write d (.ret (d.length, none)) :: T, C', by rw [q1]; simp, by simp [handed, q2], q3⟩
      | some e =>
        have hf := h2 n e
        have e1 : runWT D.record.write (.write b d cont) ⟨w, l⟩ =
            runWT D.record.write (cont n (some e)) ⟨w1, l ++ [.write d (.ret (n, some e))]⟩ := by
          simp only [runWT, RW.record, hw]
        rw [e1]
        cases ht : cont n (some e) with
        | done b' n' err' =>
          rw [ht] at hf
          refine ⟨[.write d (.ret (n, some e))], C1, by simp [runWT], by simp [handed], ?_⟩
          intro n'' h
          simp [runWT] at h
          exact absurd h.2 hf
        | write b' d' c' => rw [ht] at hf; exact hf.elim
        | panic b' p => exact ⟨[.write d (.ret (n, some e))], C1, by simp [runWT], by simp [handed], by simp [runWT]⟩
        | hang b' => exact ⟨[.write d (.ret (n, some e))], C1, by simp [runWT], by simp [handed], by simp [runWT]⟩
    | panic p =>
      exact ⟨[.write d (.panic p)], C1, by simp [runWT, RW.record, hw], by simp [handed], by simp [runWT, RW.record, hw]⟩
    | hang =>
      exact ⟨[.write d .hang], C1, by simp [runWT, RW.record, hw], by simp [handed], by simp [runWT, RW.record, hw]⟩
  | panic b p => exact ⟨[], C, by simp [runWT], rfl, by simp [runWT]⟩
  | hang b => exact ⟨[], C, by simp [runWT], rfl, by simp [runWT]⟩

theorem runRF_source (B : BodyOps β) {P : β → List Byte → Prop} (hB : IsSource B P) (fuel : Nat) (t : RF ω) (b : β) (C : List Byte)
    (hP : P b C) (last : Option Err) (ht : RFHonest t last) (hl : last = some .eof → C = []) (l : List WEv) :
    ∃ T C', (runRF B fuel (t.record l) b).2.1.log = l ++ T ∧ C = handed T ++ C' ∧
      ∀ n, (runRF B fuel (t.record l) b).2.2 = .ret (n, none) → C' = [] := by
  induction t generalizing b C last l with
  | done w n err =>
    refine ⟨[.readFromDone n err], C, by simp [RF.record, runRF], by simp [handed], ?_⟩
    intro n' h
    simp [RF.record, runRF] at h
    exact hl (ht h.2)
  | read w k cont ih =>
    rcases hr : B.read b k with ⟨b1, r⟩
    cases r with
    | ret a =>
      obtain ⟨d, e⟩ := a
      obtain ⟨C1, rfl, h1, h2⟩ := hB.read b C k b1 d e ht.1 hP hr
      obtain ⟨T, C', q1, q2, q3⟩ := ih d e b1 C1 h1 e (ht.2 d e) h2 (l ++ [.took d])
      have e1 : runRF B fuel (RF.record (.read w k cont) l) b = runRF B fuel ((cont d e).record (l ++ [.took d])) b1 := by
        simp only [RF.record, runRF, hr]
      rw [e1]
      exact ⟨.took d :: T, C', by rw [q1]; simp, by simp [handed, q2], q3⟩
    | panic p => exact ⟨[], C, by simp [RF.record, runRF, hr], rfl, by simp [RF.record, runRF, hr]⟩
    | hang => exact ⟨[], C, by simp [RF.record, runRF, hr], rfl, by simp [RF.record, runRF, hr]⟩
  | drain w cont ih => exact ht.elim
  | panic w p => exact ⟨[], C, by simp [RF.record, runRF], rfl, by simp [RF.record, runRF]⟩
  | hang w => exact ⟨[], C, by simp [RF.record, runRF], rfl, by simp [RF.record, runRF]⟩

theorem copyLoop_source (D : RW ω) (B : BodyOps β) {P : β → List Byte → Prop} (hB : IsSource B P) (fuel : Nat) (b : β) (C : List Byte)
    (hP : P b C) (w : ω) (l : List WEv) (n0 : Int) :
    ∃ T C', (copyLoop D.record B fuel b ⟨w, l⟩ n0).2.1.log = l ++ T ∧ C = handed T ++ C' ∧
      ∀ n, (copyLoop D.record B fuel b ⟨w, l⟩ n0).2.2 = .ret (n, none) → C' = [] := by
  induction fuel generalizing b C w l n0 with
  | zero => exact ⟨[], C, by simp [copyLoop], rfl, by simp [copyLoop]⟩
  | succ fuel ih =>
    rcases hr : B.read b 32768 with ⟨b1, r⟩
    cases r with
    | panic p => exact ⟨[], C, by simp [copyLoop, hr], rfl, by simp [copyLoop, hr]⟩
    | hang => exact ⟨[], C, by simp [copyLoop, hr], rfl, by simp [copyLoop, hr]⟩
    | ret a =>
      obtain ⟨d, er⟩ := a
      obtain ⟨C1, rfl, h1, h2⟩ := hB.read b C _ b1 d er (by decide) hP hr
      by_cases hd : d.length > 0
      · by_cases hd2 : d.length > 32768
        · exact ⟨[], d ++ C1, by simp [copyLoop, hr, hd, hd2], rfl, by simp [copyLoop, hr, hd, hd2]⟩
        · rcases hw : D.write w d with ⟨w1, rw1⟩
          cases rw1 with
          | panic p =>
            exact ⟨[.write d (.panic p)], C1, by simp [copyLoop, hr, hd, hd2, RW.record, hw], by simp [handed],
              by simp [copyLoop, hr, hd, hd2, RW.record, hw]⟩
          | hang =>
            exact ⟨[.write d .hang], C1, by simp [copyLoop, hr, hd, hd2, RW.record, hw], by simp [handed],
              by simp [copyLoop, hr, hd, hd2, RW.record, hw]⟩
          | ret a =>
            obtain ⟨nw, ew⟩ := a
            by_cases hok : nw = d.length ∧ ew = none
            · obtain ⟨rfl, rfl⟩ := hok
              have hbad : ¬ ((d.length : Int) < 0) := by omega
              cases er with
              | some e =>
                refine ⟨[.write d (.ret (d.length, none))], C1, by simp [copyLoop, hr, hd, hd2, RW.record, hw, hbad], by simp [handed], ?_⟩
                intro n h
                simp [copyLoop, hr, hd, hd2, RW.record, hw, hbad] at h
                exact h2 (by rw [h.2])
              | none =>
                obtain ⟨T, C', q1, q2, q3⟩ := ih b1 C1 h1 w1 (l ++ [.write d (.ret (d.length, none))]) (n0 + d.length)
                have e1 : copyLoop D.record B (fuel + 1) b ⟨w, l⟩ n0 =
                    copyLoop D.record B fuel b1 ⟨w1, l ++ [.write d (.ret (d.length, none))]⟩ (n0 + d.length) := by
                  rw [copyLoop]; simp [hr, hd, hd2, hw, hbad, RW.record]
                rw [e1]
                exact ⟨.write d (.ret (d.length, none)) :: T, C', by rw [q1]; simp, by simp [handed, q2], q3⟩
            · refine ⟨[.write d (.ret (nw, ew))], C1, ?_, by simp [handed], ?_⟩
              · by_cases hbad : nw < 0 ∨ (d.length : Int) < nw
                · cases ew <;> simp [copyLoop, hr, hd, hd2, RW.record, hw, hbad]
                · cases ew with
                  | some e => simp [copyLoop, hr, hd, hd2, RW.record, hw, hbad]
                  | none =>
                    have : ¬ ((d.length : Int) = nw) := fun h => hok ⟨h.symm, rfl⟩
                    simp [copyLoop, hr, hd, hd2, RW.record, hw, hbad, this]
              · intro n h
                exfalso
                by_cases hbad : nw < 0 ∨ (d.length : Int) < nw
                · cases ew <;> simp [copyLoop, hr, hd, hd2, RW.record, hw, hbad] at h
                · cases ew with
                  | some e => simp [copyLoop, hr, hd, hd2, RW.record, hw, hbad] at h
                  | none =>
                    have : ¬ ((d.length : Int) = nw) := fun h => hok ⟨h.symm, rfl⟩
                    simp [copyLoop, hr, hd, hd2, RW.record, hw, hbad, this] at h
      · have hd0 : d = [] := by cases d <;> simp_all
        subst hd0
        cases er with
        | some e =>
          refine ⟨[], C1, by simp [copyLoop, hr], rfl, ?_⟩
          intro n h
          simp [copyLoop, hr] at h
          exact h2 (by rw [h.2])
        | none =>
          obtain ⟨T, C', q1, q2, q3⟩ := ih b1 C1 h1 w l n0
          have e1 : copyLoop D.record B (fuel + 1) b ⟨w, l⟩ n0 = copyLoop D.record B fuel b1 ⟨w, l⟩ n0 := by
            rw [copyLoop]; simp [hr]
          rw [e1]
          exact ⟨T, C', q1, q2, q3⟩

theorem ioCopy_source (D : RW ω) (hD : HonestWriter D) (B : BodyOps β) {P : β → List Byte → Prop} (hB : IsSource B P) (fuel : Nat)
    (b : β) (C : List Byte) (hP : P b C) (w : ω) (l : List WEv) :
    ∃ T C', (ioCopy D.record B fuel b ⟨w, l⟩).2.1.log = l ++ T ∧ C = handed T ++ C' ∧
      ∀ n, (ioCopy D.record B fuel b ⟨w, l⟩).2.2 = .ret (n, none) → C' = [] := by
  unfold ioCopy
  by_cases hW : B.isWriterTo = true
  · rw [if_pos hW]
    exact runWT_source D hD _ C (hB.writeTo hW b C hP) w l
  · rw [if_neg hW]
    by_cases hR : D.record.isReaderFrom = true
    · rw [if_pos hR]
      obtain ⟨T, C', h1, h2, h3⟩ := runRF_source B hB fuel (D.readFrom w) b C hP none (hD.readFrom w) (by simp) (l ++ [.readFrom])
      exact ⟨.readFrom :: T, C', by rw [show D.record.readFrom ⟨w, l⟩ = (D.readFrom w).record (l ++ [.readFrom]) from rfl, h1]; simp,
        by simpa [handed] using h2, h3⟩
    · rw [if_neg hR]
      exact copyLoop_source D B hB fuel b C hP w l 0

end Verif
