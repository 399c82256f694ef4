import Verif.Model.ServeSteps

/-! # The steps of `Serve`, done without interruption, are `Serve` -/

set_option autoImplicit false

namespace Verif
variable {β ω : Type} {D : RW ω} {B : BodyOps β} {code : Int} {hdrs : List (GoStr × List GoStr)}

theorem serveSteps_add (k l : Nat) : ∀ x, serveSteps D B code hdrs (k + l) x = serveSteps D B code hdrs l (serveSteps D B code hdrs k x) := by
  induction k with
  | zero => intro x; simp [serveSteps]
  | succ k ih => intro x; rw [Nat.succ_add]; exact ih _

theorem serveSteps_done (k : Nat) (w : ω) (o : Res (Option Err)) (b : β) :
    serveSteps D B code hdrs k (.done w o, b) = (.done w o, b) := by
  induction k with
  | zero => rfl
  | succ k ih => exact ih

/-- From `x` the steps lead to `y`. -/
def Leads (D : RW ω) (B : BodyOps β) (code : Int) (hdrs : List (GoStr × List GoStr)) (x y : SPhase ω × β) : Prop :=
  ∃ k, serveSteps D B code hdrs k x = y

theorem Leads.refl (x : SPhase ω × β) : Leads D B code hdrs x x := ⟨0, rfl⟩

theorem Leads.trans {x y z : SPhase ω × β} (h : Leads D B code hdrs x y) (h' : Leads D B code hdrs y z) : Leads D B code hdrs x z := by
  obtain ⟨k, rfl⟩ := h
  obtain ⟨l, rfl⟩ := h'
  exact ⟨k + l, serveSteps_add k l x⟩

theorem Leads.one {p : SPhase ω} {b : β} {y : SPhase ω × β} (h : serveStep D B code hdrs p b = y) : Leads D B code hdrs (p, b) y := ⟨1, h⟩

theorem loop_leads (fuel : Nat) : ∀ (b : β) (w : ω) (n : Int) (b' : β) (w' : ω) (o : WAns), copyLoop D B fuel b w n = (b', w', o) → o ≠ .hang →
    Leads D B code hdrs (.loop w n, b) (afterCopy w' o, b') := by
  induction fuel with
  | zero => intro b w n b' w' o h ho; simp only [copyLoop, Prod.mk.injEq] at h; exact absurd h.2.2.symm ho
  | succ fuel ih =>
    intro b w n b' w' o h ho
    simp only [copyLoop] at h
    rcases hr : B.read b 32768 with ⟨b1, (⟨d, er⟩ | p | _)⟩
    · rw [hr] at h
      dsimp only at h
      refine Leads.trans (Leads.one (y := (loopBody D w n d er, b1)) (by simp only [serveStep, hr])) ?_
      unfold loopBody
      by_cases hd : d.length > 0
      · rw [if_pos hd] at h
        rw [if_pos hd]
        by_cases hd2 : d.length > 32768
        · rw [if_pos hd2] at h
          rw [if_pos hd2]
          cases h
          exact .refl _
        · rw [if_neg hd2] at h
          rw [if_neg hd2]
          rcases hw : D.write w d with ⟨w1, (⟨nw, ew⟩ | p | _)⟩
          · rw [hw] at h
            dsimp only at h ⊢
            by_cases hbad : nw < 0 ∨ d.length < nw
            · rw [if_pos hbad]
              rw [decide_eq_true hbad] at h
              cases ew with
              | none => simp only [Option.isNone, Bool.and_true, if_true] at h; cases h; exact .refl _
              | some e => simp only [Option.isNone, Bool.and_false, if_true, Bool.false_eq_true, if_false] at h; cases h; exact .refl _
            · rw [if_neg hbad]
              rw [decide_eq_false hbad] at h
              simp only [Bool.false_and, Bool.false_eq_true, if_false] at h
              cases ew with
              | some e => cases h; exact .refl _
              | none =>
                dsimp only at h ⊢
                by_cases hn : (d.length : Int) ≠ nw
                · rw [if_pos hn] at h
                  rw [if_pos hn]
                  cases h; exact .refl _
                · rw [if_neg hn] at h
                  rw [if_neg hn]
                  cases er with
                  | some e => cases h; exact .refl _
                  | none => exact ih _ _ _ _ _ _ h ho
          · rw [hw] at h; cases h; exact .refl _
          · rw [hw] at h; cases h; exact .refl _
      · rw [if_neg hd] at h
        rw [if_neg hd]
        cases er with
        | some e => cases h; exact .refl _
        | none => exact ih _ _ _ _ _ _ h ho
    · rw [hr] at h
      cases h
      exact Leads.one (by simp only [serveStep, hr, afterCopy])
    · rw [hr] at h
      cases h
      exact absurd rfl ho

theorem discard_leads (w : ω) (cont : Int → Option Err → RF ω) (fuel : Nat) : ∀ (b : β) (n : Int) (b' : β) (o : WAns),
    discardLoop B fuel b n = (b', o) → o ≠ .hang →
    Leads D B code hdrs (.discard w n cont, b) (match o with | .ret (n, err) => .readFrom (cont n err) | .panic p => .done w (.panic p) | .hang => .done w .hang, b') := by
  induction fuel with
  | zero => intro b n b' o h ho; simp only [discardLoop, Prod.mk.injEq] at h; exact absurd h.2.symm ho
  | succ fuel ih =>
    intro b n b' o h ho
    simp only [discardLoop] at h
    rcases hr : B.read b 8192 with ⟨b1, (⟨d, er⟩ | p | _)⟩
    · rw [hr] at h
      cases er with
      | none =>
        dsimp only at h
        exact Leads.trans (Leads.one (y := (.discard w (n + d.length) cont, b1)) (by simp only [serveStep, hr])) (ih _ _ _ _ h ho)
      | some e =>
        cases h
        exact Leads.one (by simp only [serveStep, hr])
    · rw [hr] at h
      cases h
      exact Leads.one (by simp only [serveStep, hr])
    · rw [hr] at h
      cases h
      exact absurd rfl ho

theorem rf_leads (fuel : Nat) (t : RF ω) : ∀ (b b' : β) (w' : ω) (o : WAns), runRF B fuel t b = (b', w', o) → o ≠ .hang →
    Leads D B code hdrs (.readFrom t, b) (afterCopy w' o, b') := by
  induction t with
  | done w n err => intro b b' w' o h ho; cases h; exact Leads.one rfl
  | panic w p => intro b b' w' o h ho; cases h; exact Leads.one rfl
  | hang w => intro b b' w' o h ho; cases h; exact absurd rfl ho
  | read w k cont ih =>
    intro b b' w' o h ho
    simp only [runRF] at h
    rcases hr : B.read b k with ⟨b1, (⟨d, er⟩ | p | _)⟩
    · rw [hr] at h
      exact Leads.trans (Leads.one (y := (.readFrom (cont d er), b1)) (by simp only [serveStep, hr])) (ih _ _ _ _ _ _ h ho)
    · rw [hr] at h
      cases h
      exact Leads.one (by simp only [serveStep, hr, afterCopy])
    · rw [hr] at h
      cases h
      exact absurd rfl ho
  | drain w cont ih =>
    intro b b' w' o h ho
    simp only [runRF] at h
    by_cases hw : B.isWriterTo = true
    · have e : discardAll B fuel b = discardAll B 0 b := by simp only [discardAll, if_pos hw]
      rw [e] at h
      rcases hr : discardAll B 0 b with ⟨b1, (⟨n, er⟩ | p | _)⟩
      · rw [hr] at h
        exact Leads.trans (Leads.one (y := (.readFrom (cont n er), b1)) (by simp only [serveStep, if_pos hw, hr])) (ih _ _ _ _ _ _ h ho)
      · rw [hr] at h
        cases h
        exact Leads.one (by simp only [serveStep, if_pos hw, hr, afterCopy])
      · rw [hr] at h
        cases h
        exact absurd rfl ho
    · have e : discardAll B fuel b = discardLoop B fuel b 0 := by simp only [discardAll, if_neg hw]
      rw [e] at h
      refine Leads.trans (Leads.one (y := (.discard w 0 cont, b)) (by simp only [serveStep, if_neg hw])) ?_
      rcases hr : discardLoop B fuel b 0 with ⟨b1, (⟨n, er⟩ | p | _)⟩
      · rw [hr] at h
        exact Leads.trans (discard_leads w cont fuel b 0 b1 _ hr (by simp)) (ih _ _ _ _ _ _ h ho)
      · rw [hr] at h
        cases h
        exact discard_leads w cont fuel b 0 _ _ hr (by simp)
      · rw [hr] at h
        cases h
        exact absurd rfl ho

/-- **Adequacy of the steps.**  If `Serve` comes to an end then the steps come to the same end. -/
theorem serve_leads (fuel : Nat) (r : Resp β) (w : ω) (b' : β) (w' : ω) (o : Res (Option Err))
    (h : serve D B fuel r w = (b', w', o)) (ho : o ≠ .hang) :
    Leads D B r.code r.hdrs (.start w, r.body) (.done w' o, b') := by
  refine Leads.trans (Leads.one (y := (serveBegin D B.isWriterTo r.code r.hdrs w, r.body)) rfl) ?_
  unfold serve at h
  unfold serveBegin
  dsimp only at h ⊢
  generalize (if D.isPusher then pushAll D (hdrGet r.hdrs headerPush) w else (w, none)) = p at h ⊢
  obtain ⟨w1, q⟩ := p
  cases q with
  | some o1 => cases h; exact .refl _
  | none =>
    dsimp only at h ⊢
    rcases hh : D.writeHeader (setAll D r.hdrs w1) r.code with ⟨w2, (⟨⟩ | p | _)⟩
    · rw [hh] at h
      dsimp only at h ⊢
      rcases hc : ioCopy D B fuel r.body w2 with ⟨b3, w3, q⟩
      rw [hc] at h
      have hcopy : q ≠ .hang → Leads D B r.code r.hdrs (if B.isWriterTo = true then .writeTo w2 else if D.isReaderFrom = true then .readFrom (D.readFrom w2)
          else .loop w2 0, r.body) (afterCopy w3 q, b3) := by
        intro hq
        unfold ioCopy at hc
        by_cases h1 : B.isWriterTo = true
        · rw [if_pos h1] at hc ⊢
          exact Leads.one (by simp only [serveStep, hc])
        · rw [if_neg h1] at hc ⊢
          by_cases h2 : D.isReaderFrom = true
          · rw [if_pos h2] at hc ⊢
            exact rf_leads fuel _ _ _ _ _ hc hq
          · rw [if_neg h2] at hc ⊢
            exact loop_leads fuel _ _ _ _ _ _ hc hq
      cases q with
      | hang => cases h; exact absurd rfl ho
      | panic p => cases h; exact hcopy (by simp)
      | ret x =>
        obtain ⟨n, err⟩ := x
        refine Leads.trans (hcopy (by simp)) ?_
        dsimp only at h
        rcases hcl : B.close b3 with ⟨b4, (err2 | p | _)⟩
        · rw [hcl] at h; cases h; exact Leads.one (by simp only [afterCopy, serveStep, hcl])
        · rw [hcl] at h; cases h; exact Leads.one (by simp only [afterCopy, serveStep, hcl])
        · rw [hcl] at h; cases h; exact absurd rfl ho
    · rw [hh] at h; cases h; exact .refl _
    · rw [hh] at h; cases h; exact absurd rfl ho

end Verif
