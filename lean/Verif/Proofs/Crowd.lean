import Verif.Spec.Sharing
import Verif.Proofs.Success
import Verif.Proofs.ServeSteps

/-! # Goroutines that serve copies of one Body do not disturb each other -/

set_option autoImplicit false

namespace Verif
open Spec
variable {S ω : Type} {step : S → Op → S × Out} {drains : Bool}

/-! ## What a step does to the family -/

theorem ofFam_read_fam (h : Nat) (s : S) (k : Nat) : ((BodyOps.ofFam step drains h).read s k).1 = (step s (.read h k)).1 := by
  simp only [BodyOps.ofFam]
  split <;> simp_all

theorem ofFam_close_fam (h : Nat) (s : S) : ((BodyOps.ofFam step drains h).close s).1 = (step s (.close h)).1 := by
  simp only [BodyOps.ofFam]
  split <;> simp_all

theorem ofFam_writeTo_fam {α : Type} (h : Nat) (s : S) (write : α → List Byte → α × WAns) (w : α) :
    (runWT write ((BodyOps.ofFam step drains h).writeTo s) w).1 = s ∨
    ∃ f, (runWT write ((BodyOps.ofFam step drains h).writeTo s) w).1 = (step s (.writeTo h f)).1 := by
  simp only [BodyOps.ofFam]
  rcases hq : step s (.writeTo h (fun _ => .ok (0, none))) with ⟨s1, o⟩
  have key : s1 = (step s (.writeTo h (fun _ => .ok (0, none)))).1 := by rw [hq]
  cases o with
  | wrote d n err =>
    cases d with
    | none => exact .inr ⟨_, key⟩
    | some d =>
      simp only [runWT]
      rcases hw : write w d with ⟨w1, (⟨n1, e1⟩ | p | _)⟩
      · dsimp only
        rcases hq2 : step s (.writeTo h (fun _ => .ok (n1, e1))) with ⟨s2, o2⟩
        have key2 : s2 = (step s (.writeTo h (fun _ => .ok (n1, e1)))).1 := by rw [hq2]
        cases o2 <;> exact .inr ⟨_, key2⟩
      · exact .inl rfl
      · exact .inl rfl
  | _ => exact .inr ⟨_, key⟩

/-- A goroutine that uses buffers of up to `K` bytes, and `WriteTo` if the Bodies have it. -/
def SmallPhase (K : Nat) (drains : Bool) : SPhase ω → Prop
  | .writeTo _ => drains = true
  | .readFrom t => RFModest K t
  | .discard _ _ cont => ∀ n e, RFModest K (cont n e)
  | _ => True

theorem smallPhase_afterCopy (K : Nat) (w : ω) (o : WAns) : SmallPhase K drains (afterCopy w o) := by
  cases o <;> trivial

theorem smallPhase_loopBody (K : Nat) (D : RW ω) (w : ω) (n : Int) (d : List Byte) (er : Option Err) : SmallPhase K drains (loopBody D w n d er) := by
  unfold loopBody
  dsimp only
  repeat' split
  all_goals trivial

theorem smallPhase_begin {K : Nat} {D : RW ω} (hD : Modest D K) (b : Bool) (code : Int) (hdrs : List (GoStr × List GoStr)) (w : ω) :
    SmallPhase K b (serveBegin D b code hdrs w) := by
  unfold serveBegin
  dsimp only
  repeat' split
  all_goals first | trivial | exact hD _ | assumption

/-- A step of a goroutine leaves it modest, and leaves the other Bodies as they are. -/
theorem modest_step {P : Nat → S → List Byte → Prop} {K : Nat} {Ok : Op → Prop} (hF : Shareable step drains P K Ok) (hK : 32768 ≤ K)
    (D : RW ω) (hD : Modest D K) (h : Nat) (code : Int) (hdrs : List (GoStr × List GoStr)) (p : SPhase ω) (s : S) (hp : SmallPhase K drains p) :
    SmallPhase K drains (serveStep D (BodyOps.ofFam step drains h) code hdrs p s).1 ∧
    ∀ h' C, h ≠ h' → P h' s C → P h' (serveStep D (BodyOps.ofFam step drains h) code hdrs p s).2 C := by
  have rd : ∀ k, k ≤ K → ∀ h' C, h ≠ h' → P h' s C → P h' ((BodyOps.ofFam step drains h).read s k).1 C := by
    intro k hk h' C hne hP
    rw [ofFam_read_fam]
    exact hF.apart h' s C _ hP (hF.read h k hk) hne
  have wt : drains = true → ∀ {α : Type} (write : α → List Byte → α × WAns) (w : α) h' C, h ≠ h' → P h' s C →
      P h' (runWT write ((BodyOps.ofFam step drains h).writeTo s) w).1 C := by
    intro hd α write w h' C hne hP
    rcases ofFam_writeTo_fam (step := step) (drains := drains) h s write w with e | ⟨f, e⟩
    · rw [e]; exact hP
    · rw [e]; exact hF.apart h' s C _ hP (hF.writeTo hd h f) hne
  cases p with
  | start w => exact ⟨smallPhase_begin hD _ _ _ _, fun _ _ _ h => h⟩
  | writeTo w => exact ⟨smallPhase_afterCopy _ _ _, wt hp _ _⟩
  | readFrom t =>
    cases t with
    | done w n err => exact ⟨trivial, fun _ _ _ h => h⟩
    | panic w p => exact ⟨trivial, fun _ _ _ h => h⟩
    | hang w => exact ⟨trivial, fun _ _ _ h => h⟩
    | read w k cont =>
      have := rd k hp.1
      simp only [serveStep]
      rcases hr : (BodyOps.ofFam step drains h).read s k with ⟨b1, (⟨d, er⟩ | p | _)⟩ <;> rw [hr] at this
      · exact ⟨hp.2 _ _, this⟩
      · exact ⟨trivial, this⟩
      · exact ⟨trivial, this⟩
    | drain w cont =>
      simp only [serveStep]
      by_cases hd : (BodyOps.ofFam step drains h).isWriterTo = true
      · rw [if_pos hd]
        have := wt hd (α := Unit) (fun w d => (w, .ret (d.length, none))) ()
        have e : (discardAll (BodyOps.ofFam step drains h) 0 s).1 = (runWT (fun w d => (w, .ret (d.length, none))) ((BodyOps.ofFam step drains h).writeTo s) ()).1 := by
          simp only [discardAll, if_pos hd]
        rw [← e] at this
        rcases hr : discardAll (BodyOps.ofFam step drains h) 0 s with ⟨b1, (⟨n, er⟩ | p | _)⟩ <;> rw [hr] at this
        · exact ⟨hp _ _, this⟩
        · exact ⟨trivial, this⟩
        · exact ⟨trivial, this⟩
      · rw [if_neg hd]
        exact ⟨hp, fun _ _ _ h => h⟩
  | discard w n cont =>
    have := rd 8192 (by omega)
    simp only [serveStep]
    rcases hr : (BodyOps.ofFam step drains h).read s 8192 with ⟨b1, (⟨d, er⟩ | p | _)⟩ <;> rw [hr] at this
    · cases er
      · exact ⟨hp, this⟩
      · exact ⟨hp _ _, this⟩
    · exact ⟨trivial, this⟩
    · exact ⟨trivial, this⟩
  | loop w n =>
    have := rd 32768 hK
    simp only [serveStep]
    rcases hr : (BodyOps.ofFam step drains h).read s 32768 with ⟨b1, (⟨d, er⟩ | p | _)⟩ <;> rw [hr] at this
    · exact ⟨smallPhase_loopBody K D w n d er, this⟩
    · exact ⟨trivial, this⟩
    · exact ⟨trivial, this⟩
  | close w err =>
    have : ∀ h' C, h ≠ h' → P h' s C → P h' ((BodyOps.ofFam step drains h).close s).1 C := by
      intro h' C hne hP
      rw [ofFam_close_fam]
      exact hF.apart h' s C _ hP (hF.close h) hne
    simp only [serveStep]
    rcases hr : (BodyOps.ofFam step drains h).close s with ⟨b1, (e2 | p | _)⟩ <;> rw [hr] at this
    · exact ⟨trivial, this⟩
    · exact ⟨trivial, this⟩
    · exact ⟨trivial, this⟩
  | done w o => exact ⟨trivial, fun _ _ _ h => h⟩

/-! ## A goroutine whose client takes everything -/

/-- The goroutine is on its way: at most `m` steps are left. -/
inductive Going (D : RW ω) (B : BodyOps S) (P : S → List Byte → Prop) (K : Nat) (code : Int) (hdrs : List (GoStr × List GoStr))
    (ok : ω → List Byte → Prop) (C₀ : List Byte) (s : S) : SPhase ω → Nat → Prop where
  | start (w w₁ w₂ : ω) (h1 : (if D.isPusher then pushAll D (hdrGet hdrs headerPush) w else (w, none)) = (w₁, none))
      (h2 : D.writeHeader (setAll D hdrs w₁) code = (w₂, .ret ())) (h3 : ok w₂ []) (hP : P s C₀) : Going D B P K code hdrs ok C₀ s (.start w) (C₀.length + 5)
  | writeTo (w : ω) (hw : B.isWriterTo = true) (h : ok w []) (hP : P s C₀) : Going D B P K code hdrs ok C₀ s (.writeTo w) 2
  | reading (t : RF ω) (l C : List Byte) (hC : C₀ = l ++ C) (hw : B.isWriterTo = false) (h : RFTakes K ok t l C) (hP : P s C) :
      Going D B P K code hdrs ok C₀ s (.readFrom t) (C.length + 4)
  | read (w : ω) (n : Int) (h : ok w C₀) (hP : P s []) : Going D B P K code hdrs ok C₀ s (.readFrom (.done w n none)) 2
  | discard (w w' : ω) (n n' : Int) (cont : Int → Option Err → RF ω) (C : List Byte) (h : cont (n + C.length) none = .done w' n' none) (h' : ok w' C₀)
      (hP : P s C) : Going D B P K code hdrs ok C₀ s (.discard w n cont) (C.length + 3)
  | loop (w : ω) (n : Int) (l C : List Byte) (hC : C₀ = l ++ C) (h : ok w l) (hP : P s C) : Going D B P K code hdrs ok C₀ s (.loop w n) (C.length + 2)
  | close (w : ω) (h : ok w C₀) (hP : P s []) : Going D B P K code hdrs ok C₀ s (.close w none) 1
  | done (w : ω) (h : ok w C₀) : Going D B P K code hdrs ok C₀ s (.done w (.ret none)) 0

variable {D : RW ω} {B : BodyOps S} {P : S → List Byte → Prop} {K : Nat} {code : Int} {hdrs : List (GoStr × List GoStr)}
  {ok : ω → List Byte → Prop} {C₀ : List Byte}

theorem Going.mono {s s' : S} {p : SPhase ω} {m : Nat} (h : Going D B P K code hdrs ok C₀ s p m) (hs : ∀ C, P s C → P s' C) :
    Going D B P K code hdrs ok C₀ s' p m := by
  cases h with
  | start w w₁ w₂ h1 h2 h3 hP => exact .start w w₁ w₂ h1 h2 h3 (hs _ hP)
  | writeTo w hw h hP => exact .writeTo w hw h (hs _ hP)
  | reading t l C hC hw h hP => exact .reading t l C hC hw h (hs _ hP)
  | read w n h hP => exact .read w n h (hs _ hP)
  | discard w w' n n' cont C h h' hP => exact .discard w w' n n' cont C h h' (hs _ hP)
  | loop w n l C hC h hP => exact .loop w n l C hC h (hs _ hP)
  | close w h hP => exact .close w h (hs _ hP)
  | done w h => exact .done w h

theorem drains_runWT (hD : Takes D K ok C₀) (t : WT S) : ∀ (C l : List Byte) (w : ω), WTGives B t C → WTDrains P t → ok w l →
    ∃ b w' n, runWT D.write t w = (b, w', .ret (n, none)) ∧ ok w' (l ++ C) ∧ P b [] := by
  induction t with
  | done b n err =>
    rintro C l w ⟨rfl, rfl, h⟩ hd hw
    exact ⟨b, w, n, rfl, by simpa using hw, hd⟩
  | write b d cont ih =>
    rintro C l w ⟨C', rfl, h⟩ hd hw
    obtain ⟨w', h1, h2⟩ := hD.write w l d hw
    simp only [runWT, h1]
    have := ih d.length none C' (l ++ d) w' h hd h2
    simpa using this
  | panic b p => rintro C l w h; exact h.elim
  | hang b => rintro C l w h; exact h.elim

theorem going_step {s : S} {p : SPhase ω} {m : Nat} (h : Going D B P K code hdrs ok C₀ s p m) (hB : Lively B P K) (hK : 32768 ≤ K)
    (hdr : B.isWriterTo = true → ∀ s C, P s C → WTDrains P (B.writeTo s)) (hD : Takes D K ok C₀) :
    ∃ m', m' ≤ m - 1 ∧ Going D B P K code hdrs ok C₀ (serveStep D B code hdrs p s).2 (serveStep D B code hdrs p s).1 m' := by
  cases h with
  | start w w₁ w₂ h1 h2 h3 hP =>
    simp only [serveStep, serveBegin]
    rw [h1]
    dsimp only
    rw [h2]
    dsimp only
    by_cases hw : B.isWriterTo = true
    · rw [if_pos hw]
      exact ⟨2, by omega, .writeTo _ hw h3 hP⟩
    · rw [if_neg hw]
      by_cases hr : D.isReaderFrom = true
      · rw [if_pos hr]
        exact ⟨_, by omega, .reading _ [] C₀ rfl (by simpa using hw) (hD.readFrom hr _ h3) hP⟩
      · rw [if_neg hr]
        exact ⟨_, by omega, .loop _ 0 [] C₀ rfl h3 hP⟩
  | writeTo w hw h hP =>
    obtain ⟨b, w', n, e, h1, h2⟩ := drains_runWT hD _ C₀ [] w (hB.writeTo hw s C₀ hP) (hdr hw s C₀ hP) h
    simp only [serveStep, e, afterCopy]
    exact ⟨1, by omega, .close w' (by simpa using h1) h2⟩
  | reading t l C hC hw h hP =>
    cases t with
    | read w k cont =>
      obtain ⟨h0, hk, h⟩ := h
      obtain ⟨b', d, e, C', h1, h2, rfl, h4, h5⟩ := hB.read s C k h0 hk hP
      simp only [serveStep, h1]
      rcases h5 with ⟨rfl, h5⟩ | ⟨rfl, rfl⟩
      · refine ⟨_, ?_, .reading _ (l ++ d) C' (by simp [hC]) hw ((h d C' rfl h2).1 h5) h4⟩
        have := List.length_pos_iff.2 h5
        simp; omega
      · obtain ⟨w', h6, h7⟩ := (h d [] rfl h2).2 rfl
        rw [h6]
        exact ⟨2, by omega, .read _ _ (by simpa [hC] using h7) h4⟩
    | drain w cont =>
      obtain ⟨w', h1, h2⟩ := h
      simp only [serveStep]
      rw [if_neg (by simp [hw])]
      exact ⟨_, by omega, .discard w w' 0 _ cont C (by simpa using h1) (by rw [hC]; exact h2) hP⟩
    | done w n err => exact h.elim
    | panic w p => exact h.elim
    | hang w => exact h.elim
  | read w n h hP => exact ⟨1, by omega, .close w h hP⟩
  | discard w w' n n' cont C h h' hP =>
    obtain ⟨b', d, e, C', h1, h2, rfl, h4, h5⟩ := hB.read s C 8192 (by omega) (by omega) hP
    simp only [serveStep, h1]
    rcases h5 with ⟨rfl, h5⟩ | ⟨rfl, rfl⟩
    · refine ⟨_, ?_, .discard w w' (n + d.length) n' cont C' ?_ h' h4⟩
      · have := List.length_pos_iff.2 h5
        simp; omega
      · rw [← h]; congr 1; simp; omega
    · simp only [List.append_nil] at h
      dsimp only
      rw [if_pos rfl, h]
      exact ⟨2, by omega, .read _ _ h' h4⟩
  | loop w n l C hC h hP =>
    obtain ⟨b', d, e, C', h1, h2, rfl, h4, h5⟩ := hB.read s C 32768 (by omega) hK hP
    obtain ⟨w', h6, h7⟩ := hD.write w l d h
    simp only [serveStep, h1, loopBody]
    by_cases hd : d.length > 0
    · rw [if_pos hd, if_neg (by omega), h6]
      dsimp only
      rw [if_neg (by omega), if_neg (by simp)]
      rcases h5 with ⟨rfl, h5⟩ | ⟨rfl, rfl⟩
      · exact ⟨_, by simp; omega, .loop w' _ (l ++ d) C' (by simp [hC]) h7 h4⟩
      · exact ⟨1, by omega, .close w' (by simpa [hC] using h7) h4⟩
    · rw [if_neg hd]
      have : d = [] := List.length_eq_zero_iff.1 (by omega)
      subst this
      rcases h5 with ⟨-, h5⟩ | ⟨rfl, rfl⟩
      · exact absurd rfl h5
      · exact ⟨1, by omega, .close w (by simpa [hC] using h) h4⟩
  | close w h hP =>
    have := hB.close s hP
    simp only [serveStep]
    rcases hr : B.close s with ⟨b, q⟩
    rw [hr] at this
    dsimp only at this
    subst this
    exact ⟨0, by omega, .done w h⟩
  | done w h => exact ⟨0, by omega, .done w h⟩

/-! ## A whole history -/

theorem turns_serve (i i' : Nat) (ms : List CMove) : turns i (.serve i' :: ms) = (if i' = i then 1 else 0) + turns i ms := by
  unfold turns
  by_cases h : i' = i
  · rw [List.filter_cons_of_pos (by simpa using h), if_pos h]; simp; omega
  · rw [List.filter_cons_of_neg (by simpa using h), if_neg h]; simp

theorem turns_other (i : Nat) (op : Op) (ms : List CMove) : turns i (.other op :: ms) = turns i ms := by
  unfold turns
  rw [List.filter_cons_of_neg (by simp)]

theorem crowd_cons (jobs : List (Job ω)) (x : Crowd S ω) (m : CMove) (ms : List CMove) :
    Crowd.run step drains jobs x (m :: ms) = Crowd.run step drains jobs (Crowd.step step drains jobs x m) ms := rfl

/-- What is asked of the others: they serve other Bodies, with buffers of up to `K` bytes. -/
def Others (jobs : List (Job ω)) (K : Nat) (i h : Nat) : Prop :=
  ∀ (i' : Nat) j', jobs[i']? = some j' → i' ≠ i → j'.handle ≠ h ∧ Modest j'.client K

/-- The other goroutines are modest. -/
def SmallOthers (phases : List (SPhase ω)) (K : Nat) (drains : Bool) (i : Nat) : Prop :=
  ∀ (i' : Nat) p', phases[i']? = some p' → i' ≠ i → SmallPhase K drains p'

theorem crowd_going {Q : Nat → S → List Byte → Prop} {Ok : Op → Prop} (hF : Shareable step drains Q K Ok) (hK : 32768 ≤ K)
    {jobs : List (Job ω)} {i : Nat} {j : Job ω} (hj : jobs[i]? = some j) (ho : Others jobs K i j.handle) (hD : Takes j.client K ok C₀)
    (ms : List CMove) : ∀ (x : Crowd S ω) (p : SPhase ω) (m : Nat), x.phases[i]? = some p →
    Going j.client (BodyOps.ofFam step drains j.handle) (Q j.handle) K j.code j.hdrs ok C₀ x.fam p m → SmallOthers x.phases K drains i →
    (∀ op, .other op ∈ ms → op.h ≠ j.handle ∧ Ok op) →
    ∃ p' m', (Crowd.run step drains jobs x ms).phases[i]? = some p' ∧ m' ≤ m - turns i ms ∧
      Going j.client (BodyOps.ofFam step drains j.handle) (Q j.handle) K j.code j.hdrs ok C₀ (Crowd.run step drains jobs x ms).fam p' m' := by
  induction ms with
  | nil => intro x p m hx hg _ _; exact ⟨p, m, hx, by simp [turns], hg⟩
  | cons mv ms ih =>
    intro x p m hx hg hs hms
    have hms' : ∀ op, .other op ∈ ms → op.h ≠ j.handle ∧ Ok op := fun op h => hms op (List.mem_cons_of_mem _ h)
    rw [crowd_cons]
    cases mv with
    | other op =>
      obtain ⟨h1, h2⟩ := hms op List.mem_cons_self
      rw [turns_other]
      exact ih _ p m hx (hg.mono fun C hP => hF.apart _ _ _ op hP h2 h1) hs hms'
    | serve i' =>
      rw [turns_serve]
      by_cases hi : i' = i
      · subst hi
        obtain ⟨m', hm, hg'⟩ := going_step hg (hF.lively _) hK (fun hw => hF.drained hw _) hD
        have hlt : i' < x.phases.length := (List.getElem?_eq_some_iff.1 hx).1
        have e : Crowd.step step drains jobs x (.serve i') =
            { fam := (serveStep j.client (BodyOps.ofFam step drains j.handle) j.code j.hdrs p x.fam).2,
              phases := x.phases.set i' (serveStep j.client (BodyOps.ofFam step drains j.handle) j.code j.hdrs p x.fam).1 } := by
          simp only [Crowd.step, hj, hx]
        rw [e]
        have sm : SmallOthers (x.phases.set i' (serveStep j.client (BodyOps.ofFam step drains j.handle) j.code j.hdrs p x.fam).1) K drains i' := by
          intro i2 p2 h2 hne
          rw [List.getElem?_set_ne (Ne.symm hne)] at h2
          exact hs i2 p2 h2 hne
        obtain ⟨p', m'', a1, a2, a3⟩ := ih ⟨_, _⟩ _ m' (List.getElem?_set_self hlt) hg' sm hms'
        exact ⟨p', m'', a1, by rw [if_pos rfl]; omega, a3⟩
      · rw [if_neg hi, Nat.zero_add]
        cases hj' : jobs[i']? with
        | none =>
          have e : Crowd.step step drains jobs x (.serve i') = x := by simp only [Crowd.step, hj']
          rw [e]
          exact ih x p m hx hg hs hms'
        | some j' =>
          cases hp' : x.phases[i']? with
          | none =>
            have e : Crowd.step step drains jobs x (.serve i') = x := by simp only [Crowd.step, hp', hj']
            rw [e]
            exact ih x p m hx hg hs hms'
          | some p' =>
            have e : Crowd.step step drains jobs x (.serve i') =
                { fam := (serveStep j'.client (BodyOps.ofFam step drains j'.handle) j'.code j'.hdrs p' x.fam).2,
                  phases := x.phases.set i' (serveStep j'.client (BodyOps.ofFam step drains j'.handle) j'.code j'.hdrs p' x.fam).1 } := by
              simp only [Crowd.step, hj', hp']
            rw [e]
            obtain ⟨o1, o2⟩ := ho i' j' hj' hi
            obtain ⟨s1, s2⟩ := modest_step hF hK j'.client o2 j'.handle j'.code j'.hdrs p' x.fam (hs i' p' hp' hi)
            have sm : SmallOthers (x.phases.set i' (serveStep j'.client (BodyOps.ofFam step drains j'.handle) j'.code j'.hdrs p' x.fam).1) K drains i := by
              intro i2 p2 h2 hne
              by_cases h3 : i' = i2
              · subst h3
                rw [List.getElem?_set_self (List.getElem?_eq_some_iff.1 hp').1] at h2
                rw [← Option.some.inj h2]
                exact s1
              · rw [List.getElem?_set_ne h3] at h2
                exact hs i2 p2 h2 hne
            exact ih ⟨_, _⟩ p m (by rw [← hx]; exact List.getElem?_set_ne hi) (hg.mono fun C hP => s2 _ C o1 hP) sm hms'

/-! ## In-memory Bodies: nobody notices the others, whatever the clients do -/

/-- Body `h` is the same in both families. -/
def SameAt (h : Nat) : MemFam → MemFam → Prop
  | .empty s, .empty t => s[h]? = t[h]?
  | .bytes s, .bytes t => s[h]? = t[h]?
  | _, _ => False

/-- The calls of `Serve`. -/
def ServeOp (h : Nat) : Op → Prop
  | .read h' _ => h' = h
  | .close h' => h' = h
  | .writeTo h' _ => h' = h
  | _ => False

theorem sameAt_refl (h : Nat) (s : MemFam) : SameAt h s s := by cases s <;> rfl

theorem sameAt_trans {h : Nat} {s t u : MemFam} (a : SameAt h s t) (b : SameAt h t u) : SameAt h s u := by
  cases s <;> cases t <;> cases u <;> first | exact Eq.trans a b | exact a.elim | exact b.elim

theorem get_set_both {α : Type} {s t : List α} {h : Nat} (e : s[h]? = t[h]?) (a : α) : (s.set h a)[h]? = (t.set h a)[h]? := by
  rw [List.getElem?_set, List.getElem?_set, if_pos rfl, if_pos rfl]
  by_cases hs : h < s.length
  · have : h < t.length := by
      rcases Nat.lt_or_ge h t.length with h' | h'
      · exact h'
      · rw [List.getElem?_eq_none h', List.getElem?_eq_getElem hs] at e; simp at e
    rw [if_pos hs, if_pos this]
  · have : ¬ h < t.length := by
      intro h'
      rw [List.getElem?_eq_none (by omega), List.getElem?_eq_getElem h'] at e; simp at e
    rw [if_neg hs, if_neg this]

theorem same_own {h : Nat} {s t : MemFam} (e : SameAt h s t) (op : Op) (ho : ServeOp h op) :
    (s.step op).2 = (t.step op).2 ∧ SameAt h (s.step op).1 (t.step op).1 := by
  cases s with
  | empty s =>
    cases t with
    | bytes t => exact e.elim
    | empty t =>
      have e' : s[h]? = t[h]? := e
      cases op with
      | read h' k | close h' | writeTo h' k =>
        cases ho
        simp only [MemFam.step, EmptyBody.step, Op.h, ← e']
        cases hs : s[h]? with
        | none => exact ⟨rfl, e⟩
        | some b => first | exact ⟨rfl, get_set_both e' _⟩ | exact ⟨rfl, e⟩
      | _ => exact ho.elim
  | bytes s =>
    cases t with
    | empty t => exact e.elim
    | bytes t =>
      have e' : s[h]? = t[h]? := e
      cases op with
      | read h' k | close h' | writeTo h' k =>
        cases ho
        simp only [MemFam.step, BytesBody.step, Op.h, ← e']
        cases hs : s[h]? with
        | none => exact ⟨rfl, e⟩
        | some b => exact ⟨rfl, get_set_both e' _⟩
      | _ => exact ho.elim

theorem get_set_other {α : Type} {s : List α} {h i : Nat} (hne : i ≠ h) (a : α) : (s.set i a)[h]? = s[h]? := List.getElem?_set_ne hne

theorem get_append_old {α : Type} {s : List α} {h : Nat} (hs : s[h]? ≠ none) (a : α) : (s ++ [a])[h]? = s[h]? := by
  rcases Nat.lt_or_ge h s.length with h' | h'
  · exact List.getElem?_append_left h'
  · exact absurd (List.getElem?_eq_none h') hs

/-- The Body exists. -/
def ExistsAt (h : Nat) : MemFam → Prop
  | .empty s => s[h]? ≠ none
  | .bytes s => s[h]? ≠ none

theorem same_other {h : Nat} (s : MemFam) (hx : ExistsAt h s) (op : Op) (hne : op.h ≠ h) : SameAt h s (s.step op).1 := by
  cases s with
  | empty s =>
    have hx' : s[h]? ≠ none := hx
    simp only [MemFam.step, EmptyBody.step]
    split
    · exact rfl
    · cases op with
      | copy h' =>
        dsimp only
        split
        · exact rfl
        · exact (get_append_old hx' _).symm
      | read h' k | close h' => exact (get_set_other hne _).symm
      | seek h' o wh => exact (get_set_other hne _).symm
      | _ => exact rfl
  | bytes s =>
    have hx' : s[h]? ≠ none := hx
    simp only [MemFam.step, BytesBody.step]
    split
    · exact rfl
    · cases op with
      | copy h' =>
        dsimp only
        split
        · exact rfl
        · exact (get_append_old hx' _).symm
      | read h' k | close h' | writeTo h' k => exact (get_set_other hne _).symm
      | seek h' o wh => exact (get_set_other hne _).symm
      | _ => exact rfl

theorem exists_same {h : Nat} {s t : MemFam} (e : SameAt h s t) (hx : ExistsAt h s) : ExistsAt h t := by
  cases s <;> cases t <;> first | exact e.elim | (simp only [SameAt, ExistsAt] at e hx ⊢; rw [← e]; exact hx)

/-- Two outcomes of a call on families that are the same at `h`. -/
def SameOut {α : Type} (h : Nat) (x y : MemFam × α) : Prop := x.2 = y.2 ∧ SameAt h x.1 y.1

theorem same_read {h : Nat} {s t : MemFam} (e : SameAt h s t) (k : Nat) :
    SameOut h ((BodyOps.ofFam MemFam.step true h).read s k) ((BodyOps.ofFam MemFam.step true h).read t k) := by
  obtain ⟨h1, h2⟩ := same_own e (.read h k) rfl
  simp only [BodyOps.ofFam]
  rcases hs : s.step (.read h k) with ⟨s1, o1⟩
  rcases ht : t.step (.read h k) with ⟨t1, o2⟩
  rw [hs, ht] at h1 h2
  dsimp only at h1 h2
  subst h1
  cases o1 <;> exact ⟨rfl, h2⟩

theorem same_close {h : Nat} {s t : MemFam} (e : SameAt h s t) :
    SameOut h ((BodyOps.ofFam MemFam.step true h).close s) ((BodyOps.ofFam MemFam.step true h).close t) := by
  obtain ⟨h1, h2⟩ := same_own e (.close h) rfl
  simp only [BodyOps.ofFam]
  rcases hs : s.step (.close h) with ⟨s1, o1⟩
  rcases ht : t.step (.close h) with ⟨t1, o2⟩
  rw [hs, ht] at h1 h2
  dsimp only at h1 h2
  subst h1
  cases o1 <;> exact ⟨rfl, h2⟩

theorem same_writeTo {α : Type} {h : Nat} {s t : MemFam} (e : SameAt h s t) (write : α → List Byte → α × WAns) (w : α) :
    SameOut h (runWT write ((BodyOps.ofFam MemFam.step true h).writeTo s) w) (runWT write ((BodyOps.ofFam MemFam.step true h).writeTo t) w) := by
  obtain ⟨h1, h2⟩ := same_own e (.writeTo h (fun _ => .ok (0, none))) rfl
  simp only [BodyOps.ofFam]
  rcases hs : s.step (.writeTo h (fun _ => .ok (0, none))) with ⟨s1, o1⟩
  rcases ht : t.step (.writeTo h (fun _ => .ok (0, none))) with ⟨t1, o2⟩
  rw [hs, ht] at h1 h2
  dsimp only at h1 h2
  subst h1
  cases o1 with
  | wrote d n err =>
    cases d with
    | none => exact ⟨rfl, h2⟩
    | some d =>
      simp only [runWT]
      rcases hw : write w d with ⟨w1, (⟨n1, e1⟩ | p | _)⟩
      · dsimp only
        obtain ⟨h3, h4⟩ := same_own e (.writeTo h (fun _ => .ok (n1, e1))) rfl
        rcases hs2 : s.step (.writeTo h (fun _ => .ok (n1, e1))) with ⟨s2, o3⟩
        rcases ht2 : t.step (.writeTo h (fun _ => .ok (n1, e1))) with ⟨t2, o4⟩
        rw [hs2, ht2] at h3 h4
        dsimp only at h3 h4
        subst h3
        cases o3 <;> exact ⟨rfl, h4⟩
      · exact ⟨rfl, e⟩
      · exact ⟨rfl, e⟩
  | _ => exact ⟨rfl, h2⟩

/-- A step of a goroutine depends on its own Body only. -/
theorem same_step {h : Nat} {s t : MemFam} (e : SameAt h s t) (D : RW ω) (code : Int) (hdrs : List (GoStr × List GoStr)) (p : SPhase ω) :
    (serveStep D (BodyOps.ofFam MemFam.step true h) code hdrs p s).1 = (serveStep D (BodyOps.ofFam MemFam.step true h) code hdrs p t).1 ∧
    SameAt h (serveStep D (BodyOps.ofFam MemFam.step true h) code hdrs p s).2 (serveStep D (BodyOps.ofFam MemFam.step true h) code hdrs p t).2 := by
  have rd : ∀ k, ∃ a s' t', (BodyOps.ofFam MemFam.step true h).read s k = (s', a) ∧ (BodyOps.ofFam MemFam.step true h).read t k = (t', a) ∧ SameAt h s' t' := by
    intro k
    obtain ⟨h1, h2⟩ := same_read e k
    exact ⟨((BodyOps.ofFam MemFam.step true h).read s k).2, _, _, rfl, Prod.ext rfl h1.symm, h2⟩
  have wt : ∀ {α : Type} (write : α → List Byte → α × WAns) (w : α), ∃ a s' t', runWT write ((BodyOps.ofFam MemFam.step true h).writeTo s) w = (s', a) ∧
      runWT write ((BodyOps.ofFam MemFam.step true h).writeTo t) w = (t', a) ∧ SameAt h s' t' := by
    intro α write w
    obtain ⟨h1, h2⟩ := same_writeTo e write w
    exact ⟨(runWT write ((BodyOps.ofFam MemFam.step true h).writeTo s) w).2, _, _, rfl, Prod.ext rfl h1.symm, h2⟩
  cases p with
  | start w => exact ⟨rfl, e⟩
  | writeTo w =>
    obtain ⟨a, s', t', h1, h2, h3⟩ := wt D.write w
    simp only [serveStep, h1, h2]
    exact ⟨trivial, h3⟩
  | readFrom r =>
    cases r with
    | done w n err => exact ⟨rfl, e⟩
    | panic w p => exact ⟨rfl, e⟩
    | hang w => exact ⟨rfl, e⟩
    | read w k cont =>
      obtain ⟨a, s', t', h1, h2, h3⟩ := rd k
      simp only [serveStep, h1, h2]
      rcases a with (⟨d, er⟩ | p | _) <;> exact ⟨rfl, h3⟩
    | drain w cont =>
      obtain ⟨a, s', t', h1, h2, h3⟩ := wt (α := Unit) (fun w d => (w, .ret (d.length, none))) ()
      have hw : (BodyOps.ofFam MemFam.step true h).isWriterTo = true := rfl
      simp only [serveStep, discardAll, if_pos hw, h1, h2]
      obtain ⟨u, a⟩ := a
      rcases a with (⟨d, er⟩ | p | _) <;> exact ⟨rfl, h3⟩
  | discard w n cont =>
    obtain ⟨a, s', t', h1, h2, h3⟩ := rd 8192
    simp only [serveStep, h1, h2]
    rcases a with (⟨d, er | er⟩ | p | _) <;> exact ⟨rfl, h3⟩
  | loop w n =>
    obtain ⟨a, s', t', h1, h2, h3⟩ := rd 32768
    simp only [serveStep, h1, h2]
    rcases a with (⟨d, er⟩ | p | _) <;> exact ⟨rfl, h3⟩
  | close w err =>
    obtain ⟨h1, h2⟩ := same_close e
    rcases hs : (BodyOps.ofFam MemFam.step true h).close s with ⟨s', a⟩
    rcases ht : (BodyOps.ofFam MemFam.step true h).close t with ⟨t', b⟩
    rw [hs, ht] at h1 h2
    dsimp only at h1 h2
    subst h1
    simp only [serveStep, hs, ht]
    rcases a with (e2 | p | _) <;> exact ⟨rfl, h2⟩
  | done w o => exact ⟨rfl, e⟩

/-- A step of a goroutine is at most one call of its own Body. -/
theorem serveStep_fam (D : RW ω) (h : Nat) (code : Int) (hdrs : List (GoStr × List GoStr)) (p : SPhase ω) (s : S) :
    (serveStep D (BodyOps.ofFam step drains h) code hdrs p s).2 = s ∨
    ∃ op, op.h = h ∧ (serveStep D (BodyOps.ofFam step drains h) code hdrs p s).2 = (step s op).1 := by
  have rd : ∀ k, ((BodyOps.ofFam step drains h).read s k).1 = (step s (.read h k)).1 := ofFam_read_fam h s
  have wt : ∀ {α : Type} (write : α → List Byte → α × WAns) (w : α), (runWT write ((BodyOps.ofFam step drains h).writeTo s) w).1 = s ∨
      ∃ op, op.h = h ∧ (runWT write ((BodyOps.ofFam step drains h).writeTo s) w).1 = (step s op).1 := by
    intro α write w
    rcases ofFam_writeTo_fam (step := step) (drains := drains) h s write w with e | ⟨f, e⟩
    · exact .inl e
    · exact .inr ⟨_, rfl, e⟩
  cases p with
  | start w => exact .inl rfl
  | writeTo w => exact wt D.write w
  | readFrom r =>
    cases r with
    | done w n err => exact .inl rfl
    | panic w p => exact .inl rfl
    | hang w => exact .inl rfl
    | read w k cont =>
      have := rd k
      simp only [serveStep]
      rcases hr : (BodyOps.ofFam step drains h).read s k with ⟨b1, (⟨d, er⟩ | p | _)⟩ <;> rw [hr] at this <;> exact .inr ⟨_, rfl, this⟩
    | drain w cont =>
      have := wt (α := Unit) (fun w d => (w, .ret (d.length, none))) ()
      simp only [serveStep]
      by_cases hw : (BodyOps.ofFam step drains h).isWriterTo = true
      · simp only [discardAll, if_pos hw]
        rcases hr : runWT (fun (w : Unit) (d : List Byte) => (w, (.ret (d.length, none) : WAns))) ((BodyOps.ofFam step drains h).writeTo s) () with
          ⟨b1, u, (⟨d, er⟩ | p | _)⟩ <;> rw [hr] at this <;> exact this
      · rw [if_neg hw]; exact .inl rfl
  | discard w n cont =>
    have := rd 8192
    simp only [serveStep]
    rcases hr : (BodyOps.ofFam step drains h).read s 8192 with ⟨b1, (⟨d, er | er⟩ | p | _)⟩ <;> rw [hr] at this <;> exact .inr ⟨_, rfl, this⟩
  | loop w n =>
    have := rd 32768
    simp only [serveStep]
    rcases hr : (BodyOps.ofFam step drains h).read s 32768 with ⟨b1, (⟨d, er⟩ | p | _)⟩ <;> rw [hr] at this <;> exact .inr ⟨_, rfl, this⟩
  | close w err =>
    have : ((BodyOps.ofFam step drains h).close s).1 = (step s (.close h)).1 := ofFam_close_fam h s
    simp only [serveStep]
    rcases hr : (BodyOps.ofFam step drains h).close s with ⟨b1, (er | p | _)⟩ <;> rw [hr] at this <;> exact .inr ⟨_, rfl, this⟩
  | done w o => exact .inl rfl

/-- A step of another goroutine leaves this Body as it is. -/
theorem same_foreign {h i : Nat} (hne : i ≠ h) (s : MemFam) (hx : ExistsAt h s) (D : RW ω) (code : Int) (hdrs : List (GoStr × List GoStr)) (p : SPhase ω) :
    SameAt h s (serveStep D (BodyOps.ofFam MemFam.step true i) code hdrs p s).2 := by
  rcases serveStep_fam (step := MemFam.step) (drains := true) D i code hdrs p s with e | ⟨op, ho, e⟩
  · rw [e]; exact sameAt_refl h s
  · rw [e]; exact same_other s hx op (by rw [ho]; exact hne)

theorem get_length {α : Type} {s t : List α} {h : Nat} (hx : s[h]? ≠ none) (hl : s.length ≤ t.length) : t[h]? ≠ none := by
  intro h'
  apply hx
  rw [List.getElem?_eq_none_iff] at h' ⊢
  omega

theorem exists_step {h : Nat} (s : MemFam) (hx : ExistsAt h s) (op : Op) : ExistsAt h (s.step op).1 := by
  cases s with
  | empty s =>
    refine get_length (s := s) (t := (EmptyBody.step s op).1) hx ?_
    unfold EmptyBody.step
    split
    · exact Nat.le_refl _
    · cases op <;> dsimp only <;> (try split) <;> simp
  | bytes s =>
    refine get_length (s := s) (t := (BytesBody.step s op).1) hx ?_
    unfold BytesBody.step
    split
    · exact Nat.le_refl _
    · cases op <;> dsimp only <;> (try split) <;> simp

/-- Whatever the others do, a goroutine that serves an in-memory Body is where it would be if it had done its steps alone. -/
theorem mem_alone {jobs : List (Job ω)} {i : Nat} {j : Job ω} (hj : jobs[i]? = some j)
    (ho : ∀ (i' : Nat) j', jobs[i']? = some j' → i' ≠ i → j'.handle ≠ j.handle) (ms : List CMove) :
    ∀ (x : Crowd MemFam ω) (p : SPhase ω) (t : MemFam), x.phases[i]? = some p → SameAt j.handle x.fam t → ExistsAt j.handle x.fam →
    (∀ op, .other op ∈ ms → op.h ≠ j.handle) →
    (Crowd.run MemFam.step true jobs x ms).phases[i]? =
      some (serveSteps j.client (BodyOps.ofFam MemFam.step true j.handle) j.code j.hdrs (turns i ms) (p, t)).1 := by
  induction ms with
  | nil => intro x p t hx _ _ _; exact hx
  | cons mv ms ih =>
    intro x p t hx he hex hms
    have hms' : ∀ op, .other op ∈ ms → op.h ≠ j.handle := fun op h => hms op (List.mem_cons_of_mem _ h)
    rw [crowd_cons]
    have moved : ∀ {s : MemFam}, SameAt j.handle x.fam s → SameAt j.handle s t ∧ ExistsAt j.handle s := fun {s} h =>
      ⟨sameAt_trans (by cases hq : x.fam <;> cases s <;> rw [hq] at h <;> first | exact Eq.symm h | exact h.elim) he, exists_same h hex⟩
    cases mv with
    | other op =>
      rw [turns_other]
      obtain ⟨m1, m2⟩ := moved (same_other x.fam hex op (hms op List.mem_cons_self))
      exact ih _ p t hx m1 m2 hms'
    | serve i' =>
      rw [turns_serve]
      by_cases hi : i' = i
      · subst hi
        have hlt : i' < x.phases.length := (List.getElem?_eq_some_iff.1 hx).1
        have e : Crowd.step MemFam.step true jobs x (.serve i') =
            { fam := (serveStep j.client (BodyOps.ofFam MemFam.step true j.handle) j.code j.hdrs p x.fam).2,
              phases := x.phases.set i' (serveStep j.client (BodyOps.ofFam MemFam.step true j.handle) j.code j.hdrs p x.fam).1 } := by
          simp only [Crowd.step, hj, hx]
        obtain ⟨s1, s2⟩ := same_step he j.client j.code j.hdrs p
        have hex' : ExistsAt j.handle (serveStep j.client (BodyOps.ofFam MemFam.step true j.handle) j.code j.hdrs p x.fam).2 := by
          rcases serveStep_fam (step := MemFam.step) (drains := true) j.client j.handle j.code j.hdrs p x.fam with e | ⟨op, -, e⟩
          · rw [e]; exact hex
          · rw [e]; exact exists_step _ hex op
        rw [e, if_pos rfl, Nat.add_comm]
        have := ih ⟨_, x.phases.set i' (serveStep j.client (BodyOps.ofFam MemFam.step true j.handle) j.code j.hdrs p x.fam).1⟩ _ _
          (List.getElem?_set_self hlt) s2 hex' hms'
        rw [this, s1]
        rfl
      · rw [if_neg hi, Nat.zero_add]
        cases hj' : jobs[i']? with
        | none =>
          have e : Crowd.step MemFam.step true jobs x (.serve i') = x := by simp only [Crowd.step, hj']
          rw [e]
          exact ih x p t hx he hex hms'
        | some j' =>
          cases hp' : x.phases[i']? with
          | none =>
            have e : Crowd.step MemFam.step true jobs x (.serve i') = x := by simp only [Crowd.step, hp', hj']
            rw [e]
            exact ih x p t hx he hex hms'
          | some p' =>
            have e : Crowd.step MemFam.step true jobs x (.serve i') =
                { fam := (serveStep j'.client (BodyOps.ofFam MemFam.step true j'.handle) j'.code j'.hdrs p' x.fam).2,
                  phases := x.phases.set i' (serveStep j'.client (BodyOps.ofFam MemFam.step true j'.handle) j'.code j'.hdrs p' x.fam).1 } := by
              simp only [Crowd.step, hj', hp']
            rw [e]
            obtain ⟨m1, m2⟩ := moved (same_foreign (ho i' j' hj' hi) x.fam hex j'.client j'.code j'.hdrs p')
            exact ih ⟨_, _⟩ p t (by rw [← hx]; exact List.getElem?_set_ne hi) m1 m2 hms'

end Verif
