import Verif.Spec.Copies
import Verif.Proofs.Source

/-!
# What serving a Body leaves alone

Whatever the client does: if a fact about the state of the Bodies survives `Read`, `Close` and `WriteTo` of one of them, it survives `Serve`.
-/

set_option autoImplicit false

namespace Verif
open Spec
variable {β ω : Type}

/-- The fact holds wherever a run of `WriteTo` can end. -/
def WTAll (I : β → Prop) : WT β → Prop
  | .done b _ _ => I b
  | .write b _ cont => I b ∧ ∀ n e, WTAll I (cont n e)
  | .panic b _ => I b
  | .hang _ => True

/-- The fact survives the calls that `Serve` makes (unless they do not return). -/
structure Keeps (B : BodyOps β) (I : β → Prop) : Prop where
  read : ∀ b k, k < 2 ^ 62 → I b → (B.read b k).2 = .hang ∨ I (B.read b k).1
  close : ∀ b, I b → (B.close b).2 = .hang ∨ I (B.close b).1
  writeTo : B.isWriterTo = true → ∀ b, I b → WTAll I (B.writeTo b)

theorem keeps_runWT {I : β → Prop} (write : ω → List Byte → ω × WAns) {t : WT β} (h : WTAll I t) (w : ω) :
    (runWT write t w).2.2 = .hang ∨ I (runWT write t w).1 := by
  induction t generalizing w with
  | done b n err => exact .inr h
  | write b d cont ih =>
    simp only [runWT]
    split
    · exact ih _ _ (h.2 _ _) _
    · exact .inr h.1
    · exact .inl rfl
  | panic b p => exact .inr h
  | hang b => exact .inl rfl

theorem keeps_discardLoop {B : BodyOps β} {I : β → Prop} (hB : Keeps B I) (fuel : Nat) (b : β) (n : Int) (h : I b) :
    (discardLoop B fuel b n).2 = .hang ∨ I (discardLoop B fuel b n).1 := by
  induction fuel generalizing b n with
  | zero => exact .inl rfl
  | succ fuel ih =>
    have := hB.read b 8192 (by omega) h
    simp only [discardLoop]
    split
    · rename_i heq; rw [heq] at this
      rcases this with h' | h'
      · cases h'
      · exact ih _ _ h'
    · rename_i heq; rw [heq] at this
      rcases this with h' | h'
      · cases h'
      · exact .inr h'
    · rename_i heq; rw [heq] at this
      rcases this with h' | h'
      · cases h'
      · exact .inr h'
    · exact .inl rfl

theorem keeps_discardAll {B : BodyOps β} {I : β → Prop} (hB : Keeps B I) (fuel : Nat) (b : β) (h : I b) :
    (discardAll B fuel b).2 = .hang ∨ I (discardAll B fuel b).1 := by
  unfold discardAll
  split
  · rename_i hw; exact keeps_runWT _ (hB.writeTo hw b h) ()
  · exact keeps_discardLoop hB fuel b 0 h

theorem keeps_runRF {B : BodyOps β} {I : β → Prop} (hB : Keeps B I) (fuel : Nat) {t : RF ω} (ht : SmallReads t) (b : β) (h : I b) :
    (runRF B fuel t b).2.2 = .hang ∨ I (runRF B fuel t b).1 := by
  induction t generalizing b with
  | done w n err => exact .inr h
  | read w k cont ih =>
    have := hB.read b k ht.1 h
    simp only [runRF]
    split
    · rename_i heq; rw [heq] at this
      rcases this with h' | h'
      · cases h'
      · exact ih _ _ (ht.2 _ _) _ h'
    · rename_i heq; rw [heq] at this
      rcases this with h' | h'
      · cases h'
      · exact .inr h'
    · exact .inl rfl
  | drain w cont ih =>
    have := keeps_discardAll hB fuel b h
    simp only [runRF]
    split
    · rename_i heq; rw [heq] at this
      rcases this with h' | h'
      · cases h'
      · exact ih _ _ (ht _ _) _ h'
    · rename_i heq; rw [heq] at this
      rcases this with h' | h'
      · cases h'
      · exact .inr h'
    · exact .inl rfl
  | panic w p => exact .inr h
  | hang w => exact .inl rfl

theorem keeps_copyLoop (D : RW ω) {B : BodyOps β} {I : β → Prop} (hB : Keeps B I) (fuel : Nat) (b : β) (w : ω) (n : Int) (h : I b) :
    (copyLoop D B fuel b w n).2.2 = .hang ∨ I (copyLoop D B fuel b w n).1 := by
  induction fuel generalizing b w n with
  | zero => exact .inl rfl
  | succ fuel ih =>
    have := hB.read b 32768 (by omega) h
    simp only [copyLoop]
    split
    · rename_i heq; rw [heq] at this
      rcases this with h' | h'
      · cases h'
      · exact .inr h'
    · exact .inl rfl
    · rename_i heq; rw [heq] at this
      have h' := this.resolve_left (by simp)
      repeat' split
      all_goals first
        | exact .inr h'
        | exact .inl rfl
        | exact ih _ _ _ h'

theorem keeps_ioCopy {D : RW ω} (hD : D.isReaderFrom = true → ∀ w, SmallReads (D.readFrom w)) {B : BodyOps β} {I : β → Prop} (hB : Keeps B I)
    (fuel : Nat) (b : β) (w : ω) (h : I b) : (ioCopy D B fuel b w).2.2 = .hang ∨ I (ioCopy D B fuel b w).1 := by
  unfold ioCopy
  split
  · rename_i hw; exact keeps_runWT _ (hB.writeTo hw b h) w
  · split
    · rename_i hr; exact keeps_runRF hB fuel (hD hr w) b h
    · exact keeps_copyLoop D hB fuel b w 0 h

theorem keeps_serve {D : RW ω} (hD : D.isReaderFrom = true → ∀ w, SmallReads (D.readFrom w)) {B : BodyOps β} {I : β → Prop} (hB : Keeps B I)
    (fuel : Nat) (r : Resp β) (w : ω) (h : I r.body) : (serve D B fuel r w).2.2 = .hang ∨ I (serve D B fuel r w).1 := by
  unfold serve
  dsimp only
  split
  · exact .inr h
  · split
    · exact .inr h
    · exact .inr h
    · rename_i w' _
      have := keeps_ioCopy hD hB fuel r.body w' h
      split
      · rename_i heq; rw [heq] at this
        exact .inr (this.resolve_left (by simp))
      · exact .inl rfl
      · rename_i b _ _ _ heq; rw [heq] at this
        have h' := this.resolve_left (by simp)
        have := hB.close b h'
        split
        · rename_i heq; rw [heq] at this
          exact .inr (this.resolve_left (by simp))
        · exact .inl rfl
        · rename_i heq; rw [heq] at this
          exact .inr (this.resolve_left (by simp))

variable {S : Type} {step : S → Op → S × Out} {cfg : Spec.Cfg} {Ok : Op → Prop} {Allowed : Choice → Prop}

/-- A call on one cursor leaves the others alone. -/
theorem spec_step_other {cfg : Spec.Cfg} (ch : Choice) (f : List Cursor) (op : Op) {h' : Nat} (hne : op.h ≠ h') (c : Cursor) (hc : f[h']? = some c) :
    (Spec.step cfg ch f op).1[h']? = some c := by
  unfold Spec.step
  split
  · exact hc
  · cases op <;> simp only [Op.h] at hne <;> dsimp only <;> repeat' split
    all_goals first
      | exact hc
      | (rw [List.getElem?_set_ne hne]; exact hc)
      | (rw [List.getElem?_append_left (List.getElem?_eq_some_iff.1 hc).1]; exact hc)

/-- A fact that survives the calls `Serve` makes on Body `h` of a family. -/
theorem keeps_of_steps {I : S → Prop} {d : Bool} (h : Nat) (one : ∀ s op, op.h = h → Ok op → (step s op).2 ≠ .hang → I s → I (step s op).1)
    (hread : ∀ k, k < 2 ^ 62 → Ok (.read h k)) (hclose : Ok (.close h)) (hwrite : d = true → ∀ w, Ok (.writeTo h w))
    (hw0 : ∀ s w, (step s (.writeTo h w)).2 ≠ .hang) : Keeps (BodyOps.ofFam step d h) I := by
  refine ⟨?_, ?_, ?_⟩
  · intro s k hk hs
    have := one s (.read h k) rfl (hread k hk)
    simp only [BodyOps.ofFam]
    rcases hq : step s (.read h k) with ⟨s', o⟩
    rw [hq] at this
    cases o
    case hang => exact .inl rfl
    all_goals exact .inr (this (by simp) hs)
  · intro s hs
    have := one s (.close h) rfl hclose
    simp only [BodyOps.ofFam]
    rcases hq : step s (.close h) with ⟨s', o⟩
    rw [hq] at this
    cases o
    case hang => exact .inl rfl
    all_goals exact .inr (this (by simp) hs)
  · rintro (hd : d = true) s hs
    have hw : ∀ w, I (step s (.writeTo h w)).1 := fun w => one s _ rfl (hwrite hd w) (hw0 s w) hs
    have e0 : (BodyOps.ofFam step d h).writeTo s = match step s (.writeTo h (fun _ => .ok (0, none))) with
      | (s', .wrote none n err) => .done s' n err
      | (_, .wrote (some d) _ _) => .write s d fun n err =>
        match step s (.writeTo h (fun _ => .ok (n, err))) with
        | (s', .wrote _ n err) => .done s' n err
        | (s', .panic p) => .panic s' p
        | (s', _) => .panic s' .nilDeref
      | (s', .panic p) => .panic s' p
      | (s', _) => .panic s' .nilDeref := rfl
    rw [e0]
    have h0 := hw (fun _ => .ok (0, none))
    rcases hq : step s (.writeTo h (fun _ => .ok (0, none))) with ⟨s1, o⟩
    rw [hq] at h0
    cases o
    case wrote g n err =>
      cases g with
      | none => exact h0
      | some d =>
        refine ⟨hs, fun n e => ?_⟩
        dsimp only
        have h1 := hw (fun _ => .ok (n, e))
        rcases hq2 : step s (.writeTo h (fun _ => .ok (n, e))) with ⟨s2, o2⟩
        rw [hq2] at h1
        cases o2 <;> exact h1
    all_goals exact h0

/-- Serving Body `h` leaves Body `h'` alone. -/
theorem keeps_of_sim (Rel : S → List Cursor → Prop)
    (hstep : ∀ s f op, Rel s f → Ok op → (step s op).2 ≠ .hang →
      ∃ ch, Allowed ch ∧ (step s op).2 = (Spec.step cfg ch f op).2 ∧
        Rel (step s op).1 (Spec.step cfg ch f op).1)
    (h : Nat) (hread : ∀ k, k < 2 ^ 62 → Ok (.read h k)) (hclose : Ok (.close h)) (hwrite : cfg.drains = true → ∀ w, Ok (.writeTo h w))
    (hw0 : ∀ s w, (step s (.writeTo h w)).2 ≠ .hang) {h' : Nat} (hne : h ≠ h') (C : List Byte) :
    Keeps (BodyOps.ofFam step cfg.drains h) (fun s => SrcRel Rel h' s C) := by
  have one : ∀ s op, op.h = h → Ok op → (step s op).2 ≠ .hang → SrcRel Rel h' s C → SrcRel Rel h' (step s op).1 C := by
    rintro s op he hok hn ⟨f, c, hR, hc, ho, e⟩
    obtain ⟨ch, -, -, h2⟩ := hstep s f op hR hok hn
    exact ⟨_, c, h2, spec_step_other ch f op (by rw [he]; exact hne) c hc, ho, e⟩
  exact keeps_of_steps h one hread hclose hwrite hw0

/-- Serving Body `h` leaves the cursor of Body `h'` alone. -/
theorem keeps_cursor (Rel : S → List Cursor → Prop)
    (hstep : ∀ s f op, Rel s f → Ok op → (step s op).2 ≠ .hang →
      ∃ ch, Allowed ch ∧ (step s op).2 = (Spec.step cfg ch f op).2 ∧
        Rel (step s op).1 (Spec.step cfg ch f op).1)
    (h : Nat) (hread : ∀ k, k < 2 ^ 62 → Ok (.read h k)) (hclose : Ok (.close h)) (hwrite : cfg.drains = true → ∀ w, Ok (.writeTo h w))
    (hw0 : ∀ s w, (step s (.writeTo h w)).2 ≠ .hang) {h' : Nat} (hne : h ≠ h') (c : Cursor) :
    Keeps (BodyOps.ofFam step cfg.drains h) (fun s => ∃ f, Rel s f ∧ f[h']? = some c) := by
  refine keeps_of_steps h ?_ hread hclose hwrite hw0
  rintro s op he hok hn ⟨f, hR, hc⟩
  obtain ⟨ch, -, -, h2⟩ := hstep s f op hR hok hn
  exact ⟨_, h2, spec_step_other ch f op (by rw [he]; exact hne) c hc⟩

/-- `Copy` of an open Body gives another one with the same cursor. -/
theorem copy_cursor (Rel : S → List Cursor → Prop)
    (hstep : ∀ s f op, Rel s f → Ok op → (step s op).2 ≠ .hang →
      ∃ ch, Allowed ch ∧ (step s op).2 = (Spec.step cfg ch f op).2 ∧
        Rel (step s op).1 (Spec.step cfg ch f op).1)
    (h : Nat) (hok : Ok (.copy h)) (s : S) (hnh : (step s (.copy h)).2 ≠ .hang) {f : List Cursor} {c : Cursor} (hR : Rel s f) (hc : f[h]? = some c)
    (ho : c.isOpen = true) :
    ∃ s' h' f', step s (.copy h) = (s', .copied h') ∧ h ≠ h' ∧ Rel s' f' ∧ f'[h]? = some c ∧ f'[h']? = some c := by
  obtain ⟨ch, -, h1, h2⟩ := hstep s f (.copy h) hR hok hnh
  have hlt : h < f.length := (List.getElem?_eq_some_iff.1 hc).1
  simp only [Spec.step, Op.h, hc, ho, if_true] at h1 h2
  refine ⟨_, f.length, _, Prod.ext rfl h1, by omega, h2, ?_, ?_⟩
  · rw [List.getElem?_append_left hlt]; exact hc
  · simp

/-- `Copy` of an open Body gives another one that is going to deliver the same. -/
theorem copy_of_sim (Rel : S → List Cursor → Prop)
    (hstep : ∀ s f op, Rel s f → Ok op → (step s op).2 ≠ .hang →
      ∃ ch, Allowed ch ∧ (step s op).2 = (Spec.step cfg ch f op).2 ∧
        Rel (step s op).1 (Spec.step cfg ch f op).1)
    (h : Nat) (hok : Ok (.copy h)) (s : S) (hnh : (step s (.copy h)).2 ≠ .hang) {C : List Byte} (hs : SrcRel Rel h s C) :
    ∃ s' h', step s (.copy h) = (s', .copied h') ∧ h ≠ h' ∧ SrcRel Rel h s' C ∧ SrcRel Rel h' s' C := by
  obtain ⟨f, c, hR, hc, ho, rfl⟩ := hs
  obtain ⟨ch, -, h1, h2⟩ := hstep s f (.copy h) hR hok hnh
  have hlt : h < f.length := (List.getElem?_eq_some_iff.1 hc).1
  simp only [Spec.step, Op.h, hc, ho, if_true] at h1 h2
  refine ⟨_, f.length, Prod.ext rfl h1, by omega, ⟨_, c, h2, ?_, ho, rfl⟩, ⟨_, c, h2, ?_, ho, rfl⟩⟩
  · rw [List.getElem?_append_left hlt]; exact hc
  · simp

end Verif
