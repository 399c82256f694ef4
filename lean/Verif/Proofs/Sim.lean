import Verif.Spec.Cursor

/-! # Pointwise relations between two heaps of bodies, and lifting step simulations to histories -/

set_option autoImplicit false

namespace Verif

theorem run_nil {S Op Out : Type} (step : S → Op → S × Out) (s : S) : run step s [] = (s, []) := rfl

theorem run_cons {S Op Out : Type} (step : S → Op → S × Out) (s : S) (op : Op) (ops : List Op) :
    run step s (op :: ops) =
      ((run step (step s op).1 ops).1, (step s op).2 :: (run step (step s op).1 ops).2) := rfl

theorem run_append {S Op Out : Type} (step : S → Op → S × Out) (s : S) (xs ys : List Op) :
    run step s (xs ++ ys) =
      ((run step (run step s xs).1 ys).1, (run step s xs).2 ++ (run step (run step s xs).1 ys).2) := by
  induction xs generalizing s with
  | nil => simp [run_nil]
  | cons x xs ih => simp [run_cons, ih]

theorem run_length {S Op Out : Type} (step : S → Op → S × Out) (s : S) (xs : List Op) :
    (run step s xs).2.length = xs.length := by
  induction xs generalizing s with
  | nil => simp [run_nil]
  | cons x xs ih => simp [run_cons, ih]

/-- An invariant preserved by every step holds after every history. -/
theorem run_inv {S Op Out : Type} (step : S → Op → S × Out) (I : S → Prop)
    (h : ∀ s op, I s → I (step s op).1) (s : S) (hs : I s) (ops : List Op) : I (run step s ops).1 := by
  induction ops generalizing s with
  | nil => exact hs
  | cons op ops ih => rw [run_cons]; exact ih _ (h s op hs)

theorem set_self {α : Type} {l : List α} {i : Nat} {a : α} (h : l[i]? = some a) : l.set i a = l := by
  apply List.ext_getElem?
  intro j
  rw [List.getElem?_set]
  by_cases hij : i = j
  · subst hij
    obtain ⟨h', e⟩ := List.getElem?_eq_some_iff.1 h
    simp [h', e]
  · simp [hij]

/-- Two lists of equal length related element by element. -/
def Pw {α β : Type} (R : α → β → Prop) (s : List α) (f : List β) : Prop :=
  s.length = f.length ∧ ∀ (i : Nat) (a : α) (b : β), s[i]? = some a → f[i]? = some b → R a b

namespace Pw
variable {α β : Type} {R : α → β → Prop} {s : List α} {f : List β}

theorem none_iff (h : Pw R s f) (i : Nat) : s[i]? = none ↔ f[i]? = none := by
  simp [h.1]

theorem get (h : Pw R s f) {i : Nat} {a : α} (hi : s[i]? = some a) :
    ∃ b, f[i]? = some b ∧ R a b := by
  cases hf : f[i]? with
  | none => rw [(h.none_iff i).2 hf] at hi; cases hi
  | some b => exact ⟨b, rfl, h.2 i a b hi hf⟩

theorem set (h : Pw R s f) (i : Nat) {a : α} {b : β} (hab : R a b) : Pw R (s.set i a) (f.set i b) := by
  refine ⟨by simp [h.1], ?_⟩
  intro j a' b' ha hb
  rw [List.getElem?_set] at ha hb
  by_cases hij : i = j
  · subst hij
    simp only [if_true] at ha hb
    split at ha <;> simp_all
  · simp only [hij, if_false] at ha hb
    exact h.2 j a' b' ha hb

theorem append (h : Pw R s f) {a : α} {b : β} (hab : R a b) : Pw R (s ++ [a]) (f ++ [b]) := by
  refine ⟨by simp [h.1], ?_⟩
  intro j a' b' ha hb
  rw [List.getElem?_append] at ha hb
  rw [h.1] at ha
  by_cases hj : j < f.length
  · simp only [hj, if_true] at ha hb
    exact h.2 j a' b' ha hb
  · simp only [hj, if_false] at ha hb
    rw [List.getElem?_singleton] at ha hb
    split at ha <;> simp_all

theorem imp {R' : α → β → Prop} (h : Pw R s f) (hi : ∀ a b, R a b → R' a b) : Pw R' s f :=
  ⟨h.1, fun i a b ha hb => hi a b (h.2 i a b ha hb)⟩

theorem single {a : α} {b : β} (h : R a b) : Pw R [a] [b] := by
  refine ⟨rfl, ?_⟩
  intro i a' b' ha hb
  cases i <;> simp_all

end Pw

/-- A step-by-step simulation by independent cursors lifts to every history in which every call
returned. -/
theorem run_sim {S : Type} (cfg : Spec.Cfg) (step : S → Op → S × Out)
    (Rel : S → List Spec.Cursor → Prop) (Ok : Op → Prop) (Allowed : Spec.Choice → Prop)
    (hstep : ∀ s f op, Rel s f → Ok op → (step s op).2 ≠ .hang →
      ∃ ch, Allowed ch ∧ (step s op).2 = (Spec.step cfg ch f op).2 ∧
        Rel (step s op).1 (Spec.step cfg ch f op).1) :
    ∀ (ops : List Op) (s : S) (f : List Spec.Cursor), Rel s f → (∀ op ∈ ops, Ok op) →
      Out.hang ∉ (run step s ops).2 →
      ∃ chs : List Spec.Choice, chs.length = ops.length ∧ (∀ ch ∈ chs, Allowed ch) ∧
        (run step s ops).2 = (Spec.run cfg f (chs.zip ops)).2 ∧
        Rel (run step s ops).1 (Spec.run cfg f (chs.zip ops)).1 := by
  intro ops
  induction ops with
  | nil => intro s f h _ _; exact ⟨[], rfl, by simp, rfl, h⟩
  | cons op ops ih =>
    intro s f h hok hh
    rw [run_cons] at hh
    simp only [List.mem_cons, not_or] at hh
    obtain ⟨ch, hal, ho, hr⟩ := hstep s f op h (hok op (by simp)) (fun e => hh.1 e.symm)
    obtain ⟨chs, hl, ha, hout, hrel⟩ := ih _ _ hr (fun o m => hok o (by simp [m])) hh.2
    refine ⟨ch :: chs, by simp [hl], ?_, ?_, ?_⟩
    · intro c hc
      rcases List.mem_cons.1 hc with rfl | hc
      · exact hal
      · exact ha c hc
    · simp [run_cons, Spec.run, ho, hout]
    · simpa [run_cons, Spec.run] using hrel

/-- The same with the default choices only. -/
theorem run_sim_det {S : Type} (cfg : Spec.Cfg) (step : S → Op → S × Out)
    (Rel : S → List Spec.Cursor → Prop) (Ok : Op → Prop)
    (hstep : ∀ s f op, Rel s f → Ok op →
      (step s op).2 = (Spec.step cfg {} f op).2 ∧ Rel (step s op).1 (Spec.step cfg {} f op).1) :
    ∀ (ops : List Op) (s : S) (f : List Spec.Cursor), Rel s f → (∀ op ∈ ops, Ok op) →
      (run step s ops).2 = (Spec.run cfg f (ops.map (({} : Spec.Choice), ·))).2 ∧
        Rel (run step s ops).1 (Spec.run cfg f (ops.map (({} : Spec.Choice), ·))).1 := by
  intro ops
  induction ops with
  | nil => intro s f h _; exact ⟨rfl, h⟩
  | cons op ops ih =>
    intro s f h hok
    obtain ⟨ho, hr⟩ := hstep s f op h (hok op (by simp))
    obtain ⟨h1, h2⟩ := ih _ _ hr (fun o m => hok o (by simp [m]))
    refine ⟨?_, ?_⟩
    · simp [run_cons, Spec.run, ho, h1]
    · simpa [run_cons, Spec.run] using h2

end Verif
