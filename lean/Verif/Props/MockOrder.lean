import Verif.Spec.MockOrder
import Verif.Props.MockConc

/-!
# C67: goroutines using one MockReader do not race, in the sense of the Go memory model
-/

set_option autoImplicit false

namespace Verif
open Spec MockConc
variable {es : List Expectation} {x : List (Nat × MockDid)} {s : MockConc}

theorem trail_runs (h : MockConc.Trail es x s) : ∃ tr, MockConc.Runs es tr s := by
  induction h with
  | start => exact ⟨_, .start⟩
  | call t c _ hi ih => obtain ⟨tr, h⟩ := ih; exact ⟨_, .call t c h hi⟩
  | step t _ hs ih => obtain ⟨tr, h⟩ := ih; exact ⟨_, .step t h hs⟩

theorem Spec.MockBefore.more {i j : Nat} (h : MockBefore x i j) (y : List (Nat × MockDid)) : MockBefore (x ++ y) i j := by
  have k : ∀ {i : Nat} {s : Nat × MockDid}, x[i]? = some s → (x ++ y)[i]? = some s := fun h => by
    rw [List.getElem?_append_left (List.getElem?_eq_some_iff.1 h).1]; exact h
  induction h with
  | program h1 h2 h3 => exact .program h1 (k h2) (k h3)
  | mutex h1 h2 h3 => exact .mutex h1 (k h2) (k h3)
  | trans _ _ h1 h2 => exact .trans h1 h2

/-- Step `i` is one for which `P` holds, or happens before one. -/
def LeadsTo (x : List (Nat × MockDid)) (P : Nat × MockDid → Prop) (i : Nat) : Prop := ∃ j y, x[j]? = some y ∧ P y ∧ (i = j ∨ MockBefore x i j)

theorem LeadsTo.more {P : Nat × MockDid → Prop} {i : Nat} (h : LeadsTo x P i) (y : List (Nat × MockDid)) : LeadsTo (x ++ y) P i := by
  obtain ⟨j, z, h1, h2, h3⟩ := h
  exact ⟨j, z, by rw [List.getElem?_append_left (List.getElem?_eq_some_iff.1 h1).1]; exact h1, h2, h3.imp_right fun h => h.more y⟩

theorem last_step (x : List (Nat × MockDid)) (y : Nat × MockDid) : (x ++ [y])[x.length]? = some y := by simp

/-- What is known to a goroutine happens before its next step. -/
theorem LeadsTo.next {t i : Nat} (h : LeadsTo x (fun y => y.1 = t) i) (a : MockDid) : MockBefore (x ++ [(t, a)]) i x.length := by
  obtain ⟨j, ⟨u, b⟩, h1, rfl, h3⟩ := h
  have hj := (List.getElem?_eq_some_iff.1 h1).1
  have h4 : MockBefore (x ++ [(u, a)]) j x.length := .program hj (by rw [List.getElem?_append_left hj]; exact h1) (last_step x _)
  rcases h3 with rfl | h3
  · exact h4
  · exact .trans (h3.more _) h4

/-- What was released happens before the next one gets the mutex. -/
theorem LeadsTo.locked {t i : Nat} (h : LeadsTo x (fun y => y.2 = .unlock) i) : MockBefore (x ++ [(t, .lock)]) i x.length := by
  obtain ⟨j, ⟨u, b⟩, h1, rfl, h3⟩ := h
  have hj := (List.getElem?_eq_some_iff.1 h1).1
  have h4 : MockBefore (x ++ [(t, .lock)]) j x.length := .mutex hj (by rw [List.getElem?_append_left hj]; exact h1) (last_step x _)
  rcases h3 with rfl | h3
  · exact h4
  · exact .trans (h3.more _) h4

/-- An access to the index. -/
def MockDid.touches (a : MockDid) : Prop := a = .read ∨ a = .write

/-- All accesses so far are known to whoever has the mutex, or were released by those who had it. -/
structure AllKnown (x : List (Nat × MockDid)) (s : MockConc) : Prop where
  ordered : ∀ (i j : Nat) (y z : Nat × MockDid), i < j → x[i]? = some y → x[j]? = some z → y.2.touches → z.2.touches → MockBefore x i j
  held : ∀ t, s.owner = some t → ∀ (i : Nat) (y : Nat × MockDid), x[i]? = some y → y.2.touches → LeadsTo x (fun z => z.1 = t) i
  free : s.owner = none → ∀ (i : Nat) (y : Nat × MockDid), x[i]? = some y → y.2.touches → LeadsTo x (fun z => z.2 = .unlock) i

theorem get_snoc {y z : Nat × MockDid} {i : Nat} (h : (x ++ [y])[i]? = some z) : x[i]? = some z ∨ i = x.length ∧ z = y := by
  by_cases hi : i < x.length
  · rw [List.getElem?_append_left hi] at h; exact .inl h
  · have : i < (x ++ [y]).length := (List.getElem?_eq_some_iff.1 h).1
    have : i = x.length := by simp at this; omega
    subst this
    rw [last_step] at h
    exact .inr ⟨rfl, (Option.some.inj h).symm⟩

/-- A step that is no access. -/
theorem AllKnown.quiet (h : AllKnown x s) {s' : MockConc} {t : Nat} {a : MockDid} (ha : ¬ a.touches)
    (hh : ∀ u, s'.owner = some u → s.owner = some u ∨ s.owner = none ∧ u = t ∧ a = .lock) (hf : s'.owner = none → s.owner = none ∨ s.owner = some t ∧ a = .unlock) :
    AllKnown (x ++ [(t, a)]) s' := by
  refine ⟨fun i j y z hij hi hj hy hz => ?_, fun u hu i y hi hy => ?_, fun hn i y hi hy => ?_⟩
  · rcases get_snoc hj with hj | ⟨-, rfl⟩
    · rcases get_snoc hi with hi | ⟨rfl, -⟩
      · exact (h.ordered i j y z hij hi hj hy hz).more _
      · have := (List.getElem?_eq_some_iff.1 hj).1; omega
    · exact absurd hz ha
  · rcases get_snoc hi with hi' | ⟨-, rfl⟩
    · rcases hh u hu with ho | ⟨ho, rfl, rfl⟩
      · exact (h.held u ho i y hi' hy).more _
      · exact ⟨x.length, _, last_step x _, rfl, .inr (h.free ho i y hi' hy).locked⟩
    · exact absurd hy ha
  · rcases get_snoc hi with hi' | ⟨-, rfl⟩
    · rcases hf hn with ho | ⟨ho, rfl⟩
      · exact (h.free ho i y hi' hy).more _
      · exact ⟨x.length, _, last_step x _, rfl, .inr ((h.held t ho i y hi' hy).next _)⟩
    · exact absurd hy ha

/-- An access of the goroutine that has the mutex. -/
theorem AllKnown.access (h : AllKnown x s) {s' : MockConc} {t : Nat} {a : MockDid} (ho : s.owner = some t) (ho' : s'.owner = some t) : AllKnown (x ++ [(t, a)]) s' := by
  refine ⟨fun i j y z hij hi hj hy hz => ?_, fun u hu i y hi hy => ?_, fun hn => by rw [ho'] at hn; cases hn⟩
  · rcases get_snoc hj with hj | ⟨rfl, rfl⟩
    · rcases get_snoc hi with hi | ⟨rfl, -⟩
      · exact (h.ordered i j y z hij hi hj hy hz).more _
      · have := (List.getElem?_eq_some_iff.1 hj).1; omega
    · rcases get_snoc hi with hi | ⟨rfl, -⟩
      · exact (h.held t ho i y hi hy).next _
      · omega
  · rw [ho'] at hu; cases hu
    rcases get_snoc hi with hi | ⟨rfl, rfl⟩
    · exact (h.held t ho i y hi hy).more _
    · exact ⟨x.length, _, last_step x _, rfl, .inl rfl⟩

theorem allKnown (h : MockConc.Trail es x s) : AllKnown x s := by
  induction h with
  | start => exact ⟨fun i j y z _ hi => (by cases hi), fun t ht => (by cases ht), fun _ i y hi => by cases hi⟩
  | call t c _ hi ih => exact ih.quiet (by simp [MockDid.touches]) (fun u hu => .inl hu) (fun hn => .inl hn)
  | @step x s s' ev t h hs ih =>
    obtain ⟨tr, hr⟩ := trail_runs h
    obtain ⟨taken, doing, -, hI⟩ := inv hr
    have hown : MockConc.Holds (s.pc t) → s.owner = some t := (hI.owner t).2
    unfold MockConc.step at hs
    cases hp : s.pc t with
    | idle => rw [hp] at hs; cases hs
    | lock c =>
      rw [hp] at hs
      dsimp only at hs
      split at hs
      · rename_i ho
        cases hs
        refine ih.quiet (by simp [MockDid.touches, MockPc.does]) (fun u hu => .inr ⟨ho, ?_, rfl⟩) (fun hn => by cases hn)
        exact (Option.some.inj hu).symm
      · cases hs
    | load c =>
      rw [hp] at hs hown
      cases hs
      exact ih.access (hown trivial) (hown trivial)
    | check c i =>
      rw [hp] at hs hown
      dsimp only at hs
      split at hs <;> cases hs <;> exact ih.access (hown trivial) (hown trivial)
    | incr c i =>
      rw [hp] at hs hown
      cases hs
      exact ih.access (hown trivial) (hown trivial)
    | store c i v =>
      rw [hp] at hs hown
      cases hs
      exact ih.access (hown trivial) (hown trivial)
    | fetch c i =>
      rw [hp] at hs hown
      cases hs
      exact ih.access (hown trivial) (hown trivial)
    | unlock c i e =>
      rw [hp] at hs hown
      cases hs
      exact ih.quiet (by simp [MockDid.touches, MockPc.does]) (fun u hu => by cases hu) (fun _ => .inr ⟨hown trivial, rfl⟩)
    | after c i e =>
      rw [hp] at hs
      cases hs
      exact ih.quiet (by simp [MockDid.touches, MockPc.does]) (fun u hu => .inl hu) (fun hn => .inl hn)

/-- **C67.** No data race: of any two accesses to the index, by whichever goroutines, the earlier one happens before the later one.  (So the values that are read are the
ones written last, as the model has it.) -/
theorem C67_ordered (es : List Expectation) (x : List (Nat × MockDid)) (s : MockConc) (h : MockConc.Trail es x s) (i j t u : Nat) (a b : MockDid) (hij : i < j)
    (hi : x[i]? = some (t, a)) (hj : x[j]? = some (u, b)) (ha : a = .read ∨ a = .write) (hb : b = .read ∨ b = .write) : MockBefore x i j :=
  (allKnown h).ordered i j _ _ hij hi hj ha hb

/-- Every execution has such a trail. -/
theorem C67_trails (es : List Expectation) (tr : List (CallEv Request Seen)) (s : MockConc) (h : MockConc.Runs es tr s) : ∃ x, MockConc.Trail es x s := by
  induction h with
  | start => exact ⟨_, .start⟩
  | call t c _ hi ih => obtain ⟨x, h⟩ := ih; exact ⟨_, .call t c h hi⟩
  | step t _ hs ih => obtain ⟨x, h⟩ := ih; exact ⟨_, .step t h hs⟩

/-- **C67.** This order is what it has to be: of the steps of different goroutines, one happens before the other only if a mutex is unlocked in between (or by the first
one), and the later of them, or a step before it, locks it. -/
theorem C67_only {x : List (Nat × MockDid)} {i j : Nat} (h : MockBefore x i j) {t u : Nat} {a b : MockDid} (hi : x[i]? = some (t, a)) (hj : x[j]? = some (u, b)) (htu : t ≠ u) :
    ∃ k l v w, i ≤ k ∧ k < l ∧ l ≤ j ∧ x[k]? = some (v, .unlock) ∧ x[l]? = some (w, .lock) := by
  have key : ∀ {i j : Nat}, MockBefore x i j → i < j ∧ ((∃ t a b, x[i]? = some (t, a) ∧ x[j]? = some (t, b)) ∨
      ∃ k l v w, i ≤ k ∧ k < l ∧ l ≤ j ∧ x[k]? = some (v, .unlock) ∧ x[l]? = some (w, .lock)) := by
    intro i j h
    induction h with
    | program h1 h2 h3 => exact ⟨h1, .inl ⟨_, _, _, h2, h3⟩⟩
    | mutex h1 h2 h3 => exact ⟨h1, .inr ⟨_, _, _, _, Nat.le_refl _, h1, Nat.le_refl _, h2, h3⟩⟩
    | trans _ _ ih1 ih2 =>
      obtain ⟨l1, ih1⟩ := ih1
      obtain ⟨l2, ih2⟩ := ih2
      refine ⟨Nat.lt_trans l1 l2, ?_⟩
      rcases ih1 with ⟨t1, a1, b1, e1, e2⟩ | ⟨k, l, v, w, e1, e2, e3, e4, e5⟩
      · rcases ih2 with ⟨t2, a2, b2, e3, e4⟩ | ⟨k, l, v, w, e3, e4, e5, e6, e7⟩
        · rw [e2] at e3
          cases e3
          exact .inl ⟨_, _, _, e1, e4⟩
        · exact .inr ⟨k, l, v, w, Nat.le_trans (Nat.le_of_lt l1) e3, e4, e5, e6, e7⟩
      · exact .inr ⟨k, l, v, w, e1, e2, Nat.le_trans e3 (Nat.le_of_lt l2), e4, e5⟩
  rcases (key h).2 with ⟨v, _, _, e1, e2⟩ | h
  · rw [hi] at e1
    rw [hj] at e2
    cases e1
    cases e2
    exact absurd rfl htu
  · exact h

/-- Two goroutines that have just called are not ordered. -/
example : ¬ MockBefore [(0, .inner), (1, .inner)] 0 1 := fun h => by
  obtain ⟨k, l, v, w, _, hl, hj, e, _⟩ := C67_only h (t := 0) (u := 1) rfl rfl (by decide)
  have : k = 0 := by omega
  subst this
  cases e

/-! ## Example -/

/-- Goroutine 0 calls Close, and while it holds the mutex goroutine 1 does; then goroutine 1 takes its steps. -/
example : ∃ s, MockConc.Trail closeTwice
    [(0, .inner), (0, .lock), (0, .read), (1, .inner), (0, .inner), (0, .read), (0, .write), (0, .inner), (0, .unlock), (1, .lock), (1, .read)] s ∧
    MockBefore [(0, .inner), (0, .lock), (0, .read), (1, .inner), (0, .inner), (0, .read), (0, .write), (0, .inner), (0, .unlock), (1, .lock), (1, .read)] 6 10 := by
  have h : ∃ s, MockConc.Trail closeTwice
      [(0, .inner), (0, .lock), (0, .read), (1, .inner), (0, .inner), (0, .read), (0, .write), (0, .inner), (0, .unlock), (1, .lock), (1, .read)] s := by
    have h0 := MockConc.Trail.call (es := closeTwice) 0 .close .start rfl
    have h1 := h0.step 0 rfl
    have h2 := h1.step 0 rfl
    have h3 := h2.call 1 .close rfl
    have h4 := h3.step 0 rfl
    have h5 := h4.step 0 rfl
    have h6 := h5.step 0 rfl
    have h7 := h6.step 0 rfl
    have h8 := h7.step 0 rfl
    have h9 := h8.step 1 rfl
    exact ⟨_, h9.step 1 rfl⟩
  obtain ⟨s, h⟩ := h
  exact ⟨s, h, C67_ordered _ _ _ h 6 10 0 1 .write .read (by decide) rfl rfl (.inr rfl) (.inl rfl)⟩

end Verif
