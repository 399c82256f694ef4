import Verif.Spec.Concurrent

/-!
# Why locking makes calls atomic

A *discipline* says which variables may be read and written while holding which mutexes.  Programs that keep to it (`Safe`), and that do
not acquire a mutex after their effect has become visible, are linearizable, free of deadlocks, and free of data races apart from the
variables declared `racy`.
-/

set_option autoImplicit false

namespace Verif

variable {Γ : Sig}

theorem Mem.set_same (M : Mem Γ) (l : Loc Γ) (v : l.Val) : M.set l v l = v := by simp [Mem.set]

theorem Mem.set_other (M : Mem Γ) {l l' : Loc Γ} (v : l.Val) (h : l' ≠ l) : M.set l v l' = M l' := by simp [Mem.set, h]

/-- What a discipline has to say about a kind of bodies. -/
structure Disc (Γ : Sig) where
  /-- fields of a body that holders of the family's lock may read for members -/
  shared : Γ.BF → Prop
  /-- the members, determined by the shared part -/
  memb : ((f : Γ.CF) → Γ.CV f) → Nat → Prop
  /-- fields of the shared part that are read without the lock -/
  racyC : Γ.CF → Prop
  excl : (∃ f, shared f) → ∀ f, ¬ racyC f

/-- The mutexes a goroutine holds: at most one body's, and perhaps the family's. -/
structure Held where
  b : Option Nat
  c : Bool
deriving DecidableEq

def Held.none : Held := ⟨.none, false⟩

section
variable (D : Disc Γ)

def Disc.mem (M : Mem Γ) (h : Nat) : Prop := D.memb (fun f => M (.c f)) h

def IsRacy : Loc Γ → Prop
  | .c f => D.racyC f
  | .b _ _ => False
  | .next => True

/-- The variables a goroutine holding `H` may read. -/
def MayGet (H : Held) (M : Mem Γ) : Loc Γ → Prop
  | .c _ => H.c = true
  | .next => H.c = true
  | .b h f => H.b = some h ∨ (H.c = true ∧ M .next ≤ h) ∨ (H.c = true ∧ D.shared f ∧ D.mem M h)

/-- The variables nobody else may read. -/
def Owns (H : Held) (M : Mem Γ) : Loc Γ → Prop
  | .c _ => H.c = true
  | .next => H.c = true
  | .b h f => (H.b = some h ∧ (¬ D.shared f ∨ H.c = true ∨ ¬ D.mem M h)) ∨ (H.c = true ∧ M .next ≤ h)

/-- The values a goroutine holding `H` may write. -/
def MayPut (H : Held) (M : Mem Γ) : (l : Loc Γ) → l.Val → Prop
  | .c f, v => H.c = true ∧ ∀ h, (D.mem (M.set (.c f) v) h ↔ D.mem M h) ∨ H.b = some h ∨ M .next ≤ h
  | .next, v => H.c = true ∧ M .next ≤ v
  | .b h f, _ => Owns D H M (.b h f)

/-- What other goroutines may do meanwhile. -/
structure Rely (H : Held) (M M' : Mem Γ) : Prop where
  eq : ∀ l, MayGet D H M l → M' l = M l
  next : M .next ≤ M' .next
  mem : ∀ h, H.b = some h → (∃ f, D.shared f) → (D.mem M' h ↔ D.mem M h)

/-- A program keeps to the discipline.  `fin`: its effect is decided, it only finishes. -/
def Safe : Held → Bool → Mem Γ → Prog Γ → Prop
  | H, _, _, .ret _ => H = .none
  | _, _, _, .stuck => True
  | H, fin, M, .get l k => (MayGet D H M l ∧ Safe H fin M (k (M l))) ∨
      (fin = false ∧ (∃ f, l = .c f ∧ D.racyC f) ∧ ∀ v, Safe H true M (k v))
  | H, fin, M, .put l v k => MayPut D H M l v ∧ ((¬ IsRacy D l ∧ Safe H fin (M.set l v) k) ∨ (fin = false ∧ IsRacy D l ∧ Safe H true (M.set l v) k))
  | H, fin, M, .lock (.body h) k => fin = false ∧ H = .none ∧ h < M .next ∧ ∀ M', Rely D H M M' → Safe ⟨some h, false⟩ false M' k
  | H, fin, M, .lock .common k => fin = false ∧ H.c = false ∧ ∀ M', Rely D H M M' → Safe ⟨H.b, true⟩ false M' k
  | H, _, M, .unlock (.body h) k => H.b = some h ∧ ∀ M', Rely D ⟨none, H.c⟩ M M' → Safe ⟨none, H.c⟩ true M' k
  | H, _, M, .unlock .common k => H.c = true ∧ ∀ M', Rely D ⟨H.b, false⟩ M M' → Safe ⟨H.b, false⟩ true M' k

/-- Two goroutines' mutexes. -/
def Apart (H K : Held) : Prop := (∀ h, H.b = some h → K.b ≠ some h) ∧ ¬ (H.c = true ∧ K.c = true)

/-- The body's mutex belongs to a body that exists. -/
def Held.ok (H : Held) (M : Mem Γ) : Prop := ∀ h, H.b = some h → h < M .next

end

variable {D : Disc Γ}

theorem Apart.symm {H K : Held} (h : Apart H K) : Apart K H :=
  ⟨fun i hi hj => h.1 i hj hi, fun ⟨a, b⟩ => h.2 ⟨b, a⟩⟩

theorem Owns.rd {H : Held} {M : Mem Γ} {l : Loc Γ} (h : Owns D H M l) : MayGet D H M l := by
  cases l with
  | c f => exact h
  | next => exact h
  | b i f => rcases h with ⟨h, _⟩ | h <;> simp [MayGet, h]

theorem MayPut.ex {H : Held} {M : Mem Γ} {l : Loc Γ} {v : l.Val} (h : MayPut D H M l v) : Owns D H M l := by
  cases l with
  | c f => exact h.1
  | next => exact h.1
  | b i f => exact h

/-- Nobody else may read what one goroutine has exclusively. -/
theorem Owns.not_rd {H K : Held} {M : Mem Γ} {l : Loc Γ} (ha : Apart H K) (hH : H.ok M) (hK : K.ok M) (h : Owns D H M l) : ¬ MayGet D K M l := by
  cases l with
  | c f => exact fun h' => ha.2 ⟨h, h'⟩
  | next => exact fun h' => ha.2 ⟨h, h'⟩
  | b i f =>
    rcases h with ⟨h, h1⟩ | ⟨h, h1⟩
    · rintro (h' | ⟨h', h2⟩ | ⟨h', h2, h3⟩)
      · exact ha.1 i h h'
      · exact absurd (Nat.lt_of_lt_of_le (hH i h) h2) (Nat.lt_irrefl _)
      · rcases h1 with h1 | h1 | h1
        · exact h1 h2
        · exact ha.2 ⟨h1, h'⟩
        · exact h1 h3
    · rintro (h' | ⟨h', _⟩ | ⟨h', _⟩)
      · exact absurd (Nat.lt_of_lt_of_le (hK i h') h1) (Nat.lt_irrefl _)
      · exact ha.2 ⟨h, h'⟩
      · exact ha.2 ⟨h, h'⟩

theorem Rely.refl (H : Held) (M : Mem Γ) : Rely D H M M := ⟨fun _ _ => rfl, Nat.le_refl _, fun _ _ _ => Iff.rfl⟩

/-- With the family's lock, the members stay. -/
theorem Rely.mem_iff {H : Held} {M M' : Mem Γ} (h : Rely D H M M') (hc : H.c = true) (i : Nat) : D.mem M' i ↔ D.mem M i := by
  have : (fun f => M' (.c f)) = fun f => M (.c f) := by
    funext f
    exact h.eq (.c f) hc
  simp only [Disc.mem, this]

theorem Rely.next_eq {H : Held} {M M' : Mem Γ} (h : Rely D H M M') (hc : H.c = true) : M' .next = M .next := h.eq .next hc

theorem Rely.rd {H : Held} {M M' : Mem Γ} (h : Rely D H M M') (l : Loc Γ) : MayGet D H M' l ↔ MayGet D H M l := by
  cases l with
  | c f => exact Iff.rfl
  | next => exact Iff.rfl
  | b i f =>
    by_cases hc : H.c = true
    · simp only [MayGet, h.mem_iff hc, h.next_eq hc]
    · simp [MayGet, hc]

theorem Rely.ex {H : Held} {M M' : Mem Γ} (h : Rely D H M M') (l : Loc Γ) : Owns D H M' l ↔ Owns D H M l := by
  cases l with
  | c f => exact Iff.rfl
  | next => exact Iff.rfl
  | b i f =>
    by_cases hc : H.c = true
    · simp only [Owns, h.mem_iff hc, h.next_eq hc]
    · simp only [Owns, hc, Bool.false_eq_true, false_or, false_and, or_false]
      constructor
      · rintro ⟨h1, h2⟩
        refine ⟨h1, ?_⟩
        by_cases hs : D.shared f
        · rcases h2 with h2 | h2
          · exact absurd hs h2
          · exact .inr fun h3 => h2 ((h.mem i h1 ⟨f, hs⟩).2 h3)
        · exact .inl hs
      · rintro ⟨h1, h2⟩
        refine ⟨h1, ?_⟩
        by_cases hs : D.shared f
        · rcases h2 with h2 | h2
          · exact absurd hs h2
          · exact .inr fun h3 => h2 ((h.mem i h1 ⟨f, hs⟩).1 h3)
        · exact .inl hs

theorem Rely.trans {H : Held} {M M' M'' : Mem Γ} (h : Rely D H M M') (h' : Rely D H M' M'') : Rely D H M M'' :=
  ⟨fun l hl => (h'.eq l ((h.rd l).2 hl)).trans (h.eq l hl), Nat.le_trans h.next h'.next,
    fun i hi hs => (h'.mem i hi hs).trans (h.mem i hi hs)⟩

theorem mem_set_b (M : Mem Γ) (h : Nat) (f : Γ.BF) (v : Γ.BV f) (i : Nat) : D.mem (M.set (.b h f) v) i ↔ D.mem M i := by
  have : (fun g => (M.set (.b h f) v) (.c g)) = fun g => M (.c g) := by
    funext g
    exact Mem.set_other M (l := .b h f) v (by simp)
  simp only [Disc.mem, this]

theorem mem_set_next (M : Mem Γ) (v : Nat) (i : Nat) : D.mem (M.set .next v) i ↔ D.mem M i := by
  have : (fun g => (M.set .next v) (.c g)) = fun g => M (.c g) := by
    funext g
    exact Mem.set_other M (l := .next) v (by simp)
  simp only [Disc.mem, this]

/-- Writing the same value after interference. -/
theorem Rely.set {H : Held} {M M' : Mem Γ} (h : Rely D H M M') {l : Loc Γ} {v : l.Val} (hw : MayPut D H M l v) :
    MayPut D H M' l v ∧ Rely D H (M.set l v) (M'.set l v) := by
  cases l with
  | b i f =>
    refine ⟨(h.ex (.b i f)).2 hw, ⟨fun l' hl => ?_, ?_, fun j hj hs => ?_⟩⟩
    · by_cases e : l' = .b i f
      · subst e; simp [Mem.set_same]
      · rw [Mem.set_other _ _ e, Mem.set_other _ _ e]
        refine h.eq l' ?_
        cases l' with
        | c g => exact hl
        | next => exact hl
        | b j g =>
          simp only [MayGet, mem_set_b] at hl ⊢
          rwa [Mem.set_other _ _ (by simp)] at hl
    · rw [Mem.set_other _ _ (by simp), Mem.set_other _ _ (by simp)]; exact h.next
    · rw [mem_set_b, mem_set_b]; exact h.mem j hj hs
  | next =>
    obtain ⟨hc, hv⟩ := hw
    refine ⟨⟨hc, by rw [h.next_eq hc]; exact hv⟩, ⟨fun l' hl => ?_, ?_, fun j hj hs => ?_⟩⟩
    · by_cases e : l' = .next
      · subst e; simp [Mem.set_same]
      · rw [Mem.set_other _ _ e, Mem.set_other _ _ e]
        refine h.eq l' ?_
        cases l' with
        | c g => exact hl
        | next => exact hl
        | b j g =>
          simp only [MayGet, mem_set_next, Mem.set_same] at hl ⊢
          rcases hl with hl | hl | hl
          · exact .inl hl
          · exact .inr (.inl ⟨hl.1, Nat.le_trans hv hl.2⟩)
          · exact .inr (.inr hl)
    · simp [Mem.set_same]
    · rw [mem_set_next, mem_set_next]; exact h.mem j hj hs
  | c f =>
    obtain ⟨hc, hv⟩ := hw
    have hm : ∀ i, D.mem (M'.set (.c f) v) i ↔ D.mem (M.set (.c f) v) i := by
      intro i
      have : (fun g => (M'.set (.c f) v) (.c g)) = fun g => (M.set (.c f) v) (.c g) := by
        funext g
        by_cases e : (Loc.c g : Loc Γ) = .c f
        · have : g = f := by simpa using e
          subst this; simp [Mem.set_same]
        · rw [Mem.set_other _ _ e, Mem.set_other _ _ e]; exact h.eq (.c g) hc
      simp only [Disc.mem, this]
    refine ⟨⟨hc, fun i => ?_⟩, ⟨fun l' hl => ?_, ?_, fun j hj hs => hm j⟩⟩
    · rw [hm, h.mem_iff hc, h.next_eq hc]; exact hv i
    · by_cases e : l' = .c f
      · subst e; simp [Mem.set_same]
      · rw [Mem.set_other _ _ e, Mem.set_other _ _ e]
        refine h.eq l' ?_
        cases l' with
        | c g => exact hl
        | next => exact hl
        | b j g =>
          simp only [MayGet] at hl ⊢
          rw [Mem.set_other _ _ (by simp)] at hl
          rcases hl with hl | hl | ⟨h1, h2, h3⟩
          · exact .inl hl
          · exact .inr (.inl hl)
          · rcases hv j with h4 | h4 | h4
            · exact .inr (.inr ⟨h1, h2, h4.1 h3⟩)
            · exact .inl h4
            · exact .inr (.inl ⟨h1, h4⟩)
    · rw [Mem.set_other _ _ (by simp), Mem.set_other _ _ (by simp)]; exact h.next

/-- A write by one goroutine, seen by another. -/
theorem MayPut.rely {H K : Held} {M : Mem Γ} {l : Loc Γ} {v : l.Val} (ha : Apart H K) (hH : H.ok M) (hK : K.ok M) (hw : MayPut D H M l v) :
    Rely D K M (M.set l v) := by
  refine ⟨fun l' hl => Mem.set_other _ _ fun e => ?_, ?_, fun j hj _ => ?_⟩
  · subst e; exact hw.ex.not_rd ha hH hK hl
  · by_cases e : (Loc.next : Loc Γ) = l
    · subst e; rw [Mem.set_same]; exact hw.2
    · rw [Mem.set_other _ _ e]; exact Nat.le_refl _
  · cases l with
    | b i f => exact mem_set_b M i f v j
    | next => exact mem_set_next M v j
    | c f =>
      rcases hw.2 j with h | h | h
      · exact h
      · exact absurd hj (ha.1 j h)
      · exact absurd (Nat.lt_of_lt_of_le (hK j hj) h) (Nat.lt_irrefl _)

/-- Writing a variable that is not racy does not change what may be read. -/
theorem MayPut.rd_iff {H : Held} {M : Mem Γ} {l : Loc Γ} {v : l.Val} (hw : MayPut D H M l v) (hn : l ≠ .next) (l' : Loc Γ) :
    MayGet D H (M.set l v) l' ↔ MayGet D H M l' := by
  have hx : (M.set l v) .next = M .next := Mem.set_other _ _ (Ne.symm hn)
  cases l' with
  | c g => exact Iff.rfl
  | next => exact Iff.rfl
  | b j g =>
    simp only [MayGet, hx]
    cases l with
    | b i f => rw [mem_set_b]
    | next => exact absurd rfl hn
    | c f =>
      rcases hw.2 j with h | h | h
      · rw [h]
      · simp [h]
      · simp [h, hw.1]

theorem MayPut.ex_mono {H : Held} {M : Mem Γ} {l : Loc Γ} {v : l.Val} (hw : MayPut D H M l v) (l' : Loc Γ) :
    Owns D H (M.set l v) l' → Owns D H M l' := by
  cases l' with
  | c g => exact id
  | next => exact id
  | b j g =>
    have hx : M .next ≤ (M.set l v) .next := by
      by_cases e : (Loc.next : Loc Γ) = l
      · subst e; rw [Mem.set_same]; exact hw.2
      · rw [Mem.set_other _ _ e]; exact Nat.le_refl _
    rintro (⟨h1, h2⟩ | ⟨h1, h2⟩)
    · refine .inl ⟨h1, ?_⟩
      rcases h2 with h2 | h2 | h2
      · exact .inl h2
      · exact .inr (.inl h2)
      · cases l with
        | b i f => rw [mem_set_b] at h2; exact .inr (.inr h2)
        | next => rw [mem_set_next] at h2; exact .inr (.inr h2)
        | c f => exact .inr (.inl hw.1)
    · exact .inr ⟨h1, Nat.le_trans hx h2⟩

theorem MayPut.ex_iff {H : Held} {M : Mem Γ} {l : Loc Γ} {v : l.Val} (hw : MayPut D H M l v) (hn : l ≠ .next) (l' : Loc Γ) :
    Owns D H (M.set l v) l' ↔ Owns D H M l' := by
  refine ⟨hw.ex_mono l', ?_⟩
  have hx : (M.set l v) .next = M .next := Mem.set_other _ _ (Ne.symm hn)
  cases l' with
  | c g => exact id
  | next => exact id
  | b j g =>
    simp only [Owns, hx]
    rintro (⟨h1, h2⟩ | h2)
    · refine .inl ⟨h1, ?_⟩
      rcases h2 with h2 | h2 | h2
      · exact .inl h2
      · exact .inr (.inl h2)
      · cases l with
        | b i f => rw [mem_set_b]; exact .inr (.inr h2)
        | next => exact absurd rfl hn
        | c f => exact .inr (.inl hw.1)
    · exact .inr h2

theorem MayPut.rd_mono {H : Held} {M : Mem Γ} {l : Loc Γ} {v : l.Val} (hw : MayPut D H M l v) (l' : Loc Γ) :
    MayGet D H (M.set l v) l' → MayGet D H M l' := by
  by_cases hn : l = .next
  · subst hn
    cases l' with
    | c g => exact id
    | next => exact id
    | b j g =>
      simp only [MayGet, mem_set_next, Mem.set_same]
      rintro (h | h | h)
      · exact .inl h
      · exact .inr (.inl ⟨h.1, Nat.le_trans hw.2 h.2⟩)
      · exact .inr (.inr h)
  · exact (hw.rd_iff hn l').1

theorem not_racy_next {l : Loc Γ} (h : ¬ IsRacy D l) : l ≠ .next := by
  rintro rfl; exact h trivial

/-- Interference does not matter to a program that keeps to the discipline. -/
theorem Safe.rely {p : Prog Γ} : ∀ {H : Held} {fin : Bool} {M M' : Mem Γ}, Safe D H fin M p → Rely D H M M' → Safe D H fin M' p := by
  induction p with
  | ret o => intro H fin M M' h _; exact h
  | stuck => intro H fin M M' _ _; trivial
  | get l k ih =>
    intro H fin M M' h hr
    rcases h with ⟨h1, h2⟩ | ⟨h1, h2, h3⟩
    · refine .inl ⟨(hr.rd l).2 h1, ?_⟩
      rw [hr.eq l h1]
      exact ih _ h2 hr
    · exact .inr ⟨h1, h2, fun v => ih v (h3 v) hr⟩
  | put l v k ih =>
    intro H fin M M' h hr
    obtain ⟨h1, h2⟩ := h
    obtain ⟨h3, h4⟩ := hr.set h1
    refine ⟨h3, ?_⟩
    rcases h2 with ⟨h5, h6⟩ | ⟨h5, h6, h7⟩
    · exact .inl ⟨h5, ih h6 h4⟩
    · exact .inr ⟨h5, h6, ih h7 h4⟩
  | lock m k ih =>
    intro H fin M M' h hr
    cases m with
    | body i => exact ⟨h.1, h.2.1, Nat.lt_of_lt_of_le h.2.2.1 hr.next, fun N hN => h.2.2.2 N (hr.trans hN)⟩
    | common => exact ⟨h.1, h.2.1, fun N hN => h.2.2 N (hr.trans hN)⟩
  | unlock m k ih =>
    intro H fin M M' h hr
    cases m with
    | body i =>
      refine ⟨h.1, fun N hN => h.2 N (Rely.trans ⟨fun l hl => hr.eq l ?_, hr.next, fun j hj => by cases hj⟩ hN)⟩
      cases l with
      | c g => exact hl
      | next => exact hl
      | b j g =>
        rcases hl with hl | hl | hl
        · cases hl
        · exact .inr (.inl hl)
        · exact .inr (.inr hl)
    | common =>
      refine ⟨h.1, fun N hN => h.2 N (Rely.trans ⟨fun l hl => hr.eq l ?_, hr.next, fun j hj hs => hr.mem j hj hs⟩ hN)⟩
      cases l with
      | c g => cases hl
      | next => cases hl
      | b j g =>
        rcases hl with hl | hl | hl
        · exact .inl hl
        · cases hl.1
        · cases hl.1

/-- Releasing. -/
def Held.drop (H : Held) : Lk → Held
  | .body _ => ⟨.none, H.c⟩
  | .common => ⟨H.b, false⟩

theorem MayGet.drop {H : Held} {M : Mem Γ} {m : Lk} {l : Loc Γ} (h : MayGet D (H.drop m) M l) : MayGet D H M l := by
  cases m <;> cases l
  case body.c => exact h
  case body.next => exact h
  case body.b => rcases h with h | h | h
                 · cases h
                 · exact .inr (.inl h)
                 · exact .inr (.inr h)
  case common.c => cases h
  case common.next => cases h
  case common.b => rcases h with h | h | h
                   · exact .inl h
                   · cases h.1
                   · cases h.1

theorem Owns.drop {H : Held} {M : Mem Γ} {m : Lk} {l : Loc Γ} (h : Owns D (H.drop m) M l) : Owns D H M l := by
  cases m <;> cases l
  case body.c => exact h
  case body.next => exact h
  case body.b => rcases h with ⟨h, _⟩ | h
                 · cases h
                 · exact .inr h
  case common.c => cases h
  case common.next => cases h
  case common.b => rcases h with ⟨h1, h2⟩ | h
                   · refine .inl ⟨h1, ?_⟩
                     rcases h2 with h2 | h2 | h2
                     · exact .inl h2
                     · cases h2
                     · exact .inr (.inr h2)
                   · cases h.1

theorem Rely.drop {H : Held} {M M' : Mem Γ} (m : Lk) (h : Rely D H M M') : Rely D (H.drop m) M M' :=
  ⟨fun l hl => h.eq l hl.drop, h.next, fun j hj hs => h.mem j (by cases m with | body i => cases hj | common => exact hj) hs⟩

theorem Safe.unlock {H : Held} {fin : Bool} {M : Mem Γ} {m : Lk} {k : Prog Γ} (h : Safe D H fin M (.unlock m k)) :
    Safe D (H.drop m) true M k := by
  cases m with
  | body i => exact h.2 M (.refl _ _)
  | common => exact h.2 M (.refl _ _)

/-- A program that only finishes writes only what it has exclusively, and no racy variable. -/
theorem exec_frame {p : Prog Γ} : ∀ {H : Held} {M : Mem Γ}, Safe D H true M p → ∀ l, (¬ Owns D H M l ∨ IsRacy D l) → (p.exec M).1 l = M l := by
  induction p with
  | ret o => intro H M _ l _; rfl
  | stuck => intro H M _ l _; rfl
  | get l k ih =>
    intro H M h l' hl
    rcases h with ⟨_, h2⟩ | ⟨h1, _⟩
    · exact ih _ h2 l' hl
    · cases h1
  | put l v k ih =>
    intro H M h l' hl
    obtain ⟨h1, ⟨h5, h6⟩ | ⟨h5, _⟩⟩ := h
    · have : l' ≠ l := by
        rintro rfl
        rcases hl with hl | hl
        · exact hl h1.ex
        · exact h5 hl
      rw [Prog.exec, ih h6 l', Mem.set_other _ _ this]
      rcases hl with hl | hl
      · exact .inl fun h => hl (h1.ex_mono l' h)
      · exact .inr hl
    · cases h5
  | lock m k ih =>
    intro H M h
    cases m with
    | body i => cases h.1
    | common => cases h.1
  | unlock m k ih =>
    intro H M h l hl
    exact ih h.unlock l (hl.imp (fun hl h => hl h.drop) id)

/-- A program that only finishes depends only on what it may read. -/
theorem exec_local {p : Prog Γ} : ∀ {H : Held} {M M' : Mem Γ}, Safe D H true M p → Rely D H M M' →
    (p.exec M').2 = (p.exec M).2 ∧ ∀ l, MayGet D H M l → (p.exec M').1 l = (p.exec M).1 l := by
  induction p with
  | ret o => intro H M M' _ hr; exact ⟨rfl, fun l hl => hr.eq l hl⟩
  | stuck => intro H M M' _ hr; exact ⟨rfl, fun l hl => hr.eq l hl⟩
  | get l k ih =>
    intro H M M' h hr
    rcases h with ⟨h1, h2⟩ | ⟨h1, _⟩
    · simp only [Prog.exec, hr.eq l h1]
      exact ih _ h2 hr
    · cases h1
  | put l v k ih =>
    intro H M M' h hr
    obtain ⟨h1, ⟨h5, h6⟩ | ⟨h5, _⟩⟩ := h
    · obtain ⟨i1, i2⟩ := ih h6 (hr.set h1).2
      exact ⟨i1, fun l' hl => i2 l' ((h1.rd_iff (not_racy_next h5) l').2 hl)⟩
    · cases h5
  | lock m k ih =>
    intro H M M' h
    cases m with
    | body i => cases h.1
    | common => cases h.1
  | unlock m k ih =>
    intro H M M' h hr
    have hs := h.unlock
    obtain ⟨i1, i2⟩ := ih hs (hr.drop m)
    refine ⟨i1, fun l hl => ?_⟩
    by_cases hx : Owns D (H.drop m) M l
    · exact i2 l hx.rd
    · have h1 := exec_frame hs l (.inl hx)
      have h2 := exec_frame (hs.rely (hr.drop m)) l (.inl fun h => hx (((hr.drop m).ex l).1 h))
      show (k.exec M').1 l = (k.exec M).1 l
      rw [h1, h2, hr.eq l hl]

end Verif
