import Verif.Proofs.ConcLive
import Verif.Spec.HappensBefore

/-!
# Why goroutines that keep to the discipline do not race

What a goroutine *knows* are the steps that happen before its next one.  All writes to a variable are known to whoever may read it, and all accesses to those
who own it; and what is to be known travels with the mutexes.
-/

set_option autoImplicit false

namespace Verif
open Spec

section
variable {Γ : Sig}

/-! ## Executions with and without labels -/

theorem does_step {prog : Op → Prog Γ} {c d : Verif.Cfg Γ} {t : Nat} {a : Did Γ} (h : Does prog c t a d) : Cfg.Step prog c (a.event t) d := by
  cases h with
  | call op h1 h2 => exact .inv c t op h1 h2
  | ret o h1 => exact .ret c t o h1
  | read l k h1 => exact .get c t l k h1
  | write l v k h1 h2 => exact .put c t l v k h1
  | made v k h1 => exact .put c t .next v k h1
  | lock m k h1 h2 => exact .lock c t m k h1 h2
  | unlock m k h1 => exact .unlock c t m k h1

theorem step_does {prog : Op → Prog Γ} {c d : Verif.Cfg Γ} {ev : Option Event} (h : Cfg.Step prog c ev d) :
    ∃ t a, Does prog c t a d ∧ ev = a.event t := by
  cases h with
  | inv t op h1 h2 => exact ⟨t, _, .call c t op h1 h2, rfl⟩
  | ret t o h1 => exact ⟨t, _, .ret c t o h1, rfl⟩
  | get t l k h1 => exact ⟨t, _, .read c t l k h1, rfl⟩
  | put t l v k h1 =>
    by_cases e : l = .next
    · subst e; exact ⟨t, _, .made c t v k h1, rfl⟩
    · exact ⟨t, _, .write c t l v k h1 e, rfl⟩
  | lock t m k h1 h2 => exact ⟨t, _, .lock c t m k h1 h2, rfl⟩
  | unlock t m k h1 => exact ⟨t, _, .unlock c t m k h1, rfl⟩

theorem events_snoc (x : Trail Γ) (t : Nat) (a : Did Γ) : Trail.events (x ++ [(t, a)]) = Trail.events x ++ (a.event t).toList := by
  simp [Trail.events]

theorem execution_steps {prog : Op → Prog Γ} {c d : Verif.Cfg Γ} {x : Trail Γ} (h : Execution prog c x d) : Cfg.Steps prog c x.events d := by
  induction h with
  | nil => exact .nil c
  | snoc _ h ih => rw [events_snoc]; exact ih.snoc (does_step h)

theorem steps_execution {prog : Op → Prog Γ} {c d : Verif.Cfg Γ} {tr : List Event} (h : Cfg.Steps prog c tr d) :
    ∃ x, Execution prog c x d ∧ x.events = tr := by
  induction h with
  | nil => exact ⟨[], .nil, rfl⟩
  | snoc _ h ih =>
    obtain ⟨x, h1, rfl⟩ := ih
    obtain ⟨t, a, h2, rfl⟩ := step_does h
    exact ⟨_, h1.snoc h2, events_snoc x t a⟩

/-! ## What is known -/

theorem getElem_more {α : Type} {x : List α} {i : Nat} {s : α} (h : x[i]? = some s) (y : List α) : (x ++ y)[i]? = some s := by
  rw [List.getElem?_append_left (List.getElem?_eq_some_iff.1 h).1, h]

theorem getElem_last {α : Type} (x : List α) (s : α) : (x ++ [s])[x.length]? = some s := by simp

theorem getElem_snoc {α : Type} {x : List α} {i : Nat} {s s' : α} (h : (x ++ [s])[i]? = some s') : x[i]? = some s' ∨ (i = x.length ∧ s' = s) := by
  rcases Nat.lt_trichotomy i x.length with hl | rfl | hl
  · rw [List.getElem?_append_left hl] at h; exact .inl h
  · rw [getElem_last] at h; exact .inr ⟨rfl, (Option.some.inj h).symm⟩
  · rw [List.getElem?_eq_none (by simp; omega)] at h; cases h

theorem getElem_lt {α : Type} {x : List α} {i : Nat} {s : α} (h : x[i]? = some s) : i < x.length := (List.getElem?_eq_some_iff.1 h).1

theorem hb_more {x : Trail Γ} {i j : Nat} (h : HappensBefore x i j) (y : Trail Γ) : HappensBefore (x ++ y) i j := by
  induction h with
  | program h1 h2 h3 => exact .program h1 (getElem_more h2 y) (getElem_more h3 y)
  | mutex h1 h2 h3 => exact .mutex h1 (getElem_more h2 y) (getElem_more h3 y)
  | handed h1 h2 h3 h4 h5 => exact .handed h1 (getElem_more h2 y) h3 h4 (getElem_more h5 y)
  | trans _ _ h1 h2 => exact .trans h1 h2

theorem hb_lt {x : Trail Γ} {i j : Nat} (h : HappensBefore x i j) : i < j := by
  induction h with
  | program h1 => exact h1
  | mutex h1 => exact h1
  | handed h1 => exact h1
  | trans _ _ h1 h2 => omega

/-- Step `i` is, or happens before, a step with the property `P`. -/
def UpTo (x : Trail Γ) (P : Nat × Did Γ → Prop) (i : Nat) : Prop := ∃ j s, x[j]? = some s ∧ P s ∧ (i = j ∨ HappensBefore x i j)

theorem UpTo.more {x : Trail Γ} {P : Nat × Did Γ → Prop} {i : Nat} (h : UpTo x P i) (y : Trail Γ) : UpTo (x ++ y) P i := by
  obtain ⟨j, s, h1, h2, h3⟩ := h
  exact ⟨j, s, getElem_more h1 y, h2, h3.imp id fun h => hb_more h y⟩

def Knows (x : Trail Γ) (t : Nat) : Nat → Prop := UpTo x fun s => s.1 = t

def Released (x : Trail Γ) (m : Lk) : Nat → Prop := UpTo x fun s => s.2 = .unlock m

def Published (x : Trail Γ) (h : Nat) : Nat → Prop := UpTo x fun s => ∃ n m, s.2 = .made n m ∧ n ≤ h ∧ h < m

theorem Knows.before {x : Trail Γ} {t i : Nat} (h : Knows x t i) (a : Did Γ) : HappensBefore (x ++ [(t, a)]) i x.length := by
  obtain ⟨j, s, h1, h2, h3⟩ := h
  have hj : HappensBefore (x ++ [(t, a)]) j x.length :=
    .program (getElem_lt h1) (getElem_more (s := (t, s.2)) (by rw [h1, ← h2]) _) (getElem_last x _)
  rcases h3 with rfl | h3
  · exact hj
  · exact (hb_more h3 _).trans hj

theorem Released.before {x : Trail Γ} {m : Lk} {i : Nat} (h : Released x m i) (t : Nat) : HappensBefore (x ++ [(t, .lock m)]) i x.length := by
  obtain ⟨j, s, h1, h2, h3⟩ := h
  have hj : HappensBefore (x ++ [(t, .lock m)]) j x.length :=
    .mutex (getElem_lt h1) (getElem_more (s := (s.1, Did.unlock m)) (by rw [h1, ← h2]) _) (getElem_last x _)
  rcases h3 with rfl | h3
  · exact hj
  · exact (hb_more h3 _).trans hj

theorem Published.before {x : Trail Γ} {h i : Nat} (hp : Published x h i) (t : Nat) : HappensBefore (x ++ [(t, .lock (.body h))]) i x.length := by
  obtain ⟨j, s, h1, ⟨n, m, h2, h4, h5⟩, h3⟩ := hp
  have hj : HappensBefore (x ++ [(t, .lock (.body h))]) j x.length :=
    .handed (getElem_lt h1) (getElem_more (s := (s.1, Did.made n m)) (by rw [h1, ← h2]) _) h4 h5 (getElem_last x _)
  rcases h3 with rfl | h3
  · exact hj
  · exact (hb_more h3 _).trans hj

theorem upTo_new {x : Trail Γ} {s : Nat × Did Γ} {P : Nat × Did Γ → Prop} (hP : P s) {i : Nat} (h : HappensBefore (x ++ [s]) i x.length) :
    UpTo (x ++ [s]) P i := ⟨x.length, s, getElem_last x s, hP, .inr h⟩

theorem upTo_last {x : Trail Γ} {s : Nat × Did Γ} {P : Nat × Did Γ → Prop} (hP : P s) : UpTo (x ++ [s]) P x.length :=
  ⟨x.length, s, getElem_last x s, hP, .inl rfl⟩

/-- What one knows, or will know, who holds the mutex. -/
def Kn (x : Trail Γ) (c : Verif.Cfg Γ) (m : Lk) (i : Nat) : Prop :=
  match c.owner m with
  | some t => Knows x t i
  | none => Released x m i ∨ ∃ h, m = .body h ∧ Published x h i

theorem kn_owned {x : Trail Γ} {c : Verif.Cfg Γ} {m : Lk} {i t : Nat} (h : c.owner m = some t) : Kn x c m i ↔ Knows x t i := by
  simp [Kn, h]

theorem kn_free {x : Trail Γ} {c : Verif.Cfg Γ} {m : Lk} {i : Nat} (h : c.owner m = none) :
    Kn x c m i ↔ Released x m i ∨ ∃ h, m = .body h ∧ Published x h i := by
  simp [Kn, h]

theorem Kn.more {x : Trail Γ} {c d : Verif.Cfg Γ} {m : Lk} {i : Nat} (h : Kn x c m i) (ho : d.owner m = c.owner m) (y : Trail Γ) : Kn (x ++ y) d m i := by
  unfold Kn at h ⊢
  rw [ho]
  split <;> rename_i e <;> rw [e] at h
  · exact UpTo.more h y
  · exact h.imp (UpTo.more · y) fun ⟨k, h1, h2⟩ => ⟨k, h1, UpTo.more h2 y⟩

theorem Kn.step {prog : Op → Prog Γ} {x : Trail Γ} {c d : Verif.Cfg Γ} {t : Nat} {a : Did Γ} (hd : Does prog c t a d)
    (hrel : ∀ m k, c.thr t = some (.unlock m k) → c.owner m = some t) {m : Lk} {i : Nat} (h : Kn x c m i) : Kn (x ++ [(t, a)]) d m i := by
  cases hd with
  | call op h1 h2 => exact h.more rfl _
  | ret o h1 => exact h.more rfl _
  | read l k h1 => exact h.more rfl _
  | write l v k h1 h2 => exact h.more rfl _
  | made v k h1 => exact h.more rfl _
  | lock m' k h1 h2 =>
    by_cases e : m = m'
    · subst e
      rw [kn_free h2] at h
      rw [kn_owned (t := t) (by simp [Cfg.go, Cfg.own])]
      refine upTo_new (P := fun s => s.1 = t) rfl ?_
      rcases h with h | ⟨j, rfl, h⟩
      · exact h.before t
      · exact h.before t
    · exact h.more (by simp [Cfg.go, Cfg.own, e]) _
  | unlock m' k h1 =>
    by_cases e : m = m'
    · subst e
      rw [kn_owned (hrel _ _ h1)] at h
      rw [kn_free (by simp [Cfg.go, Cfg.own])]
      exact .inl (upTo_new (P := fun s => s.2 = .unlock m) rfl (h.before _))
    · exact h.more (by simp [Cfg.go, Cfg.own, e]) _

/-! ## What is known of the variables -/

def Did.Touches (a : Did Γ) (l : Loc Γ) : Prop := a = .read l ∨ ∃ v, a = .write l v

structure Sees (D : Disc Γ) (x : Trail Γ) (c : Verif.Cfg Γ) : Prop where
  common : ∀ f, ¬ D.racyC f → ∀ i t a, x[i]? = some (t, a) → Did.Touches a (.c f) → Kn x c .common i
  fresh : ∀ h f i t a, x[i]? = some (t, a) → Did.Touches a (.b h f) → c.mem .next ≤ h → Kn x c .common i
  wrote : ∀ h f i t v, x[i]? = some (t, .write (.b h f) v) → h < c.mem .next → Kn x c (.body h) i
  read : ∀ h f i t, x[i]? = some (t, .read (.b h f)) → h < c.mem .next →
    Kn x c (.body h) i ∨ (D.shared f ∧ D.mem c.mem h ∧ Kn x c .common i)
  member : ∀ h f i t v, x[i]? = some (t, .write (.b h f) v) → h < c.mem .next → D.shared f → D.mem c.mem h → Kn x c .common i

variable {S : Type} {Φ : Fam Γ S} {c : Verif.Cfg Γ} {A : Mem Γ} {calls : Nat → Spec.Call} {held : Nat → Held} {x : Trail Γ}

/-- Who may read knows all writes. -/
theorem Sees.may (hx : Sees Φ.D x c) (I : Inv Φ c A calls held) {t : Nat} {l : Loc Γ} (h : MayGet Φ.D (held t) c.mem l)
    (hn : ∀ f, l = .c f → ¬ Φ.D.racyC f) {i u : Nat} {w : l.Val} (hi : x[i]? = some (u, .write l w)) (hl : l ≠ .next) : Knows x t i := by
  cases l with
  | next => exact absurd rfl hl
  | c f => exact (kn_owned ((I.ownc t).2 h)).1 (hx.common f (hn f rfl) i u _ hi (.inr ⟨_, rfl⟩))
  | b j f =>
    rcases h with h | ⟨h, h1⟩ | ⟨h, h1, h2⟩
    · exact (kn_owned ((I.own t j).2 h)).1 (hx.wrote j f i u _ hi (I.ok t j h))
    · exact (kn_owned ((I.ownc t).2 h)).1 (hx.fresh j f i u _ hi (.inr ⟨_, rfl⟩) h1)
    · by_cases hj : j < c.mem .next
      · exact (kn_owned ((I.ownc t).2 h)).1 (hx.member j f i u _ hi hj h1 h2)
      · exact (kn_owned ((I.ownc t).2 h)).1 (hx.fresh j f i u _ hi (.inr ⟨_, rfl⟩) (Nat.le_of_not_lt hj))

/-- Who owns knows all accesses. -/
theorem Sees.owns (hx : Sees Φ.D x c) (I : Inv Φ c A calls held) {t : Nat} {l : Loc Γ} (h : Owns Φ.D (held t) c.mem l)
    (hn : ∀ f, l = .c f → ¬ Φ.D.racyC f) {i u : Nat} {a : Did Γ} (hi : x[i]? = some (u, a)) (ha : Did.Touches a l) (hl : l ≠ .next) : Knows x t i := by
  rcases ha with rfl | ⟨w, rfl⟩
  · cases l with
    | next => exact absurd rfl hl
    | c f => exact (kn_owned ((I.ownc t).2 h)).1 (hx.common f (hn f rfl) i u _ hi (.inl rfl))
    | b j f =>
      rcases h with ⟨h, h1⟩ | ⟨h, h1⟩
      · rcases hx.read j f i u hi (I.ok t j h) with h2 | ⟨h2, h3, h4⟩
        · exact (kn_owned ((I.own t j).2 h)).1 h2
        · rcases h1 with h1 | h1 | h1
          · exact absurd h2 h1
          · exact (kn_owned ((I.ownc t).2 h1)).1 h4
          · exact absurd h3 h1
      · exact (kn_owned ((I.ownc t).2 h)).1 (hx.fresh j f i u _ hi (.inl rfl) h1)
  · exact hx.may I h.rd hn hi hl

theorem Inv.releases (I : Inv Φ c A calls held) {t : Nat} (m : Lk) (k : Prog Γ) (h : c.thr t = some (.unlock m k)) : c.owner m = some t :=
  I.lockOrder.release t m k h

/-- A step that leaves the memory alone and touches nothing. -/
theorem Sees.quiet (hx : Sees Φ.D x c) (I : Inv Φ c A calls held) {prog : Op → Prog Γ} {t : Nat} {a : Did Γ} {d : Verif.Cfg Γ} (hd : Does prog c t a d)
    (hm : d.mem = c.mem) (ha : ∀ l, ¬ Did.Touches a l) : Sees Φ.D (x ++ [(t, a)]) d := by
  have K : ∀ {m i}, Kn x c m i → Kn (x ++ [(t, a)]) d m i := fun h => h.step hd fun m k => I.releases m k
  refine ⟨fun f hf i u b hi hb => ?_, fun h f i u b hi hb hn => ?_, fun h f i u w hi hn => ?_, fun h f i u hi hn => ?_, fun h f i u w hi hn hs hmem => ?_⟩
  all_goals rcases getElem_snoc hi with hi | ⟨rfl, e⟩
  · exact K (hx.common f hf i u b hi hb)
  · cases e; exact absurd hb (ha _)
  · exact K (hx.fresh h f i u b hi hb (hm ▸ hn))
  · cases e; exact absurd hb (ha _)
  · exact K (hx.wrote h f i u w hi (hm ▸ hn))
  · cases e; exact absurd (.inr ⟨_, rfl⟩) (ha _)
  · exact (hx.read h f i u hi (hm ▸ hn)).imp K fun ⟨h1, h2, h3⟩ => ⟨h1, hm ▸ h2, K h3⟩
  · cases e; exact absurd (.inl rfl) (ha _)
  · exact K (hx.member h f i u w hi (hm ▸ hn) hs (hm ▸ hmem))
  · cases e; exact absurd (.inr ⟨_, rfl⟩) (ha _)

theorem Sees.reads (hx : Sees Φ.D x c) (I : Inv Φ c A calls held) {t : Nat} {l : Loc Γ} {k : l.Val → Prog Γ} (ht : c.thr t = some (.get l k)) :
    Sees Φ.D (x ++ [(t, .read l)]) (c.go t (some (k (c.mem l)))) := by
  have hd : Does Φ.prog c t (.read l) (c.go t (some (k (c.mem l)))) := .read c t l k ht
  have K : ∀ {m i}, Kn x c m i → Kn (x ++ [(t, .read l)]) (c.go t (some (k (c.mem l)))) m i := fun h => h.step hd fun m k => I.releases m k
  have L : ∀ {m}, c.owner m = some t → Kn (x ++ [(t, .read l)]) (c.go t (some (k (c.mem l)))) m x.length :=
    fun h => (kn_owned (c := c.go t (some (k (c.mem l)))) h).2 (upTo_last rfl)
  have hg := I.get_may ht
  refine ⟨fun f hf i u b hi hb => ?_, fun h f i u b hi hb hn => ?_, fun h f i u w hi hn => ?_, fun h f i u hi hn => ?_, fun h f i u w hi hn hs hmem => ?_⟩
  all_goals rcases getElem_snoc hi with hi | ⟨rfl, e⟩
  · exact K (hx.common f hf i u b hi hb)
  · cases e
    rcases hb with hb | ⟨_, hb⟩
    · cases hb
      rcases hg with hg | ⟨f', e, hg⟩
      · exact L ((I.ownc t).2 hg)
      · cases e; exact absurd hg hf
    · cases hb
  · exact K (hx.fresh h f i u b hi hb hn)
  · cases e
    rcases hb with hb | ⟨_, hb⟩
    · cases hb
      rcases hg with hg | ⟨f', e, hg⟩
      · rcases hg with hg | ⟨hg, -⟩ | ⟨hg, -⟩
        · exact absurd (I.ok t h hg) (Nat.not_lt.2 hn)
        · exact L ((I.ownc t).2 hg)
        · exact L ((I.ownc t).2 hg)
      · cases e
    · cases hb
  · exact K (hx.wrote h f i u w hi hn)
  · cases e
  · exact (hx.read h f i u hi hn).imp K fun ⟨h1, h2, h3⟩ => ⟨h1, h2, K h3⟩
  · cases e
    rcases hg with hg | ⟨f', e, hg⟩
    · rcases hg with hg | ⟨hg, h1⟩ | ⟨hg, h1, h2⟩
      · exact .inl (L ((I.own t h).2 hg))
      · exact absurd h1 (Nat.not_le.2 hn)
      · exact .inr ⟨h1, h2, L ((I.ownc t).2 hg)⟩
    · cases e
  · exact K (hx.member h f i u w hi hn hs hmem)
  · cases e

theorem Sees.writes (hx : Sees Φ.D x c) (I : Inv Φ c A calls held) {t : Nat} {l : Loc Γ} {v : l.Val} {k : Prog Γ} (ht : c.thr t = some (.put l v k))
    (hl : l ≠ .next) : Sees Φ.D (x ++ [(t, .write l v)]) ({ c with mem := c.mem.set l v }.go t (some k)) := by
  have hd : Does Φ.prog c t (.write l v) ({ c with mem := c.mem.set l v }.go t (some k)) := .write c t l v k ht hl
  generalize hde : ({ c with mem := c.mem.set l v }.go t (some k) : Verif.Cfg Γ) = d at hd
  have ho : d.owner = c.owner := by subst hde; rfl
  have hmem : d.mem = c.mem.set l v := by subst hde; rfl
  have hnext : d.mem .next = c.mem .next := by rw [hmem, Mem.set_other _ _ (Ne.symm hl)]
  have K : ∀ {m i}, Kn x c m i → Kn (x ++ [(t, .write l v)]) d m i := fun h => h.step hd fun m k => I.releases m k
  have L : ∀ {m}, c.owner m = some t → Kn (x ++ [(t, .write l v)]) d m x.length := fun h => (kn_owned (by rw [ho]; exact h)).2 (upTo_last rfl)
  have T : ∀ {m m' i}, c.owner m = some t → c.owner m' = some t → Kn x c m i → Kn x c m' i := fun h h' hk => (kn_owned h').2 ((kn_owned h).1 hk)
  obtain ⟨fin, hs⟩ := I.safe ht
  have hw : MayPut Φ.D (held t) c.mem l v := hs.1
  have hown := hw.ex
  -- membership changes only under the Body's mutex
  have hM : ∀ h, h < c.mem .next → (Φ.D.mem d.mem h ↔ Φ.D.mem c.mem h) ∨ (c.owner (.body h) = some t ∧ c.owner .common = some t) := by
    intro h hh
    rw [hmem]
    cases l with
    | next => exact absurd rfl hl
    | b j f => exact .inl (mem_set_b _ _ _ _ _)
    | c f =>
      rcases hw.2 h with h1 | h1 | h1
      · exact .inl h1
      · exact .inr ⟨(I.own t h).2 h1, (I.ownc t).2 hw.1⟩
      · exact absurd h1 (Nat.not_le.2 hh)
  refine ⟨fun f hf i u b hi hb => ?_, fun h f i u b hi hb hn => ?_, fun h f i u w hi hn => ?_, fun h f i u hi hn => ?_, fun h f i u w hi hn hsh hmb => ?_⟩
  all_goals rcases getElem_snoc hi with hi | ⟨rfl, e⟩
  · exact K (hx.common f hf i u b hi hb)
  · cases e
    rcases hb with hb | ⟨_, hb⟩
    · cases hb
    · cases hb; exact L ((I.ownc t).2 hown)
  · exact K (hx.fresh h f i u b hi hb (hnext ▸ hn))
  · cases e
    rcases hb with hb | ⟨_, hb⟩
    · cases hb
    · cases hb
      rcases hown with ⟨hg, -⟩ | ⟨hg, -⟩
      · exact absurd (I.ok t h hg) (Nat.not_lt.2 (hnext ▸ hn))
      · exact L ((I.ownc t).2 hg)
  · exact K (hx.wrote h f i u w hi (hnext ▸ hn))
  · cases e
    rcases hown with ⟨hg, -⟩ | ⟨hg, h1⟩
    · exact L ((I.own t h).2 hg)
    · exact absurd h1 (Nat.not_le.2 (hnext ▸ hn))
  · rcases hx.read h f i u hi (hnext ▸ hn) with h1 | ⟨h1, h2, h3⟩
    · exact .inl (K h1)
    · rcases hM h (hnext ▸ hn) with h4 | ⟨h4, h5⟩
      · exact .inr ⟨h1, h4.2 h2, K h3⟩
      · exact .inl (K (T h5 h4 h3))
  · cases e
  · rcases hM h (hnext ▸ hn) with h4 | ⟨h4, h5⟩
    · exact K (hx.member h f i u w hi (hnext ▸ hn) hsh (h4.1 hmb))
    · exact K (T h4 h5 (hx.wrote h f i u w hi (hnext ▸ hn)))
  · cases e
    have hmb' : Φ.D.mem c.mem h := by rw [hmem, mem_set_b] at hmb; exact hmb
    rcases hown with ⟨hg, h1⟩ | ⟨hg, h1⟩
    · rcases h1 with h1 | h1 | h1
      · exact absurd hsh h1
      · exact L ((I.ownc t).2 h1)
      · exact absurd hmb' h1
    · exact absurd h1 (Nat.not_le.2 (hnext ▸ hn))

theorem Sees.makes (hx : Sees Φ.D x c) (I : Inv Φ c A calls held) {t v : Nat} {k : Prog Γ} (ht : c.thr t = some (.put .next v k)) :
    Sees Φ.D (x ++ [(t, .made (c.mem .next) v)]) ({ c with mem := c.mem.set .next v }.go t (some k)) := by
  have hd : Does Φ.prog c t (.made (c.mem .next) v) ({ c with mem := c.mem.set .next v }.go t (some k)) := .made c t v k ht
  obtain ⟨fin, hs⟩ := I.safe ht
  have hw : MayPut Φ.D (held t) c.mem .next v := hs.1
  have hc : c.owner .common = some t := (I.ownc t).2 hw.1
  have hv : c.mem .next ≤ v := hw.2
  generalize hde : ({ c with mem := c.mem.set .next v }.go t (some k) : Verif.Cfg Γ) = d at hd
  have ho : d.owner = c.owner := by subst hde; rfl
  have hmem : d.mem = c.mem.set .next v := by subst hde; rfl
  have hnext : d.mem .next = v := by rw [hmem, Mem.set_same]
  have hM : ∀ h, Φ.D.mem d.mem h ↔ Φ.D.mem c.mem h := fun h => by rw [hmem]; exact mem_set_next _ _ _
  have K : ∀ {m i}, Kn x c m i → Kn (x ++ [(t, .made (c.mem .next) v)]) d m i := fun h => h.step hd fun m k => I.releases m k
  have hfree : ∀ h, c.mem .next ≤ h → d.owner (.body h) = none := by
    intro h hh
    rw [ho]
    cases e : c.owner (.body h) with
    | none => rfl
    | some u => exact absurd (I.ok u h ((I.own u h).1 e)) (Nat.not_lt.2 hh)
  -- what was known of a Body to be made, is published
  have P : ∀ {h i}, c.mem .next ≤ h → h < v → Kn x c .common i → Kn (x ++ [(t, .made (c.mem .next) v)]) d (.body h) i := by
    intro h i h1 h2 hk
    refine (kn_free (hfree h h1)).2 (.inr ⟨h, rfl, upTo_new ⟨_, _, rfl, h1, h2⟩ ?_⟩)
    exact ((kn_owned hc).1 hk).before _
  refine ⟨fun f hf i u b hi hb => ?_, fun h f i u b hi hb hn => ?_, fun h f i u w hi hn => ?_, fun h f i u hi hn => ?_, fun h f i u w hi hn hsh hmb => ?_⟩
  all_goals rcases getElem_snoc hi with hi | ⟨rfl, e⟩
  · exact K (hx.common f hf i u b hi hb)
  · cases e; rcases hb with hb | ⟨_, hb⟩ <;> cases hb
  · exact K (hx.fresh h f i u b hi hb (Nat.le_trans hv (hnext ▸ hn)))
  · cases e; rcases hb with hb | ⟨_, hb⟩ <;> cases hb
  · rcases Nat.lt_or_ge h (c.mem .next) with hh | hh
    · exact K (hx.wrote h f i u w hi hh)
    · exact P hh (hnext ▸ hn) (hx.fresh h f i u _ hi (.inr ⟨_, rfl⟩) hh)
  · cases e
  · rcases Nat.lt_or_ge h (c.mem .next) with hh | hh
    · exact (hx.read h f i u hi hh).imp K fun ⟨h1, h2, h3⟩ => ⟨h1, (hM h).2 h2, K h3⟩
    · exact .inl (P hh (hnext ▸ hn) (hx.fresh h f i u _ hi (.inl rfl) hh))
  · cases e
  · rcases Nat.lt_or_ge h (c.mem .next) with hh | hh
    · exact K (hx.member h f i u w hi hh hsh ((hM h).1 hmb))
    · exact K (hx.fresh h f i u _ hi (.inr ⟨_, rfl⟩) hh)
  · cases e

theorem Sees.step (hx : Sees Φ.D x c) (I : Inv Φ c A calls held) {t : Nat} {a : Did Γ} {d : Verif.Cfg Γ} (hd : Does Φ.prog c t a d) :
    Sees Φ.D (x ++ [(t, a)]) d := by
  cases hd with
  | call op h1 h2 => exact hx.quiet I (.call c t op h1 h2) rfl fun l => by rintro (h | ⟨_, h⟩) <;> cases h
  | ret o h1 => exact hx.quiet I (.ret (prog := Φ.prog) c t o h1) rfl fun l => by rintro (h | ⟨_, h⟩) <;> cases h
  | read l k h1 => exact hx.reads I h1
  | write l v k h1 h2 => exact hx.writes I h1 h2
  | made v k h1 => exact hx.makes I h1
  | lock m k h1 h2 => exact hx.quiet I (.lock (prog := Φ.prog) c t m k h1 h2) rfl fun l => by rintro (h | ⟨_, h⟩) <;> cases h
  | unlock m k h1 => exact hx.quiet I (.unlock (prog := Φ.prog) c t m k h1) rfl fun l => by rintro (h | ⟨_, h⟩) <;> cases h

theorem sees_init (D : Disc Γ) (c : Verif.Cfg Γ) : Sees D [] c :=
  ⟨fun _ _ _ _ _ h => by simp at h, fun _ _ _ _ _ h => by simp at h, fun _ _ _ _ _ h => by simp at h, fun _ _ _ _ h => by simp at h,
    fun _ _ _ _ _ h => by simp at h⟩

/-- Writing the counter of handles is making Bodies known. -/
theorem not_written {prog : Op → Prog Γ} {x : Trail Γ} {c d : Verif.Cfg Γ} (hx : Execution prog c x d) :
    ∀ (i t v : Nat), x[i]? ≠ some (t, Did.write .next v) := by
  induction hx with
  | nil => intro i t v h; simp at h
  | snoc _ hd ih =>
    intro i t v h
    rcases getElem_snoc h with h | ⟨-, h⟩
    · exact ih i t v h
    · cases h; cases hd with | write l v k ht hl => exact hl rfl

/-- Conflicting accesses are ordered. -/
theorem fam_ordered (Φ : Fam Γ S) {M : Mem Γ} (hg : Φ.good M) {x : Trail Γ} {c : Verif.Cfg Γ} (hx : Execution Φ.prog (.init M) x c)
    (hal : AllAllowed Φ x.events) :
    Sees Φ.D x c ∧ ∀ l i j, (∀ f, l = .c f → ¬ Φ.D.racyC f) → i < j → Conflict x l i j → HappensBefore x i j := by
  induction hx with
  | nil => exact ⟨sees_init _ _, fun l i j _ _ ⟨t, u, a, b, _, h, _⟩ => by simp at h⟩
  | @snoc d e x t a hx hd ih =>
    rw [events_snoc] at hal
    have hal' : AllAllowed Φ x.events := fun u op h => hal u op (List.mem_append_left _ h)
    obtain ⟨h1, h2⟩ := ih hal'
    obtain ⟨A, calls, held, I, -⟩ := Inv.steps Φ hg (execution_steps hx) hal'
    refine ⟨h1.step I hd, fun l i j hn hij hc => ?_⟩
    obtain ⟨u, w, a', b, hne, hi, hj, hk⟩ := hc
    rcases getElem_snoc hj with hj | ⟨rfl, ej⟩
    · have hjl := getElem_lt hj
      rcases getElem_snoc hi with hi | ⟨rfl, -⟩
      · exact hb_more (h2 l i j hn hij ⟨u, w, a', b, hne, hi, hj, hk⟩) _
      · omega
    · cases ej
      rcases getElem_snoc hi with hi' | ⟨rfl, -⟩
      · refine Knows.before ?_ _
        rcases hk with ⟨⟨v, rfl⟩, ⟨v', rfl⟩ | rfl⟩ | ⟨rfl, ⟨v, rfl⟩⟩
        · cases hd with | write l v k ht hl => exact h1.owns I (I.put_owns ht) hn hi' (.inr ⟨_, rfl⟩) hl
        · cases hd with
          | read l k ht =>
            rcases I.get_may ht with hm | ⟨f, e, hm⟩
            · by_cases hl : l = .next
              · exfalso
                subst hl
                exact not_written hx i u _ hi'
              · exact h1.may I hm hn hi' hl
            · exact absurd hm (hn f e)
        · cases hd with | write l v k ht hl => exact h1.owns I (I.put_owns ht) hn hi' (.inl rfl) hl
      · omega

theorem Spec.Conflict.symm {x : Trail Γ} {l : Loc Γ} {i j : Nat} (h : Conflict x l i j) : Conflict x l j i := by
  obtain ⟨t, u, a, b, h1, h2, h3, h4⟩ := h
  refine ⟨u, t, b, a, h1.symm, h3, h2, ?_⟩
  rcases h4 with ⟨h4, h5 | h5⟩ | ⟨h4, h5⟩
  · exact .inl ⟨h5, .inl h4⟩
  · exact .inr ⟨h5, h4⟩
  · exact .inl ⟨h5, .inr h4⟩

theorem fam_noDataRace (Φ : Fam Γ S) {M : Mem Γ} (hg : Φ.good M) {x : Trail Γ} {c : Verif.Cfg Γ} (hx : Execution Φ.prog (.init M) x c)
    (hal : AllAllowed Φ x.events) {l : Loc Γ} (hn : ∀ f, l = .c f → ¬ Φ.D.racyC f) : ¬ DataRace x l := by
  rintro ⟨i, j, hc, h1, h2⟩
  rcases Nat.lt_trichotomy i j with h | rfl | h
  · exact h1 ((fam_ordered Φ hg hx hal).2 l i j hn h hc)
  · obtain ⟨t, u, a, b, hne, h3, h4, -⟩ := hc
    rw [h3] at h4
    cases h4
    exact hne rfl
  · exact h2 ((fam_ordered Φ hg hx hal).2 l j i hn h hc.symm)

/-! ## Weak memory -/

/-- The memory holds what was written last. -/
theorem execution_mem {prog : Op → Prog Γ} {M : Mem Γ} {x : Trail Γ} {c : Verif.Cfg Γ} (hx : Execution prog (.init M) x c) {l : Loc Γ} (hl : l ≠ .next) :
    (∃ i u : Nat, x[i]? = some (u, Did.write l (c.mem l)) ∧ ∀ (j w : Nat) v, x[j]? = some (w, Did.write l v) → j ≤ i) ∨
      (c.mem l = M l ∧ ∀ (j w : Nat) v, x[j]? ≠ some (w, Did.write l v)) := by
  induction hx with
  | nil => exact .inr ⟨rfl, fun j w v h => by simp at h⟩
  | @snoc c d x t a _ hd ih =>
    -- steps that leave the variable alone
    have keep : d.mem l = c.mem l → (∀ v, a ≠ .write l v) →
        (∃ i u : Nat, (x ++ [(t, a)])[i]? = some (u, Did.write l (d.mem l)) ∧ ∀ (j w : Nat) v, (x ++ [(t, a)])[j]? = some (w, Did.write l v) → j ≤ i) ∨
          (d.mem l = M l ∧ ∀ (j w : Nat) v, (x ++ [(t, a)])[j]? ≠ some (w, Did.write l v)) := by
      intro hm ha
      rw [hm]
      refine ih.imp (fun ⟨i, u, h1, h2⟩ => ⟨i, u, getElem_more h1 _, fun j w v hj => ?_⟩) fun ⟨h1, h2⟩ => ⟨h1, fun j w v hj => ?_⟩
      · rcases getElem_snoc hj with hj | ⟨-, hj⟩
        · exact h2 j w v hj
        · cases hj; exact absurd rfl (ha v)
      · rcases getElem_snoc hj with hj | ⟨-, hj⟩
        · exact h2 j w v hj
        · cases hj; exact absurd rfl (ha v)
    cases hd with
    | call op h1 h2 => exact keep rfl fun v h => by cases h
    | ret o h1 => exact keep rfl fun v h => by cases h
    | read l' k h1 => exact keep rfl fun v h => by cases h
    | made v k h1 => exact keep (Mem.set_other _ _ hl) fun v h => by cases h
    | lock m k h1 h2 => exact keep rfl fun v h => by cases h
    | unlock m k h1 => exact keep rfl fun v h => by cases h
    | write l' v k h1 h2 =>
      by_cases e : l = l'
      · subst e
        refine .inl ⟨x.length, t, ?_, fun j w v' hj => ?_⟩
        · rw [getElem_last]
          simp [Cfg.go, Mem.set_same]
        · have := getElem_lt hj
          simp at this
          omega
      · exact keep (Mem.set_other _ _ e) fun v' h => by cases h; exact e rfl

/-- What is visible to a goroutine that may read is what the memory holds. -/
theorem Sees.visible {Φ : Fam Γ S} {M : Mem Γ} (hg : Φ.good M) {x : Trail Γ} {c : Verif.Cfg Γ} (hx : Execution Φ.prog (.init M) x c)
    (hal : AllAllowed Φ x.events) {t : Nat} {l : Loc Γ} {k : l.Val → Prog Γ} (ht : c.thr t = some (.get l k)) (hl : l ≠ .next)
    (hn : ∀ f, l = .c f → ¬ Φ.D.racyC f) {v : l.Val} (hv : Visible M x t l v) : v = c.mem l := by
  obtain ⟨h1, h2⟩ := fam_ordered Φ hg hx hal
  obtain ⟨A, calls, held, I, -⟩ := Inv.steps Φ hg (execution_steps hx) hal
  have hm : MayGet Φ.D (held t) c.mem l := by
    rcases I.get_may ht with hm | ⟨f, e, hm⟩
    · exact hm
    · exact absurd hm (hn f e)
  have known : ∀ (j w : Nat) v', x[j]? = some (w, Did.write l v') → HappensBefore (x ++ [(t, .read l)]) j x.length := fun j w v' hj =>
    (h1.may I hm hn hj hl).before _
  rcases execution_mem hx hl with ⟨i, u, h3, h4⟩ | ⟨h3, h4⟩
  · rcases hv with ⟨j, w, h5, h6⟩ | ⟨-, h5⟩
    · rcases Nat.lt_or_ge j i with hji | hji
      · refine absurd (known i u _ h3) (h6 i u _ h3 ?_)
        by_cases e : w = u
        · subst e; exact .program hji h5 h3
        · exact h2 l j i hn hji ⟨w, u, _, _, e, h5, h3, .inl ⟨⟨_, rfl⟩, .inl ⟨_, rfl⟩⟩⟩
      · have : j = i := Nat.le_antisymm (h4 j w v h5) hji
        subst this
        rw [h3] at h5
        cases h5
        rfl
    · exact absurd (known i u _ h3) (h5 i u _ h3)
  · rcases hv with ⟨j, w, h5, -⟩ | ⟨h5, -⟩
    · exact absurd h5 (h4 j w v)
    · rw [h3, h5]

theorem fam_sequential (Φ : Fam Γ S) {M : Mem Γ} (hg : Φ.good M) (hn : ∀ f, ¬ Φ.D.racyC f) {x : Trail Γ} {c : Verif.Cfg Γ}
    (hx : WeakExecution Φ.prog M x c) (hal : AllAllowed Φ x.events) : Execution Φ.prog (.init M) x c := by
  induction hx with
  | nil => exact .nil
  | @read c x t l k v _ ht hl hv ih =>
    rw [events_snoc] at hal
    have hal' : AllAllowed Φ x.events := fun u op h => hal u op (List.mem_append_left _ h)
    have hx := ih hal'
    have := Sees.visible hg hx hal' ht hl (fun f _ => hn f) hv
    subst this
    exact hx.snoc (.read c t l k ht)
  | other _ hd _ ih =>
    rw [events_snoc] at hal
    exact (ih fun u op h => hal u op (List.mem_append_left _ h)).snoc hd

/-- What the memory holds is visible. -/
theorem fam_weak (Φ : Fam Γ S) {M : Mem Γ} {x : Trail Γ} {c : Verif.Cfg Γ} (hx : Execution Φ.prog (.init M) x c) : WeakExecution Φ.prog M x c := by
  induction hx with
  | nil => exact .nil
  | @snoc c d x t a hx hd ih =>
    by_cases h : ∃ l, l ≠ .next ∧ a = .read l
    · obtain ⟨l, hl, rfl⟩ := h
      cases hd with
      | read l k ht =>
        refine .read ih ht hl ?_
        rcases execution_mem hx hl with ⟨i, u, h3, h4⟩ | ⟨h3, h4⟩
        · refine .inl ⟨i, u, h3, fun j w v' hj hij => ?_⟩
          have := h4 j w v' hj
          have := hb_lt hij
          omega
        · exact .inr ⟨h3, fun j w v' hj => absurd hj (h4 j w v')⟩
    · exact .other ih hd fun l hl e => h ⟨l, hl, e⟩

end
end Verif
