import Verif.Model.CallBack
import Verif.Spec.CallBack

/-!
# Goroutines that may lock a mutex twice

`Tidy`: every goroutine locks and unlocks properly, as long as it does not lock a mutex that it holds.  `Needs S E p`: `p` will not get past locking a mutex of `S` that
is held by the goroutine itself, unless it reads a value that memories have for which `E`.
-/

set_option autoImplicit false

namespace Verif
variable {Γ : Sig}

def Needs (S : Lk → Prop) (E : Mem Γ → Prop) : Prog Γ → Prop
  | .ret _ => False
  | .stuck => True
  | .get l k => ∀ v, (∀ M : Mem Γ, M l = v → E M) ∨ Needs S E (k v)
  | .put _ _ k => Needs S E k
  | .lock m k => S m ∨ Needs S E k
  | .unlock m k => ¬ S m ∧ Needs S E k

theorem Needs.bind {S : Lk → Prop} {E : Mem Γ → Prop} {p : Prog Γ} (h : Needs S E p) (k : Out → Prog Γ) : Needs S E (p.bind k) := by
  induction p with
  | ret o => exact h.elim
  | stuck => trivial
  | get l k' ih => exact fun v => (h v).imp id (ih v)
  | put l v k' ih => exact ih h
  | lock m k' ih => exact h.imp id ih
  | unlock m k' ih => exact ⟨h.1, ih h.2⟩

/-- `W H p` says of a goroutine that holds the mutexes `H` and has yet to execute `p` that it locks and unlocks properly, as long as no mutex is locked twice. -/
structure Lax (W : List Lk → Prog Γ → Prop) : Prop where
  ret : ∀ {H o}, W H (.ret o) → H = []
  get : ∀ {H l} {k : Loc.Val l → Prog Γ}, W H (.get l k) → ∀ v, W H (k v)
  put : ∀ {H l v k}, W H (.put l v k) → W H k
  lock : ∀ {H m k}, W H (.lock m k) → m ∉ H → W (m :: H) k
  unlock : ∀ {H m k}, W H (.unlock m k) → m ∈ H ∧ W (H.filter (· ≠ m)) k

/-- Every goroutine locks and unlocks properly. -/
structure Tidy (W : Nat → List Lk → Prog Γ → Prop) (c : Cfg Γ) (held : Nat → List Lk) : Prop where
  own : ∀ t m, c.owner m = some t ↔ m ∈ held t
  thr : ∀ t p, c.thr t = some p → W t (held t) p
  idle : ∀ t, c.thr t = none → held t = []

variable {W : Nat → List Lk → Prog Γ → Prop} {prog : Op → Prog Γ}

theorem Tidy.move {c d : Cfg Γ} {held : Nat → List Lk} (I : Tidy W c held) {t : Nat} {p : Prog Γ} (ho : d.owner = c.owner)
    (ht : ∀ u, d.thr u = if u = t then some p else c.thr u) (hp : W t (held t) p) : Tidy W d held where
  own u m := by rw [ho]; exact I.own u m
  thr u q hq := by
    rw [ht] at hq
    split at hq
    next e => cases hq; cases e; exact hp
    next => exact I.thr u q hq
  idle u hu := by
    rw [ht] at hu
    split at hu
    · cases hu
    · exact I.idle u hu

theorem Tidy.step (hW : ∀ t, Lax (W t)) {c d : Cfg Γ} {ev : Option Event} {held : Nat → List Lk} (I : Tidy W c held)
    (hp : ∀ t op, c.thr t = none → W t [] (prog op)) (h : Cfg.Step prog c ev d) : ∃ held', Tidy W d held' := by
  cases h with
  | inv t op ht _ => exact ⟨held, I.move (t := t) rfl (fun u => rfl) (by rw [I.idle t ht]; exact hp t op ht)⟩
  | ret t o ht =>
    have h0 : held t = [] := (hW _).ret (I.thr t _ ht)
    refine ⟨held, I.own, fun u q hq => ?_, fun u hu => ?_⟩
    · dsimp only [Cfg.go] at hq
      split at hq
      · cases hq
      · exact I.thr u q hq
    · dsimp only [Cfg.go] at hu
      split at hu
      next e => rw [e]; exact h0
      · exact I.idle u hu
  | get t l k ht => exact ⟨held, I.move (t := t) rfl (fun u => rfl) ((hW _).get (I.thr t _ ht) _)⟩
  | put t l v k ht => exact ⟨held, I.move (t := t) rfl (fun u => rfl) ((hW _).put (I.thr t _ ht))⟩
  | lock t m k ht hm =>
    have hn : ∀ u, m ∉ held u := fun u hu => by rw [(I.own u m).2 hu] at hm; cases hm
    refine ⟨fun u => if u = t then m :: held t else held u, fun u n => ?_, fun u q hq => ?_, fun u hu => ?_⟩
    · dsimp only [Cfg.go, Cfg.own]
      by_cases e : n = m
      · subst e
        by_cases e' : u = t
        · subst e'; simp
        · simp only [if_pos, Option.some.injEq, if_neg e']
          exact ⟨fun h => absurd h.symm e', fun h => absurd h (hn u)⟩
      · rw [if_neg e, I.own]
        split
        next e' => subst e'; simp [e]
        · rfl
    · dsimp only [Cfg.go] at hq
      split at hq
      next e => cases hq; subst e; simpa using (hW _).lock (I.thr u _ ht) (hn u)
      next e => rw [if_neg e]; exact I.thr u q hq
    · dsimp only [Cfg.go] at hu
      split at hu
      · cases hu
      next e => rw [if_neg e]; exact I.idle u hu
  | unlock t m k ht =>
    have hs := (hW _).unlock (I.thr t _ ht)
    have hn : ∀ u, u ≠ t → m ∉ held u := fun u e hu => e (by
      have h1 := (I.own u m).2 hu
      rw [(I.own t m).2 hs.1] at h1
      cases h1; rfl)
    refine ⟨fun u => if u = t then (held t).filter (· ≠ m) else held u, fun u n => ?_, fun u q hq => ?_, fun u hu => ?_⟩
    · dsimp only [Cfg.go, Cfg.own]
      by_cases e : n = m
      · subst e
        by_cases e' : u = t
        · subst e'; simp
        · simp [if_neg e', hn u e']
      · rw [if_neg e, I.own]
        split
        next e' => subst e'; simp [e]
        · rfl
    · dsimp only [Cfg.go] at hq
      split at hq
      next e => cases hq; subst e; simpa using hs.2
      next e => rw [if_neg e]; exact I.thr u q hq
    · dsimp only [Cfg.go] at hu
      split at hu
      · cases hu
      next e => rw [if_neg e]; exact I.idle u hu

theorem Tidy.steps (hW : ∀ t, Lax (W t)) (hp : ∀ t op, W t [] (prog op)) {c d : Cfg Γ} {tr : List Event} (h : Cfg.Steps prog c tr d)
    (I : ∃ held, Tidy W c held) : ∃ held, Tidy W d held := by
  induction h with
  | nil => exact I
  | snoc _ hs ih =>
    obtain ⟨held, J⟩ := ih
    exact J.step hW (fun t op _ => hp t op) hs

theorem Tidy.init (M : Mem Γ) : Tidy W (Cfg.init M) fun _ => [] where
  own t m := by simp [Cfg.init]
  thr t p h := by simp [Cfg.init] at h
  idle _ _ := rfl

theorem Cfg.Steps.single {prog : Op → Prog Γ} {c d : Cfg Γ} {ev : Option Event} (h : Cfg.Step prog c ev d) : Cfg.Steps prog c ev.toList d :=
  (Cfg.Steps.nil c).snoc h

theorem Cfg.Steps.append {prog : Op → Prog Γ} {c d e : Cfg Γ} {tr tr' : List Event} (h : Cfg.Steps prog c tr d) (h' : Cfg.Steps prog d tr' e) :
    Cfg.Steps prog c (tr ++ tr') e := by
  induction h' with
  | nil => simpa using h
  | snoc _ hs ih => rw [← List.append_assoc]; exact ih.snoc hs

/-- A goroutine that needs a mutex that it holds goes on needing it. -/
theorem needs_steps (hW : ∀ t, Lax (W t)) (hp : ∀ t op, W t [] (prog op)) {S : Lk → Prop} {E : Mem Γ → Prop} {c d : Cfg Γ} {tr : List Event}
    (I : ∃ held, Tidy W c held) {t : Nat} {p : Prog Γ} (ht : c.thr t = some p) (hn : Needs S E p) (ho : ∀ m, S m → c.owner m = some t)
    (h : Cfg.Steps prog c tr d) :
    ((∃ p', d.thr t = some p' ∧ Needs S E p') ∧ (∀ m, S m → d.owner m = some t) ∧ (∀ o, Event.ret t o ∉ tr) ∧
      ∀ m u k, S m → u ≠ t → c.thr u = some (.lock m k) → d.thr u = some (.lock m k)) ∨ Spec.Sometime prog c tr d E := by
  induction h with
  | nil => exact .inl ⟨⟨p, ht, hn⟩, ho, by simp, fun _ _ _ _ _ h => h⟩
  | @snoc a b tr ev hs hstep ih =>
    rcases ih with ⟨⟨p', ht', hn'⟩, ho', hr', hu'⟩ | ⟨tr₁, tr₂, e, rfl, h1, h2, hE⟩
    rotate_left
    · exact .inr ⟨tr₁, tr₂ ++ ev.toList, e, by simp, h1, h2.snoc hstep, hE⟩
    obtain ⟨held, J⟩ := Tidy.steps hW hp hs I
    cases hstep with
    | inv u op h0 _ =>
      have e : t ≠ u := by rintro rfl; rw [ht'] at h0; cases h0
      refine .inl ⟨⟨p', by simpa [Cfg.go, e] using ht', hn'⟩, ho', by simpa using hr', fun m w k hm hw hk => ?_⟩
      have e' : w ≠ u := by rintro rfl; rw [hu' m w k hm hw hk] at h0; cases h0
      simpa [Cfg.go, e'] using hu' m w k hm hw hk
    | ret u o h0 =>
      have e : t ≠ u := by rintro rfl; rw [ht'] at h0; cases h0; exact hn'
      refine .inl ⟨⟨p', by simpa [Cfg.go, e] using ht', hn'⟩, ho', by simpa [e] using hr', fun m w k hm hw hk => ?_⟩
      have e' : w ≠ u := by rintro rfl; rw [hu' m w k hm hw hk] at h0; cases h0
      simpa [Cfg.go, e'] using hu' m w k hm hw hk
    | get u l k0 h0 =>
      have oth : ∀ m w k, S m → w ≠ t → c.thr w = some (.lock m k) → (a.go u (some (k0 (a.mem l)))).thr w = some (.lock m k) := by
        intro m w k hm hw hk
        have e' : w ≠ u := by rintro rfl; rw [hu' m w k hm hw hk] at h0; cases h0
        simpa [Cfg.go, e'] using hu' m w k hm hw hk
      by_cases e : t = u
      · subst e
        rw [ht'] at h0
        cases h0
        rcases hn' (a.mem l) with hE | hn'
        · exact .inr ⟨tr, [], a, by simp, hs, .single (.get a t l k0 ht'), hE _ rfl⟩
        · exact .inl ⟨⟨_, by simp [Cfg.go], hn'⟩, ho', by simpa using hr', oth⟩
      · exact .inl ⟨⟨p', by simpa [Cfg.go, e] using ht', hn'⟩, ho', by simpa using hr', oth⟩
    | put u l v k0 h0 =>
      have oth : ∀ m w k, S m → w ≠ t → c.thr w = some (.lock m k) → ({ a with mem := a.mem.set l v }.go u (some k0)).thr w = some (.lock m k) := by
        intro m w k hm hw hk
        have e' : w ≠ u := by rintro rfl; rw [hu' m w k hm hw hk] at h0; cases h0
        simpa [Cfg.go, e'] using hu' m w k hm hw hk
      by_cases e : t = u
      · subst e
        rw [ht'] at h0
        cases h0
        exact .inl ⟨⟨k0, by simp [Cfg.go], hn'⟩, ho', by simpa using hr', oth⟩
      · exact .inl ⟨⟨p', by simpa [Cfg.go, e] using ht', hn'⟩, ho', by simpa using hr', oth⟩
    | lock u n k0 h0 hf =>
      have hSn : ¬ S n := fun hS => by rw [ho' n hS] at hf; cases hf
      have own : ∀ m, S m → ((a.own n (some u)).go u (some k0)).owner m = some t := by
        intro m hm
        have e' : m ≠ n := by rintro rfl; exact hSn hm
        simpa [Cfg.go, Cfg.own, e'] using ho' m hm
      have oth : ∀ m w k, S m → w ≠ t → c.thr w = some (.lock m k) → ((a.own n (some u)).go u (some k0)).thr w = some (.lock m k) := by
        intro m w k hm hw hk
        have e' : w ≠ u := by
          rintro rfl
          rw [hu' m w k hm hw hk] at h0
          cases h0
          exact hSn hm
        simpa [Cfg.go, Cfg.own, e'] using hu' m w k hm hw hk
      by_cases e : t = u
      · subst e
        rw [ht'] at h0
        cases h0
        exact .inl ⟨⟨_, by simp [Cfg.go], hn'.resolve_left hSn⟩, own, by simpa using hr', oth⟩
      · exact .inl ⟨⟨p', by simpa [Cfg.go, Cfg.own, e] using ht', hn'⟩, own, by simpa using hr', oth⟩
    | unlock u n k0 h0 =>
      have hu : a.owner n = some u := (J.own u n).2 ((hW _).unlock (J.thr u _ h0)).1
      have hSn : ¬ S n := by
        intro hS
        have := ho' n hS
        rw [hu] at this
        cases this
        rw [ht'] at h0
        cases h0
        exact hn'.1 hS
      have own : ∀ m, S m → ((a.own n none).go u (some k0)).owner m = some t := by
        intro m hm
        have e' : m ≠ n := by rintro rfl; exact hSn hm
        simpa [Cfg.go, Cfg.own, e'] using ho' m hm
      have oth : ∀ m w k, S m → w ≠ t → c.thr w = some (.lock m k) → ((a.own n none).go u (some k0)).thr w = some (.lock m k) := by
        intro m w k hm hw hk
        have e' : w ≠ u := by rintro rfl; rw [hu' m w k hm hw hk] at h0; cases h0
        simpa [Cfg.go, Cfg.own, e'] using hu' m w k hm hw hk
      by_cases e : t = u
      · subst e
        rw [ht'] at h0
        cases h0
        exact .inl ⟨⟨_, by simp [Cfg.go], hn'.2⟩, own, by simpa using hr', oth⟩
      · exact .inl ⟨⟨p', by simpa [Cfg.go, Cfg.own, e] using ht', hn'⟩, own, by simpa using hr', oth⟩

end Verif
