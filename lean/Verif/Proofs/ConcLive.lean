import Verif.Proofs.ConcSim

/-!
# What the simulation gives: order, races, deadlocks, termination
-/

set_option autoImplicit false

namespace Verif

open Spec

/-! ## Sequential executions -/

section
variable {S : Type} {step : S → Op → S × Out}

theorem run_snoc (s : S) (ops : List Op) (op : Op) :
    Verif.run step s (ops ++ [op]) = ((step (Verif.run step s ops).1 op).1, (Verif.run step s ops).2 ++ [(step (Verif.run step s ops).1 op).2]) := by
  induction ops generalizing s with
  | nil => rfl
  | cons a ops ih => simp only [List.cons_append, run, ih]

theorem invsOf_snoc (t : Nat) (tr : List Event) (e : Event) :
    invsOf t (tr ++ [e]) = invsOf t tr ++ (match e with | .inv u op => if u = t then [op] else [] | .ret _ _ => []) := by
  rw [invsOf, List.filterMap_append]
  cases e with
  | inv u op => by_cases h : u = t <;> simp [invsOf, h]
  | ret u o => simp [invsOf]

theorem partOf_snoc (t u : Nat) (L : List (Nat × Op × Out)) (x : Op × Out) :
    partOf t (L ++ [(u, x)]) = partOf t L ++ if u = t then [x] else [] := by
  by_cases h : u = t <;> simp [partOf, h]

/-- What a goroutine is doing agrees with the linearization so far. -/
def Agrees (t : Nat) (tr : List Event) (L : List (Nat × Op × Out)) : Spec.Call → Prop
  | .idle => (tr.foldl (observe t) (none, [])) = (none, partOf t L) ∧ invsOf t tr = (partOf t L).map (·.1)
  | .pending op => (tr.foldl (observe t) (none, [])) = (some op, partOf t L) ∧ invsOf t tr = (partOf t L).map (·.1) ++ [op]
  | .done o => ∃ op l, (tr.foldl (observe t) (none, [])) = (some op, l) ∧ partOf t L = l ++ [(op, o)] ∧ invsOf t tr = (partOf t L).map (·.1)

theorem Agrees.fits {tr : List Event} {L : List (Nat × Op × Out)} {calls : Nat → Spec.Call} (h : ∀ t, Agrees t tr L (calls t)) : Fits L tr := by
  intro t
  have h := h t
  cases hc : calls t with
  | idle => rw [hc] at h; rw [callsOf, h.1, h.2]; exact ⟨List.prefix_refl _, List.prefix_refl _⟩
  | pending op => rw [hc] at h; rw [callsOf, h.1, h.2]; exact ⟨List.prefix_refl _, List.prefix_append _ _⟩
  | done o =>
    rw [hc] at h
    obtain ⟨op, l, h1, h2, h3⟩ := h
    rw [callsOf, h1, h3, h2]; exact ⟨List.prefix_append _ _, List.prefix_refl _⟩

theorem prefix_snoc {α : Type} {a b : List α} {x : α} (h : a <+: b ++ [x]) : a <+: b ∨ a = b ++ [x] := by
  rcases List.prefix_concat_iff.1 h with h | h
  · exact .inr h
  · exact .inl h

theorem Atomic.sequential {s : S} {tr : List Event} {y : Obj S} (h : Atomic step ⟨s, fun _ => .idle⟩ tr y) :
    ∃ L : List (Nat × Op × Out), Verif.run step s (L.map (·.2.1)) = (y.s, L.map (·.2.2)) ∧ (∀ t, Agrees t tr L (y.calls t)) ∧
      ∀ tr', tr' <+: tr → ∃ L', L' <+: L ∧ Fits L' tr' := by
  induction h with
  | nil =>
    refine ⟨[], rfl, fun t => ⟨rfl, rfl⟩, fun tr' h => ?_⟩
    obtain rfl := List.prefix_nil.1 h
    exact ⟨[], List.prefix_refl _, fun t => ⟨List.prefix_refl _, List.prefix_refl _⟩⟩
  | @inv y tr u op _ hi ih =>
    obtain ⟨L, h1, h2, h3⟩ := ih
    have h2' : ∀ t, Agrees t (tr ++ [.inv u op]) L ((y.upd u (.pending op)).calls t) := by
      intro t
      by_cases e : t = u
      · subst e
        have := h2 t
        rw [hi] at this
        simp only [Obj.upd, if_true]
        refine ⟨?_, ?_⟩
        · rw [List.foldl_append, this.1]; simp [observe]
        · rw [invsOf_snoc, this.2]; simp
      · have := h2 t
        simp only [Obj.upd, if_neg e]
        have e1 : (tr ++ [Event.inv u op]).foldl (observe t) (none, []) = tr.foldl (observe t) (none, []) := by
          rw [List.foldl_append]; simp [observe, Ne.symm e]
        have e2 : invsOf t (tr ++ [.inv u op]) = invsOf t tr := by rw [invsOf_snoc]; simp [Ne.symm e]
        cases hc : y.calls t <;> rw [hc] at this <;> simp only [Agrees, e1, e2] <;> exact this
    refine ⟨L, h1, h2', fun tr' h => ?_⟩
    rcases prefix_snoc h with h | rfl
    · exact h3 tr' h
    · exact ⟨L, List.prefix_refl _, Agrees.fits h2'⟩
  | @effect y tr u op _ hp ih =>
    obtain ⟨L, h1, h2, h3⟩ := ih
    refine ⟨L ++ [(u, op, (step y.s op).2)], ?_, fun t => ?_, fun tr' h => ?_⟩
    · simp only [List.map_append, List.map_cons, List.map_nil, run_snoc, h1]
    · by_cases e : t = u
      · subst e
        have := h2 t
        rw [hp] at this
        simp only [Obj.upd, if_true]
        refine ⟨op, partOf t L, this.1, ?_, ?_⟩
        · rw [partOf_snoc]; simp
        · rw [this.2, partOf_snoc]; simp
      · have := h2 t
        simp only [Obj.upd, if_neg e]
        have e1 : partOf t (L ++ [(u, op, (step y.s op).2)]) = partOf t L := by rw [partOf_snoc]; simp [Ne.symm e]
        cases hc : y.calls t <;> rw [hc] at this <;> simp only [Agrees, e1] <;> exact this
    · obtain ⟨L', h4, h5⟩ := h3 tr' h
      exact ⟨L', h4.trans (List.prefix_append _ _), h5⟩
  | @ret y tr u o _ hd ih =>
    obtain ⟨L, h1, h2, h3⟩ := ih
    have h2' : ∀ t, Agrees t (tr ++ [.ret u o]) L ((y.upd u .idle).calls t) := by
      intro t
      have e2 : invsOf t (tr ++ [.ret u o]) = invsOf t tr := by rw [invsOf_snoc]; simp
      by_cases e : t = u
      · subst e
        have := h2 t
        rw [hd] at this
        obtain ⟨op, l, f1, f2, f3⟩ := this
        simp only [Obj.upd, if_true]
        refine ⟨?_, by rw [e2, f3]⟩
        rw [List.foldl_append, f1, f2]; simp [observe]
      · have := h2 t
        simp only [Obj.upd, if_neg e]
        have e1 : (tr ++ [Event.ret u o]).foldl (observe t) (none, []) = tr.foldl (observe t) (none, []) := by
          rw [List.foldl_append]; simp [observe, Ne.symm e]
        cases hc : y.calls t <;> rw [hc] at this <;> simp only [Agrees, e1, e2] <;> exact this
    refine ⟨L, h1, h2', fun tr' h => ?_⟩
    rcases prefix_snoc h with h | rfl
    · exact h3 tr' h
    · exact ⟨L, List.prefix_refl _, Agrees.fits h2'⟩

end

/-! ## Safety of the states reached -/

section
variable {Γ : Sig} {S : Type} {Φ : Fam Γ S} {c : Verif.Cfg Γ} {A : Mem Γ} {calls : Nat → Spec.Call} {held : Nat → Held}

/-- Every goroutine in a call keeps to the discipline. -/
theorem Inv.safe (I : Inv Φ c A calls held) {t : Nat} {p : Prog Γ} (h : c.thr t = some p) : ∃ fin, Safe Φ.D (held t) fin c.mem p := by
  have := I.thr t
  rw [h] at this
  cases hc : calls t with
  | idle => rw [hc] at this; exact absurd this id
  | pending op => rw [hc] at this; exact ⟨_, this.2.2.1⟩
  | done o => rw [hc] at this; exact ⟨_, this.1⟩

theorem Inv.held_none (I : Inv Φ c A calls held) {t : Nat} (h : held t = .none) (m : Lk) : c.owner m ≠ some t := by
  intro hm
  cases m with
  | body i => have := (I.own t i).1 hm; rw [h] at this; cases this
  | common => have := (I.ownc t).1 hm; rw [h] at this; cases this

theorem Inv.put_owns (I : Inv Φ c A calls held) {t : Nat} {l : Loc Γ} {v : l.Val} {k : Prog Γ} (h : c.thr t = some (.put l v k)) :
    Owns Φ.D (held t) c.mem l := by
  obtain ⟨fin, hs⟩ := I.safe h
  exact hs.1.ex

theorem Inv.get_may (I : Inv Φ c A calls held) {t : Nat} {l : Loc Γ} {k : l.Val → Prog Γ} (h : c.thr t = some (.get l k)) :
    MayGet Φ.D (held t) c.mem l ∨ ∃ f, l = .c f ∧ Φ.D.racyC f := by
  obtain ⟨fin, hs⟩ := I.safe h
  rcases hs with ⟨h1, _⟩ | ⟨_, h1, _⟩
  · exact .inl h1
  · exact .inr h1

/-- Only variables declared racy are raced for, and then a read races with a write. -/
theorem Inv.race (I : Inv Φ c A calls held) {t u : Nat} {l : Loc Γ} (hne : t ≠ u) (hw : ∃ v k, c.thr t = some (.put l v k))
    (hr : (∃ k, c.thr u = some (.get l k)) ∨ ∃ v k, c.thr u = some (.put l v k)) :
    (∃ f, l = .c f ∧ Φ.D.racyC f) ∧ ∃ k, c.thr u = some (.get l k) := by
  obtain ⟨v, k, hw⟩ := hw
  have h1 := I.put_owns hw
  rcases hr with ⟨k', hr⟩ | ⟨v', k', hr⟩
  · rcases I.get_may hr with h2 | h2
    · exact absurd h2 (I.not_rd hne h1)
    · exact ⟨h2, k', hr⟩
  · exact absurd (I.put_owns hr).rd (I.not_rd hne h1)

theorem Inv.locksShared (I : Inv Φ c A calls held) (hn : ∀ f, ¬ Φ.D.racyC f) : LocksShared c := by
  rintro t f (⟨k, h⟩ | ⟨v, k, h⟩)
  · rcases I.get_may h with h1 | ⟨f', _, h1⟩
    · exact (I.ownc t).2 h1
    · exact absurd h1 (hn f')
  · exact (I.ownc t).2 (I.put_owns h)

theorem Inv.lockOrder (I : Inv Φ c A calls held) : LockOrder c where
  body t h k ht := by
    obtain ⟨fin, hs⟩ := I.safe ht
    exact I.held_none hs.2.1
  common t k ht := by
    obtain ⟨fin, hs⟩ := I.safe ht
    intro hm
    have := (I.ownc t).1 hm
    rw [hs.2.1] at this
    cases this
  release t m k ht := by
    obtain ⟨fin, hs⟩ := I.safe ht
    cases m with
    | body h => exact (I.own t h).2 hs.1
    | common => exact (I.ownc t).2 hs.1
  ret t o ht := by
    obtain ⟨fin, hs⟩ := I.safe ht
    exact I.held_none hs
  idle t ht := by
    have := I.thr t
    rw [ht] at this
    exact I.held_none this.1

/-- A state in which the mutexes are acquired in order is no deadlock. -/
theorem Spec.LockOrder.canStep {prog : Op → Prog Γ} (I : LockOrder c) {t : Nat} (hb : Busy c t) : CanStep prog c ∨ ∃ u, Stuck c u := by
  have easy : ∀ u p, c.thr u = some p → (∀ m k, p ≠ .lock m k) → CanStep prog c ∨ ∃ u, Stuck c u := by
    intro u p hu hl
    cases p with
    | ret o => exact .inl ⟨_, _, .ret c u o hu, by simp⟩
    | stuck => exact .inr ⟨u, hu⟩
    | get l k => exact .inl ⟨_, _, .get c u l k hu, by simp⟩
    | put l v k => exact .inl ⟨_, _, .put c u l v k hu, by simp⟩
    | lock m k => exact absurd rfl (hl m k)
    | unlock m k => exact .inl ⟨_, _, .unlock c u m k hu, by simp⟩
  have busy : ∀ u m, c.owner m = some u → ∃ p, c.thr u = some p := by
    intro u m hu
    cases hp : c.thr u with
    | none => exact absurd hu (I.idle u hp m)
    | some p => exact ⟨p, rfl⟩
  have common : ∀ u, c.owner .common = some u → CanStep prog c ∨ ∃ u, Stuck c u := by
    intro u hu
    obtain ⟨p, hp⟩ := busy u _ hu
    refine easy u p hp fun m k hl => ?_
    subst hl
    cases m with
    | body h => exact I.body u h k hp _ hu
    | common => exact I.common u k hp hu
  have body : ∀ u h, c.owner (.body h) = some u → CanStep prog c ∨ ∃ u, Stuck c u := by
    intro u h hu
    obtain ⟨p, hp⟩ := busy u _ hu
    by_cases hl : ∃ m k, p = .lock m k
    · obtain ⟨m, k, rfl⟩ := hl
      cases m with
      | body i => exact absurd hu (I.body u i k hp _)
      | common =>
        cases ho : c.owner .common with
        | none => exact .inl ⟨_, _, .lock c u .common k hp ho, by simp⟩
        | some w => exact common w ho
    · exact easy u p hp fun m k e => hl ⟨m, k, e⟩
  cases hp : c.thr t with
  | none => exact absurd hp hb
  | some p =>
    by_cases hl : ∃ m k, p = .lock m k
    · obtain ⟨m, k, rfl⟩ := hl
      cases ho : c.owner m with
      | none => exact .inl ⟨_, _, .lock c t m k hp ho, by simp⟩
      | some w =>
        cases m with
        | body h => exact body w h ho
        | common => exact common w ho
    · exact easy t p hp fun m k e => hl ⟨m, k, e⟩

/-- A call that loops forever does so in the sequential model as well. -/
theorem Inv.stuck (I : Inv Φ c A calls held) {t : Nat} (h : Stuck c t) :
    (∃ op, calls t = .pending op ∧ (Φ.step (Φ.abs A) op).2 = .hang) ∨ calls t = .done .hang := by
  have := I.thr t
  rw [h] at this
  cases hc : calls t with
  | idle => rw [hc] at this; exact absurd this id
  | pending op =>
    rw [hc] at this
    obtain ⟨h1, h2, _, h3⟩ := this
    have h4 := h3 A fun _ _ => rfl
    refine .inl ⟨op, rfl, ?_⟩
    rw [Φ.seq op h1 A h2 I.good, ← h4]; rfl
  | done o =>
    rw [hc] at this
    exact .inr (by rw [← this.2.1]; rfl)

end

/-! ## Termination -/

section
variable {Γ : Sig}

/-- What remains after one step of a program. -/
inductive Sub : Option (Prog Γ) → Option (Prog Γ) → Prop
  | ret (o : Out) : Sub none (some (.ret o))
  | get (l : Loc Γ) (k : l.Val → Prog Γ) (v : l.Val) : Sub (some (k v)) (some (.get l k))
  | put (l : Loc Γ) (v : l.Val) (k : Prog Γ) : Sub (some k) (some (.put l v k))
  | lock (m : Lk) (k : Prog Γ) : Sub (some k) (some (.lock m k))
  | unlock (m : Lk) (k : Prog Γ) : Sub (some k) (some (.unlock m k))

theorem Sub.acc_none : Acc (Sub (Γ := Γ)) none := ⟨_, fun _ h => by cases h⟩

theorem Sub.not_none {p : Option (Prog Γ)} : ¬ Sub p none := fun h => by cases h

theorem Sub.acc_some (p : Prog Γ) : Acc (Sub (Γ := Γ)) (some p) := by
  induction p with
  | ret o => exact ⟨_, fun _ h => by cases h; exact acc_none⟩
  | stuck => exact ⟨_, fun _ h => by cases h⟩
  | get l k ih => exact ⟨_, fun _ h => by cases h; exact ih _⟩
  | put l v k ih => exact ⟨_, fun _ h => by cases h; exact ih⟩
  | lock m k ih => exact ⟨_, fun _ h => by cases h; exact ih⟩
  | unlock m k ih => exact ⟨_, fun _ h => by cases h; exact ih⟩

theorem Sub.acc (p : Option (Prog Γ)) : Acc Sub p := by
  cases p with
  | none => exact acc_none
  | some p => exact acc_some p

/-- One goroutine takes a step. -/
def Red (g f : Nat → Option (Prog Γ)) : Prop := ∃ t, Sub (g t) (f t) ∧ ∀ u, u ≠ t → g u = f u

theorem Red.acc (n : Nat) : ∀ f : Nat → Option (Prog Γ), (∀ t, n ≤ t → f t = none) → Acc Red f := by
  induction n with
  | zero =>
    intro f hf
    refine ⟨_, fun g ⟨t, h, _⟩ => ?_⟩
    rw [hf t (Nat.zero_le _)] at h
    exact absurd h Sub.not_none
  | succ n ih =>
    -- by how far goroutine `n` is, then by how far the others are
    have key : ∀ p : Option (Prog Γ), ∀ f' : Nat → Option (Prog Γ), (∀ t, n ≤ t → f' t = none) →
        ∀ f, f n = p → (∀ t, t ≠ n → f t = f' t) → Acc Red f := by
      intro p
      induction Sub.acc p with
      | intro p _ ihp =>
        intro f' hf'
        induction ih f' hf' with
        | intro f' _ ihf =>
          intro f hn ho
          refine ⟨_, fun g ⟨t, hs, hu⟩ => ?_⟩
          by_cases e : t = n
          · subst e
            rw [hn] at hs
            exact ihp _ hs f' hf' g rfl fun u hne => (hu u hne).trans (ho u hne)
          · have hg' : ∀ u, n ≤ u → (fun u => if u = n then none else g u) u = none := by
              intro u hun
              by_cases e' : u = n
              · simp [e']
              · simp only [if_neg e']
                by_cases e2 : u = t
                · subst e2
                  rw [ho u e', hf' u hun] at hs
                  exact absurd hs Sub.not_none
                · rw [hu u e2, ho u e', hf' u hun]
            refine ihf (fun u => if u = n then none else g u) ⟨t, ?_, fun u hne => ?_⟩ hg' g ?_ fun u hne => ?_
            · simp only [if_neg e]; rw [← ho t e]; exact hs
            · by_cases e' : u = n
              · subst e'; simp only [if_true]; exact (hf' u (Nat.le_refl _)).symm
              · simp only [if_neg e']; rw [hu u hne, ho u e']
            · rw [hu n (Ne.symm e), hn]
            · simp only [if_neg hne]
    intro f hf
    refine key (f n) (fun u => if u = n then none else f u) (fun t ht => ?_) f rfl fun t hne => by simp [hne]
    by_cases e : t = n
    · simp [e]
    · simp only [if_neg e]; exact hf t (by omega)

theorem go_red {c : Verif.Cfg Γ} {t : Nat} {p : Option (Prog Γ)} (d : Verif.Cfg Γ) (hd : d.thr = c.thr) (h : Sub p (c.thr t)) : Red (d.go t p).thr c.thr := by
  refine ⟨t, by simpa [Cfg.go] using h, fun u hu => by simp [Cfg.go, hu, hd]⟩

theorem step_red {prog : Op → Prog Γ} {c d : Verif.Cfg Γ} {ev : Option Event} (h : Cfg.Step prog c ev d) (hn : ∀ t op, ev ≠ some (.inv t op)) :
    Red d.thr c.thr := by
  cases h with
  | inv t op => exact absurd rfl (hn t op)
  | ret t o ht => exact go_red c rfl (by rw [ht]; exact .ret o)
  | get t l k ht => exact go_red c rfl (by rw [ht]; exact .get l k _)
  | put t l v k ht => exact go_red { c with mem := c.mem.set l v } rfl (by rw [ht]; exact .put l v k)
  | lock t m k ht _ => exact go_red (c.own m (some t)) rfl (by rw [ht]; exact .lock m k)
  | unlock t m k ht => exact go_red (c.own m none) rfl (by rw [ht]; exact .unlock m k)

/-- Only finitely many goroutines are ever in a call. -/
theorem steps_finite {prog : Op → Prog Γ} {M : Mem Γ} {tr : List Event} {c : Verif.Cfg Γ} (h : Cfg.Steps prog (.init M) tr c) :
    ∃ n, ∀ t, n ≤ t → c.thr t = none := by
  induction h with
  | nil => exact ⟨0, fun _ _ => rfl⟩
  | snoc _ hs ih =>
    obtain ⟨n, hn⟩ := ih
    have key : ∀ (d : Verif.Cfg Γ) (u : Nat) (p : Option (Prog Γ)), (∀ t, n ≤ t → d.thr t = none) → ∃ n, ∀ t, n ≤ t → (d.go u p).thr t = none := by
      intro d u p hd
      refine ⟨n + u + 1, fun t ht => ?_⟩
      have : t ≠ u := by omega
      simp only [Cfg.go, if_neg this]
      exact hd t (by omega)
    cases hs with
    | inv t op => exact key _ _ _ hn
    | ret t o ht => exact key _ _ _ hn
    | get t l k ht => exact key _ _ _ hn
    | put t l v k ht => exact key _ _ _ hn
    | lock t m k ht _ => exact key _ _ _ hn
    | unlock t m k ht => exact key _ _ _ hn

theorem acc_before {prog : Op → Prog Γ} {c : Verif.Cfg Γ} (h : Acc Red c.thr) : Acc (Before prog) c := by
  generalize hf : c.thr = f at h
  induction h generalizing c with
  | intro f _ ih =>
    subst hf
    exact ⟨_, fun d ⟨ev, hs, hn⟩ => ih _ (step_red hs hn) rfl⟩

theorem Spec.Runs.trans {prog : Op → Prog Γ} {c d e : Verif.Cfg Γ} (h : Runs prog c d) (h' : Runs prog d e) : Runs prog c e := by
  induction h with
  | nil => exact h'
  | cons hs hn _ ih => exact .cons hs hn (ih h')

end

/-! ## For any kind of bodies -/

section
variable {Γ : Sig} {S : Type}

theorem mem_invs {t : Nat} {op : Op} {tr : List Event} (h : op ∈ invsOf t tr) : Event.inv t op ∈ tr := by
  obtain ⟨e, h1, h2⟩ := List.mem_filterMap.1 h
  cases e with
  | ret u o => simp at h2
  | inv u op' =>
    by_cases hu : u = t
    · simp [hu] at h2; subst hu h2; exact h1
    · simp [hu] at h2

theorem Spec.Fits.ops {L : List (Nat × Op × Out)} {tr : List Event} (h : Fits L tr) : ∀ op ∈ L.map (·.2.1), ∃ t, Event.inv t op ∈ tr := by
  intro op hop
  obtain ⟨⟨t, op', o⟩, h1, rfl⟩ := List.mem_map.1 hop
  refine ⟨t, mem_invs ((h t).2.subset ?_)⟩
  simp only [partOf, List.map_map, List.mem_map, List.mem_filter]
  exact ⟨(t, op', o), ⟨h1, by simp⟩, rfl⟩

theorem sequential_of_atomic {step : S → Op → S × Out} {s : S} {tr : List Event} {y : Obj S} (h : Spec.Atomic step ⟨s, fun _ => .idle⟩ tr y) :
    Sequential step s tr := by
  obtain ⟨L, h1, h2, h3⟩ := Atomic.sequential h
  exact ⟨L, ⟨Agrees.fits h2, h3⟩, by rw [h1]⟩

theorem cursors_of_sequential {step : S → Op → S × Out} {s : S} {tr : List Event} (h : Sequential step s tr) {cfg : Spec.Cfg}
    {Ok : Op → Prop} {Allowed : Choice → Prop} {f : List Cursor} (hr : Refines step cfg Ok Allowed s f)
    (hok : ∀ t op, Event.inv t op ∈ tr → Ok op) (hh : ∀ ops, (∀ op ∈ ops, ∃ t, Event.inv t op ∈ tr) → Out.hang ∉ (Verif.run step s ops).2) :
    CursorHistory cfg Allowed f tr := by
  obtain ⟨L, h1, h2⟩ := h
  obtain ⟨chs, h3, h4, h5⟩ := hr (L.map (·.2.1)) (fun op hop => by obtain ⟨t, ht⟩ := h1.1.ops op hop; exact hok t op ht)
    (hh _ h1.1.ops)
  exact ⟨L, h1, chs, by rw [h3, List.length_map], h4, by rw [← h2, h5]⟩

variable (Φ : Fam Γ S) (hall : ∀ op, Φ.allowed op) {M : Mem Γ} (hg : Φ.good M)
include hall hg

theorem fam_linearizable : Linearizable Φ.prog M Φ.step (Φ.abs M) := by
  intro tr c hs
  obtain ⟨A, calls, held, _, h⟩ := Inv.steps Φ hg hs fun _ _ _ => hall _
  exact ⟨_, h⟩

theorem fam_lockOrder {tr : List Event} {c : Verif.Cfg Γ} (hs : Cfg.Steps Φ.prog (.init M) tr c) : LockOrder c := by
  obtain ⟨A, calls, held, I, h⟩ := Inv.steps Φ hg hs fun _ _ _ => hall _
  exact I.lockOrder

omit hall in
theorem fam_noRace (hn : ∀ f, ¬ Φ.D.racyC f) {tr : List Event} {c : Verif.Cfg Γ} (hs : Cfg.Steps Φ.prog (.init M) tr c)
    (hal : AllAllowed Φ tr) : ¬ Race c ∧ LocksShared c := by
  obtain ⟨A, calls, held, I, h⟩ := Inv.steps Φ hg hs hal
  refine ⟨fun ⟨t, u, l, hne, hw, hr⟩ => ?_, I.locksShared hn⟩
  obtain ⟨⟨f, _, hf⟩, _⟩ := I.race hne hw hr
  exact hn f hf

theorem fam_race {tr : List Event} {c : Verif.Cfg Γ} (hs : Cfg.Steps Φ.prog (.init M) tr c) {t u : Nat} {l : Loc Γ} (hne : t ≠ u)
    (hw : ∃ v k, c.thr t = some (.put l v k)) (hr : (∃ k, c.thr u = some (.get l k)) ∨ ∃ v k, c.thr u = some (.put l v k)) :
    (∃ f, l = .c f ∧ Φ.D.racyC f) ∧ ∃ k, c.thr u = some (.get l k) := by
  obtain ⟨A, calls, held, I, h⟩ := Inv.steps Φ hg hs fun _ _ _ => hall _
  exact I.race hne hw hr

theorem fam_stuck {tr : List Event} {c : Verif.Cfg Γ} (hs : Cfg.Steps Φ.prog (.init M) tr c) {t : Nat} (h : Stuck c t) :
    ∃ ops, (∀ op ∈ ops, ∃ t, Event.inv t op ∈ tr) ∧ Out.hang ∈ (Verif.run Φ.step (Φ.abs M) ops).2 := by
  obtain ⟨A, calls, held, I, hat⟩ := Inv.steps Φ hg hs fun _ _ _ => hall _
  obtain ⟨L, h1, h2, _⟩ := Atomic.sequential hat
  have hf := Agrees.fits h2
  have ht := h2 t
  rcases I.stuck h with ⟨op, h3, h4⟩ | h3
  · rw [show (⟨Φ.abs A, calls⟩ : Obj S).calls t = calls t from rfl, h3] at ht
    refine ⟨L.map (·.2.1) ++ [op], fun o ho => ?_, ?_⟩
    · rcases List.mem_append.1 ho with ho | ho
      · exact hf.ops o ho
      · simp at ho; subst ho
        exact ⟨t, mem_invs (by rw [ht.2]; simp)⟩
    · rw [run_snoc, h1]; simp [h4]
  · rw [show (⟨Φ.abs A, calls⟩ : Obj S).calls t = calls t from rfl, h3] at ht
    obtain ⟨op, l, _, h5, _⟩ := ht
    refine ⟨L.map (·.2.1), hf.ops, ?_⟩
    rw [h1]
    have : (op, Out.hang) ∈ partOf t L := by rw [h5]; simp
    simp only [partOf, List.mem_map, List.mem_filter] at this
    obtain ⟨x, ⟨hx, _⟩, hx'⟩ := this
    exact List.mem_map.2 ⟨x, hx, by rw [hx']⟩

omit hall hg in
theorem Spec.Runs.steps {prog : Op → Prog Γ} {tr : List Event} {c d : Verif.Cfg Γ} (h : Runs prog c d) (hs : Cfg.Steps prog (.init M) tr c) :
    ∃ tr', Cfg.Steps prog (.init M) tr' d ∧ ∀ t op, Event.inv t op ∈ tr' → Event.inv t op ∈ tr := by
  induction h generalizing tr with
  | nil => exact ⟨tr, hs, fun _ _ h => h⟩
  | @cons c d e ev h1 h2 _ ih =>
    obtain ⟨tr', h3, h4⟩ := ih (.snoc hs h1)
    refine ⟨tr', h3, fun t op h => ?_⟩
    rcases List.mem_append.1 (h4 t op h) with h | h
    · exact h
    · exact absurd (by simpa using h) (h2 t op)

theorem fam_allReturn {tr : List Event} {c : Verif.Cfg Γ} (hs : Cfg.Steps Φ.prog (.init M) tr c)
    (hh : ∀ ops, (∀ op ∈ ops, ∃ t, Event.inv t op ∈ tr) → Out.hang ∉ (Verif.run Φ.step (Φ.abs M) ops).2) : AllReturn Φ.prog c := by
  refine ⟨?_, fun d hd hc t hb => ?_⟩
  · obtain ⟨n, hn⟩ := steps_finite hs
    exact acc_before (Red.acc n _ hn)
  · obtain ⟨tr', h1, h2⟩ := hd.steps hs
    rcases Spec.LockOrder.canStep (prog := Φ.prog) (fam_lockOrder Φ hall hg h1) hb with h | ⟨u, h⟩
    · exact hc h
    · obtain ⟨ops, h3, h4⟩ := fam_stuck Φ hall hg h1 h
      exact hh ops (fun op hop => by obtain ⟨t, ht⟩ := h3 op hop; exact ⟨t, h2 t op ht⟩) h4

end

/-! ## Schedules -/

/-- What the scheduler lets happen next: goroutine `t` calls a method, or takes a step. -/
inductive Act where
  | call (t : Nat) (op : Op)
  | go (t : Nat)

section
variable {Γ : Sig}

/-- One step as scheduled. -/
def Cfg.next (prog : Op → Prog Γ) (c : Verif.Cfg Γ) : Act → Option (Option Event × Verif.Cfg Γ)
  | .call t op => match c.thr t with
    | none => if op.h < c.mem .next then some (some (.inv t op), c.go t (some (prog op))) else none
    | some _ => none
  | .go t => match c.thr t with
    | none => none
    | some (.ret o) => some (some (.ret t o), c.go t none)
    | some .stuck => none
    | some (.get l k) => some (none, c.go t (some (k (c.mem l))))
    | some (.put l v k) => some (none, { c with mem := c.mem.set l v }.go t (some k))
    | some (.lock m k) => if c.owner m = none then some (none, (c.own m (some t)).go t (some k)) else none
    | some (.unlock m k) => some (none, (c.own m none).go t (some k))

/-- A schedule. -/
def Cfg.play (prog : Op → Prog Γ) (c : Verif.Cfg Γ) : List Act → Option (List Event × Verif.Cfg Γ)
  | [] => some ([], c)
  | a :: as => match c.next prog a with
    | none => none
    | some (ev, d) => match d.play prog as with
      | none => none
      | some (tr, e) => some (ev.toList ++ tr, e)

theorem Cfg.next_step {prog : Op → Prog Γ} {c d : Verif.Cfg Γ} {a : Act} {ev : Option Event} (h : c.next prog a = some (ev, d)) :
    Cfg.Step prog c ev d := by
  cases a with
  | call t op =>
    simp only [Cfg.next] at h
    split at h
    · rename_i ht
      split at h
      · rename_i hh; cases h; exact .inv c t op ht hh
      · cases h
    · cases h
  | go t =>
    simp only [Cfg.next] at h
    split at h
    · cases h
    · rename_i ht; cases h; exact .ret c t _ ht
    · cases h
    · rename_i ht; cases h; exact .get c t _ _ ht
    · rename_i ht; cases h; exact .put c t _ _ _ ht
    · rename_i ht
      split at h
      · rename_i ho; cases h; exact .lock c t _ _ ht ho
      · cases h
    · rename_i ht; cases h; exact .unlock c t _ _ ht

theorem Cfg.Steps.trans {prog : Op → Prog Γ} {c d e : Verif.Cfg Γ} {tr tr' : List Event} (h : Cfg.Steps prog c tr d)
    (h' : Cfg.Steps prog d tr' e) : Cfg.Steps prog c (tr ++ tr') e := by
  induction h' with
  | nil => rw [List.append_nil]; exact h
  | snoc _ hs ih => rw [← List.append_assoc]; exact .snoc ih hs

theorem Cfg.play_steps {prog : Op → Prog Γ} {as : List Act} : ∀ {c d : Verif.Cfg Γ} {tr : List Event},
    c.play prog as = some (tr, d) → Cfg.Steps prog c tr d := by
  induction as with
  | nil => intro c d tr h; cases h; exact .nil c
  | cons a as ih =>
    intro c d tr h
    simp only [Cfg.play] at h
    split at h
    · cases h
    · rename_i ev d' h1
      split at h
      · cases h
      · rename_i tr' e h2
        cases h
        have := (Cfg.Steps.nil c).snoc (Cfg.next_step h1)
        exact Cfg.Steps.trans this (ih h2)

end
end Verif
