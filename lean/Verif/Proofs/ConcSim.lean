import Verif.Proofs.Conc

/-!
# The simulation by an atomic object

`A` is the memory of the atomic object: the effects of exactly those calls that have taken effect.  A goroutine whose call has not yet
taken effect has only touched variables that nobody else can see; a goroutine whose call has taken effect will bring the memory into
line with `A` before it gives anything up.
-/

set_option autoImplicit false

namespace Verif

open Spec (Call Obj Atomic)

variable {Γ : Sig} {S : Type}

/-- A kind of bodies: its methods, and their sequential behaviour. -/
structure Fam (Γ : Sig) (S : Type) where
  D : Disc Γ
  prog : Op → Prog Γ
  step : S → Op → S × Out
  abs : Mem Γ → S
  /-- the calls considered -/
  allowed : Op → Prop
  safe : ∀ op, allowed op → ∀ M : Mem Γ, op.h < M .next → Safe D .none false M (prog op)
  /-- what holds of the memory whenever no call is in progress -/
  good : Mem Γ → Prop
  good_step : ∀ op, allowed op → ∀ M : Mem Γ, op.h < M .next → good M → good ((prog op).exec M).1
  seq : ∀ op, allowed op → ∀ M : Mem Γ, op.h < M .next → good M → step (abs M) op = (abs ((prog op).exec M).1, ((prog op).exec M).2)

section
open Classical

/-- `M` where a goroutine may read, `F` elsewhere. -/
noncomputable def overlay (D : Disc Γ) (H : Held) (M F : Mem Γ) : Mem Γ := fun l => if MayGet D H M l then M l else F l

end

theorem overlay_rd {D : Disc Γ} {H : Held} {M F : Mem Γ} {l : Loc Γ} (h : MayGet D H M l) : overlay D H M F l = M l := if_pos h

theorem overlay_not {D : Disc Γ} {H : Held} {M F : Mem Γ} {l : Loc Γ} (h : ¬ MayGet D H M l) : overlay D H M F l = F l := if_neg h

theorem overlay_rely {D : Disc Γ} {H : Held} {M M' : Mem Γ} (h : Rely D H M M') (F : Mem Γ) : overlay D H M' F = overlay D H M F := by
  funext l
  by_cases hl : MayGet D H M l
  · rw [overlay_rd hl, overlay_rd ((h.rd l).2 hl), h.eq l hl]
  · rw [overlay_not hl, overlay_not fun h' => hl ((h.rd l).1 h')]

/-- A goroutine in a call. -/
def InCall (Φ : Fam Γ S) (M A : Mem Γ) (H : Held) (p : Prog Γ) : Call → Prop
  | .idle => False
  | .pending op => Φ.allowed op ∧ op.h < A .next ∧ Safe Φ.D H false M p ∧
      ∀ F : Mem Γ, (∀ l, MayGet Φ.D H M l → F l = A l) → p.exec (overlay Φ.D H M F) = (Φ.prog op).exec F
  | .done o => Safe Φ.D H true M p ∧ (p.exec M).2 = o ∧ ∀ l, MayGet Φ.D H M l → (p.exec M).1 l = A l

def ThrOk (Φ : Fam Γ S) (M A : Mem Γ) (H : Held) (c : Call) : Option (Prog Γ) → Prop
  | none => H = .none ∧ c = .idle
  | some p => InCall Φ M A H p c

/-- What somebody else does leaves a goroutine where it is. -/
theorem ThrOk.other {Φ : Fam Γ S} {M A M' A' : Mem Γ} {H : Held} {c : Call} {p : Option (Prog Γ)} (h : ThrOk Φ M A H c p)
    (hr : Rely Φ.D H M M') (hA : ∀ l, MayGet Φ.D H M l → A' l = A l) (hn : A .next ≤ A' .next) : ThrOk Φ M' A' H c p := by
  cases p with
  | none => exact h
  | some p =>
    cases c with
    | idle => exact h
    | pending op =>
      obtain ⟨h0, h1, h2, h3⟩ := h
      refine ⟨h0, Nat.lt_of_lt_of_le h1 hn, h2.rely hr, fun F hF => ?_⟩
      rw [overlay_rely hr]
      exact h3 F fun l hl => (hF l ((hr.rd l).2 hl)).trans (hA l hl)
    | done o =>
      obtain ⟨h1, h2, h3⟩ := h
      obtain ⟨h4, h5⟩ := exec_local h1 hr
      exact ⟨h1.rely hr, h4.trans h2, fun l hl => by
        have hl := (hr.rd l).1 hl
        rw [h5 l hl, h3 l hl, hA l hl]⟩

structure Inv (Φ : Fam Γ S) (c : Cfg Γ) (A : Mem Γ) (calls : Nat → Call) (held : Nat → Held) : Prop where
  own : ∀ t h, c.owner (.body h) = some t ↔ (held t).b = some h
  ownc : ∀ t, c.owner .common = some t ↔ (held t).c = true
  ok : ∀ t, (held t).ok c.mem
  thr : ∀ t, ThrOk Φ c.mem A (held t) (calls t) (c.thr t)
  clean : ∀ l, (∀ t, ¬ Owns Φ.D (held t) c.mem l) → c.mem l = A l
  racy : ∀ l, IsRacy Φ.D l → c.mem l = A l
  good : Φ.good A

/-- Replace the value at one goroutine. -/
def at' {α : Type} (f : Nat → α) (t : Nat) (x : α) : Nat → α := fun u => if u = t then x else f u

theorem at_same {α : Type} (f : Nat → α) (t : Nat) (x : α) : at' f t x t = x := by simp [at']

theorem at_other {α : Type} (f : Nat → α) {t u : Nat} (x : α) (h : u ≠ t) : at' f t x u = f u := by simp [at', h]

theorem at_eq {α : Type} (f : Nat → α) {t : Nat} {x : α} (h : f t = x) : at' f t x = f := by
  funext u
  by_cases e : u = t
  · subst e; rw [at_same, h]
  · rw [at_other _ _ e]

variable {Φ : Fam Γ S} {c : Cfg Γ} {A : Mem Γ} {calls : Nat → Call} {held : Nat → Held}

theorem Inv.apart (I : Inv Φ c A calls held) {t u : Nat} (h : t ≠ u) : Apart (held t) (held u) := by
  constructor
  · intro i h1 h2
    have h1 := (I.own t i).2 h1
    have h2 := (I.own u i).2 h2
    rw [h1] at h2
    exact h (Option.some.inj h2)
  · rintro ⟨h1, h2⟩
    have h1 := (I.ownc t).2 h1
    have h2 := (I.ownc u).2 h2
    rw [h1] at h2
    exact h (Option.some.inj h2)

theorem Inv.not_rd (I : Inv Φ c A calls held) {t u : Nat} (h : t ≠ u) {l : Loc Γ} (hx : Owns Φ.D (held t) c.mem l) :
    ¬ MayGet Φ.D (held u) c.mem l := hx.not_rd (I.apart h) (I.ok t) (I.ok u)

/-- What one goroutine may read and nobody has exclusively is as it should be. -/
theorem Inv.read_clean (I : Inv Φ c A calls held) {t : Nat} {l : Loc Γ} (hr : MayGet Φ.D (held t) c.mem l) (hx : ¬ Owns Φ.D (held t) c.mem l) :
    c.mem l = A l := by
  refine I.clean l fun w hw => ?_
  by_cases e : w = t
  · subst e; exact hx hw
  · exact I.not_rd e hw hr

/-- A call takes effect. -/
theorem Inv.commit (I : Inv Φ c A calls held) {t : Nat} {p : Prog Γ} {op : Op} (ht : c.thr t = some p) (hp : calls t = .pending op)
    {c' : Cfg Γ} {H' : Held} {p' : Prog Γ} {N' : Mem Γ} (hthr : c'.thr = at' c.thr t (some p'))
    (hown : ∀ u h, c'.owner (.body h) = some u ↔ (at' held t H' u).b = some h)
    (hownc : ∀ u, c'.owner .common = some u ↔ (at' held t H' u).c = true)
    (hok : H'.ok c'.mem)
    (hM : ∀ l, ¬ Owns Φ.D (held t) c.mem l → c'.mem l = c.mem l)
    (hR : ∀ l, MayGet Φ.D H' c'.mem l → MayGet Φ.D (held t) c.mem l)
    (hX : ∀ l, Owns Φ.D H' c'.mem l → Owns Φ.D (held t) c.mem l)
    (hRely : ∀ u, u ≠ t → Rely Φ.D (held u) c.mem c'.mem)
    (hN1 : ∀ l, MayGet Φ.D (held t) c.mem l → N' l = c'.mem l)
    (hN2 : ∀ l, ¬ MayGet Φ.D (held t) c.mem l → N' l = A l)
    (hexec : p.exec (overlay Φ.D (held t) c.mem A) = p'.exec N')
    (hsafe : Safe Φ.D H' true c'.mem p')
    (hracy : ∀ l, IsRacy Φ.D l → c'.mem l = N' l)
    (hmemb : ∀ h, H'.b = some h → (∃ f, Φ.D.shared f) → (Φ.D.mem N' h ↔ Φ.D.mem c'.mem h)) :
    Φ.step (Φ.abs A) op = (Φ.abs ((Φ.prog op).exec A).1, ((Φ.prog op).exec A).2) ∧
      Inv Φ c' ((Φ.prog op).exec A).1 (at' calls t (.done ((Φ.prog op).exec A).2)) (at' held t H') := by
  have h0 := I.thr t
  rw [ht, hp] at h0
  obtain ⟨ha, hv, _, hU⟩ := h0
  refine ⟨Φ.seq op ha A hv I.good, ?_⟩
  have hU := hU A fun _ _ => rfl
  rw [hexec] at hU
  have hgood := Φ.good_step op ha A hv I.good
  rw [← hU] at hgood ⊢
  have hrel : Rely Φ.D H' c'.mem N' :=
    ⟨fun l hl => hN1 l (hR l hl), by rw [hracy .next trivial]; exact Nat.le_refl _, fun h hb hs => hmemb h hb hs⟩
  have hsN := hsafe.rely hrel
  have hframe : ∀ l, ¬ Owns Φ.D H' c'.mem l → (p'.exec N').1 l = N' l :=
    fun l hl => exec_frame hsN l (.inl fun h => hl ((hrel.ex l).1 h))
  have hrac : ∀ l, IsRacy Φ.D l → c'.mem l = (p'.exec N').1 l := fun l hl => by
    rw [exec_frame hsN l (.inr hl)]; exact hracy l hl
  have hnext : c.mem .next ≤ c'.mem .next := (hRely (t + 1) (by omega)).next
  refine ⟨hown, hownc, fun u => ?_, fun u => ?_, fun l hl => ?_, hrac, hgood⟩
  · by_cases e : u = t
    · subst e; rw [at_same]; exact hok
    · rw [at_other _ _ e]
      exact fun h hb => Nat.lt_of_lt_of_le (I.ok u h hb) hnext
  · by_cases e : u = t
    · subst e
      rw [hthr, at_same, at_same, at_same]
      obtain ⟨e1, e2⟩ := exec_local hsafe hrel
      exact ⟨hsafe, e1.symm, fun l hl => (e2 l hl).symm⟩
    · rw [hthr, at_other _ _ e, at_other _ _ e, at_other _ _ e]
      refine (I.thr u).other (hRely u e) (fun l hl => ?_) ?_
      · have hx : ¬ Owns Φ.D (held t) c.mem l := fun hx => I.not_rd (Ne.symm e) hx hl
        rw [hframe l fun h => hx (hX l h)]
        by_cases hr : MayGet Φ.D (held t) c.mem l
        · rw [hN1 l hr, hM l hx]
          exact I.read_clean hr hx
        · exact hN2 l hr
      · rw [← hrac .next trivial, ← I.racy .next trivial]; exact hnext
  · have hxt : ¬ Owns Φ.D H' c'.mem l := by have := hl t; rwa [at_same] at this
    rw [hframe l hxt]
    by_cases hr : MayGet Φ.D (held t) c.mem l
    · exact (hN1 l hr).symm
    · have hx : ¬ Owns Φ.D (held t) c.mem l := fun h => hr h.rd
      rw [hN2 l hr, hM l hx]
      refine I.clean l fun w hw => ?_
      by_cases e : w = t
      · subst e; exact hx hw
      · have := hl w
        rw [at_other _ _ e] at this
        exact this (((hRely w e).ex l).2 hw)

/-- The step of the atomic object. -/
def ATrans (Φ : Fam Γ S) (A : Mem Γ) (calls : Nat → Call) (ev : Option Event) (A' : Mem Γ) (calls' : Nat → Call) : Prop :=
  ∀ x tr, Atomic Φ.step x tr ⟨Φ.abs A, calls⟩ → Atomic Φ.step x (tr ++ ev.toList) ⟨Φ.abs A', calls'⟩

theorem ATrans.refl (Φ : Fam Γ S) (A : Mem Γ) (calls : Nat → Call) : ATrans Φ A calls none A calls := by
  intro x tr h; simpa using h

theorem ATrans.effect {t : Nat} {op : Op} (hp : calls t = .pending op) {A' : Mem Γ} {o : Out} (h : Φ.step (Φ.abs A) op = (Φ.abs A', o)) :
    ATrans Φ A calls none A' (at' calls t (.done o)) := by
  intro x tr hx
  have := Atomic.effect t op hx hp
  simp only [h] at this
  show Atomic Φ.step x (tr ++ []) _
  rw [List.append_nil]
  exact this

theorem ATrans.ret {t : Nat} {o : Out} (hp : calls t = .done o) : ATrans Φ A calls (some (.ret t o)) A (at' calls t .idle) := by
  intro x tr hx
  exact Atomic.ret t o hx hp

theorem ATrans.trans {A' A'' : Mem Γ} {calls' calls'' : Nat → Call} {ev : Option Event} (h : ATrans Φ A calls none A' calls')
    (h' : ATrans Φ A' calls' ev A'' calls'') : ATrans Φ A calls ev A'' calls'' := by
  intro x tr hx
  have := h' x _ (h x tr hx)
  simpa using this

theorem memb_overlay {D : Disc Γ} {H : Held} {M F : Mem Γ} (hc : H.c = true) (i : Nat) : D.mem (overlay D H M F) i ↔ D.mem M i := by
  have : (fun f => overlay D H M F (.c f)) = fun f => M (.c f) := by
    funext f
    exact overlay_rd (l := .c f) hc
  simp only [Disc.mem, this]

/-- Own writes of a variable that is not racy. -/
theorem overlay_set {D : Disc Γ} {H : Held} {M F : Mem Γ} {l : Loc Γ} {v : l.Val} (hw : MayPut D H M l v) (hn : l ≠ .next) :
    overlay D H (M.set l v) F = (overlay D H M F).set l v := by
  funext l'
  by_cases e : l' = l
  · subst e
    rw [Mem.set_same, overlay_rd ((hw.rd_iff hn _).2 hw.ex.rd), Mem.set_same]
  · rw [Mem.set_other _ _ e]
    by_cases hr : MayGet D H M l'
    · rw [overlay_rd hr, overlay_rd ((hw.rd_iff hn _).2 hr), Mem.set_other _ _ e]
    · rw [overlay_not hr, overlay_not fun h => hr ((hw.rd_iff hn _).1 h)]

/-- A step that changes only the program of one goroutine, which keeps its mutexes. -/
theorem Inv.go (I : Inv Φ c A calls held) {t : Nat} {p : Prog Γ} (h : InCall Φ c.mem A (held t) p (calls t)) :
    Inv Φ (c.go t (some p)) A calls held := by
  refine ⟨I.own, I.ownc, I.ok, fun u => ?_, I.clean, I.racy, I.good⟩
  by_cases e : u = t
  · subst e; simp only [Cfg.go, if_true]; exact h
  · simp only [Cfg.go, if_neg e]; exact I.thr u

/-- A step that writes a variable that is not racy. -/
theorem Inv.put (I : Inv Φ c A calls held) {t : Nat} {l : Loc Γ} {v : l.Val} {k : Prog Γ} (hw : MayPut Φ.D (held t) c.mem l v)
    (hn : ¬ IsRacy Φ.D l) (h : InCall Φ (c.mem.set l v) A (held t) k (calls t)) :
    Inv Φ ({ c with mem := c.mem.set l v }.go t (some k)) A calls held := by
  have hrel : ∀ u, u ≠ t → Rely Φ.D (held u) c.mem (c.mem.set l v) := fun u e => hw.rely (I.apart (Ne.symm e)) (I.ok t) (I.ok u)
  have hnext : (c.mem.set l v) .next = c.mem .next := Mem.set_other _ _ (Ne.symm (not_racy_next hn))
  refine ⟨I.own, I.ownc, fun u h hb => ?_, fun u => ?_, fun l' hl => ?_, fun l' hl => ?_, I.good⟩
  · simp only [Cfg.go, hnext]; exact I.ok u h hb
  · by_cases e : u = t
    · subst e; simp only [Cfg.go, if_true]; exact h
    · simp only [Cfg.go, if_neg e]
      exact (I.thr u).other (hrel u e) (fun _ _ => rfl) (Nat.le_refl _)
  · simp only [Cfg.go] at hl ⊢
    have hl' : ∀ u, ¬ Owns Φ.D (held u) c.mem l' := fun u hu => by
      by_cases e : u = t
      · subst e; exact hl u ((hw.ex_iff (not_racy_next hn) l').2 hu)
      · exact hl u (((hrel u e).ex l').2 hu)
    have : l' ≠ l := by rintro rfl; exact hl' t hw.ex
    rw [Mem.set_other _ _ this]
    exact I.clean l' hl'
  · simp only [Cfg.go]
    have : l' ≠ l := by rintro rfl; exact hn hl
    rw [Mem.set_other _ _ this]
    exact I.racy l' hl

theorem Held.drop_ok {H : Held} {M : Mem Γ} (m : Lk) (h : H.ok M) : (H.drop m).ok M := by
  intro i hi
  cases m with
  | body j => cases hi
  | common => exact h i hi

/-- The holders after `Unlock`. -/
theorem Inv.owners_unlock (I : Inv Φ c A calls held) {t : Nat} {m : Lk} {k : Prog Γ} {fin : Bool} {M : Mem Γ}
    (hs : Safe Φ.D (held t) fin M (.unlock m k)) :
    (∀ u h, (c.own m none).owner (.body h) = some u ↔ (at' held t ((held t).drop m) u).b = some h) ∧
      ∀ u, (c.own m none).owner .common = some u ↔ (at' held t ((held t).drop m) u).c = true := by
  cases m with
  | body i =>
    have hi : (held t).b = some i := hs.1
    have ho := (I.own t i).2 hi
    refine ⟨fun u h => ?_, fun u => ?_⟩
    · simp only [Cfg.own, Lk.body.injEq]
      by_cases e : u = t
      · subst e
        rw [at_same]
        by_cases e' : h = i
        · simp [e', Held.drop]
        · rw [if_neg e', I.own u h, hi]
          simp [Held.drop, Ne.symm e']
      · rw [at_other _ _ e]
        by_cases e' : h = i
        · subst e'
          rw [if_pos rfl, ← I.own u h, ho]
          simp [Ne.symm e]
        · rw [if_neg e', I.own u h]
    · simp only [Cfg.own, reduceCtorEq, if_false]
      rw [I.ownc u]
      by_cases e : u = t
      · subst e; rw [at_same]; rfl
      · rw [at_other _ _ e]
  | common =>
    have hi : (held t).c = true := hs.1
    have ho := (I.ownc t).2 hi
    refine ⟨fun u h => ?_, fun u => ?_⟩
    · simp only [Cfg.own, reduceCtorEq, if_false]
      rw [I.own u h]
      by_cases e : u = t
      · subst e; rw [at_same]; rfl
      · rw [at_other _ _ e]
    · simp only [Cfg.own, if_true]
      by_cases e : u = t
      · subst e; rw [at_same]; simp [Held.drop]
      · rw [at_other _ _ e, ← I.ownc u, ho]; simp [Ne.symm e]

/-- `Unlock` by a goroutine whose call has taken effect. -/
theorem Inv.unlock_done (I : Inv Φ c A calls held) {t : Nat} {m : Lk} {k : Prog Γ} {o : Out} (ht : c.thr t = some (.unlock m k))
    (hp : calls t = .done o) : Inv Φ ((c.own m none).go t (some k)) A calls (at' held t ((held t).drop m)) := by
  have h0 := I.thr t
  rw [ht, hp] at h0
  obtain ⟨h1, h2, h3⟩ := h0
  obtain ⟨o1, o2⟩ := I.owners_unlock h1
  have hs := h1.unlock
  refine ⟨o1, o2, fun u => ?_, fun u => ?_, fun l hl => ?_, I.racy, I.good⟩
  · by_cases e : u = t
    · subst e; rw [at_same]; exact Held.drop_ok m (I.ok u)
    · rw [at_other _ _ e]; exact I.ok u
  · by_cases e : u = t
    · subst e
      simp only [Cfg.go, if_true, Cfg.own]
      rw [at_same, hp]
      exact ⟨hs, h2, fun l hl => h3 l hl.drop⟩
    · simp only [Cfg.go, if_neg e, Cfg.own]
      rw [at_other _ _ e]; exact I.thr u
  · have hl' : ∀ u, u ≠ t → ¬ Owns Φ.D (held u) c.mem l := fun u e => by
      have := hl u
      rwa [at_other _ _ e] at this
    have ht' : ¬ Owns Φ.D ((held t).drop m) c.mem l := by
      have := hl t
      rwa [at_same] at this
    by_cases hx : Owns Φ.D (held t) c.mem l
    · have := exec_frame hs l (.inl ht')
      show c.mem l = A l
      rw [← this]
      exact h3 l hx.rd
    · exact I.clean l fun u => by
        by_cases e : u = t
        · subst e; exact hx
        · exact hl' u e

/-- `Unlock` by a goroutine whose call has not taken effect: it does now. -/
theorem Inv.unlock_pending (I : Inv Φ c A calls held) {t : Nat} {m : Lk} {k : Prog Γ} {op : Op} (ht : c.thr t = some (.unlock m k))
    (hp : calls t = .pending op) : Φ.step (Φ.abs A) op = (Φ.abs ((Φ.prog op).exec A).1, ((Φ.prog op).exec A).2) ∧
      Inv Φ ((c.own m none).go t (some k)) ((Φ.prog op).exec A).1 (at' calls t (.done ((Φ.prog op).exec A).2))
        (at' held t ((held t).drop m)) := by
  have h0 := I.thr t
  rw [ht, hp] at h0
  obtain ⟨_, _, h1, _⟩ := h0
  obtain ⟨o1, o2⟩ := I.owners_unlock h1
  refine I.commit ht hp (c' := (c.own m none).go t (some k)) (N' := overlay Φ.D (held t) c.mem A) rfl o1 o2 (Held.drop_ok m (I.ok t))
    (fun _ _ => rfl) (fun _ h => h.drop) (fun _ h => h.drop) (fun _ _ => .refl _ _) (fun _ h => overlay_rd h) (fun _ h => overlay_not h)
    rfl h1.unlock (fun l hl => ?_) (fun h hb _ => ?_)
  · by_cases hr : MayGet Φ.D (held t) c.mem l
    · exact (overlay_rd hr).symm
    · rw [overlay_not hr]; exact I.racy l hl
  · cases m with
    | body i => cases hb
    | common => exact memb_overlay h1.1 h

/-- A racy read. -/
theorem Inv.peek (I : Inv Φ c A calls held) {t : Nat} {f : Γ.CF} {k : Γ.CV f → Prog Γ} {op : Op} (ht : c.thr t = some (.get (.c f) k))
    (hp : calls t = .pending op) (hf : Φ.D.racyC f) (hs : Safe Φ.D (held t) true c.mem (k (c.mem (.c f)))) :
    Φ.step (Φ.abs A) op = (Φ.abs ((Φ.prog op).exec A).1, ((Φ.prog op).exec A).2) ∧
      Inv Φ (c.go t (some (k (c.mem (.c f))))) ((Φ.prog op).exec A).1 (at' calls t (.done ((Φ.prog op).exec A).2)) held := by
  have hl : overlay Φ.D (held t) c.mem A (.c f) = c.mem (.c f) := by
    by_cases hr : MayGet Φ.D (held t) c.mem (.c f)
    · exact overlay_rd hr
    · rw [overlay_not hr]; exact (I.racy (.c f) hf).symm
  have hh : at' held t (held t) = held := at_eq held rfl
  have := I.commit ht hp (c' := c.go t (some (k (c.mem (.c f))))) (H' := held t) (N' := overlay Φ.D (held t) c.mem A) rfl
    (by rw [hh]; exact I.own) (by rw [hh]; exact I.ownc) (I.ok t)
    (fun _ _ => rfl) (fun _ h => h) (fun _ h => h) (fun _ _ => .refl _ _) (fun _ h => overlay_rd h) (fun _ h => overlay_not h)
    (by simp only [Prog.exec, hl]) hs (fun l hl => ?_) (fun h hb hsh => absurd hf (Φ.D.excl hsh f))
  · rwa [hh] at this
  · by_cases hr : MayGet Φ.D (held t) c.mem l
    · exact (overlay_rd hr).symm
    · rw [overlay_not hr]; exact I.racy l hl

/-- A racy write. -/
theorem Inv.publish (I : Inv Φ c A calls held) {t : Nat} {l : Loc Γ} {v : l.Val} {k : Prog Γ} {op : Op} (ht : c.thr t = some (.put l v k))
    (hp : calls t = .pending op) (hw : MayPut Φ.D (held t) c.mem l v) (hl : IsRacy Φ.D l) (hs : Safe Φ.D (held t) true (c.mem.set l v) k) :
    Φ.step (Φ.abs A) op = (Φ.abs ((Φ.prog op).exec A).1, ((Φ.prog op).exec A).2) ∧
      Inv Φ ({ c with mem := c.mem.set l v }.go t (some k)) ((Φ.prog op).exec A).1 (at' calls t (.done ((Φ.prog op).exec A).2)) held := by
  have hh : at' held t (held t) = held := at_eq held rfl
  have hc : (held t).c = true := by
    cases l with
    | c f => exact hw.1
    | next => exact hw.1
    | b i f => exact absurd hl id
  have hrel : ∀ u, u ≠ t → Rely Φ.D (held u) c.mem (c.mem.set l v) := fun u e => hw.rely (I.apart (Ne.symm e)) (I.ok t) (I.ok u)
  have hnext : c.mem .next ≤ (c.mem.set l v) .next := (hrel (t + 1) (by omega)).next
  have := I.commit ht hp (c' := { c with mem := c.mem.set l v }.go t (some k)) (H' := held t)
    (N' := (overlay Φ.D (held t) c.mem A).set l v) rfl
    (by rw [hh]; exact I.own) (by rw [hh]; exact I.ownc) (fun h hb => Nat.lt_of_lt_of_le (I.ok t h hb) hnext)
    (fun l' hx => Mem.set_other _ _ (by rintro rfl; exact hx hw.ex)) (fun l' h => hw.rd_mono l' h) (fun l' h => hw.ex_mono l' h) hrel
    (fun l' h => ?_) (fun l' h => ?_) rfl hs (fun l' hl' => ?_) (fun h hb hsh => ?_)
  · rwa [hh] at this
  · show _ = (c.mem.set l v) l'
    by_cases e : l' = l
    · subst e; rw [Mem.set_same, Mem.set_same]
    · rw [Mem.set_other _ _ e, Mem.set_other _ _ e, overlay_rd h]
  · have e : l' ≠ l := by rintro rfl; exact h hw.ex.rd
    rw [Mem.set_other _ _ e, overlay_not h]
  · show (c.mem.set l v) l' = _
    by_cases e : l' = l
    · subst e; rw [Mem.set_same, Mem.set_same]
    · rw [Mem.set_other _ _ e, Mem.set_other _ _ e]
      by_cases hr : MayGet Φ.D (held t) c.mem l'
      · exact (overlay_rd hr).symm
      · rw [overlay_not hr]; exact I.racy l' hl'
  · show _ ↔ Φ.D.mem (c.mem.set l v) h
    cases l with
    | b i f => exact absurd hl id
    | next => rw [mem_set_next, mem_set_next]; exact memb_overlay hc h
    | c f => exact absurd hl (Φ.D.excl hsh f)

/-- The call of a goroutine about to return has taken effect, or does now. -/
theorem Inv.finish (I : Inv Φ c A calls held) {t : Nat} {o : Out} {op : Op} (ht : c.thr t = some (.ret o)) (hp : calls t = .pending op) :
    Φ.step (Φ.abs A) op = (Φ.abs ((Φ.prog op).exec A).1, ((Φ.prog op).exec A).2) ∧
      Inv Φ c ((Φ.prog op).exec A).1 (at' calls t (.done ((Φ.prog op).exec A).2)) held := by
  have hh : at' held t (held t) = held := at_eq held rfl
  have h0 := I.thr t
  rw [ht, hp] at h0
  obtain ⟨_, _, h1, _⟩ := h0
  have hn : held t = .none := h1
  have := I.commit ht hp (c' := c) (H' := held t) (p' := .ret o) (N' := overlay Φ.D (held t) c.mem A) (at_eq _ ht).symm
    (by rw [hh]; exact I.own) (by rw [hh]; exact I.ownc) (I.ok t)
    (fun _ _ => rfl) (fun _ h => h) (fun _ h => h) (fun _ _ => .refl _ _) (fun _ h => overlay_rd h) (fun _ h => overlay_not h)
    rfl h1 (fun l hl => ?_) (fun h hb hsh => by rw [hn] at hb; cases hb)
  · rwa [hh] at this
  · by_cases hr : MayGet Φ.D (held t) c.mem l
    · exact (overlay_rd hr).symm
    · rw [overlay_not hr]; exact I.racy l hl

/-- Acquiring. -/
def Held.take (H : Held) : Lk → Held
  | .body h => ⟨some h, H.c⟩
  | .common => ⟨H.b, true⟩

/-- `Lock`. -/
theorem Inv.lock (I : Inv Φ c A calls held) {t : Nat} {m : Lk} {k : Prog Γ} (ht : c.thr t = some (.lock m k)) (hm : c.owner m = none) :
    Inv Φ ((c.own m (some t)).go t (some k)) A calls (at' held t ((held t).take m)) := by
  have h0 := I.thr t
  rw [ht] at h0
  -- a call that has taken effect takes no further mutex
  have hcase : ∃ op, calls t = .pending op := by
    cases hc : calls t with
    | idle => rw [hc] at h0; exact absurd h0 id
    | pending op => exact ⟨op, rfl⟩
    | done o =>
      rw [hc] at h0
      obtain ⟨h1, _⟩ := h0
      cases m with
      | body i => cases h1.1
      | common => cases h1.1
  obtain ⟨op, hp⟩ := hcase
  rw [hp] at h0
  obtain ⟨ha, hv, hs, hU⟩ := h0
  have hbig : (∀ l, MayGet Φ.D (held t) c.mem l → MayGet Φ.D ((held t).take m) c.mem l) ∧
      (∀ l, Owns Φ.D (held t) c.mem l → Owns Φ.D ((held t).take m) c.mem l) ∧ ((held t).take m).ok c.mem ∧
      Safe Φ.D ((held t).take m) false c.mem k := by
    cases m with
    | body i =>
      obtain ⟨_, hn, hi, hs⟩ := hs
      rw [hn]
      refine ⟨fun l hl => ?_, fun l hl => ?_, fun j hj => ?_, hs c.mem (.refl _ _)⟩
      · cases l with
        | c f => cases hl
        | next => cases hl
        | b j f => rcases hl with hl | ⟨hl, _⟩ | ⟨hl, _⟩ <;> cases hl
      · cases l with
        | c f => cases hl
        | next => cases hl
        | b j f => rcases hl with ⟨hl, _⟩ | ⟨hl, _⟩ <;> cases hl
      · cases hj; exact hi
    | common =>
      obtain ⟨_, hn, hs⟩ := hs
      refine ⟨fun l hl => ?_, fun l hl => ?_, fun j hj => I.ok t j hj, hs c.mem (.refl _ _)⟩
      · cases l with
        | c f => exact rfl
        | next => exact rfl
        | b j f =>
          rcases hl with hl | ⟨hl, _⟩ | ⟨hl, _⟩
          · exact .inl hl
          · rw [hn] at hl; cases hl
          · rw [hn] at hl; cases hl
      · cases l with
        | c f => exact rfl
        | next => exact rfl
        | b j f =>
          rcases hl with ⟨hl, _⟩ | ⟨hl, _⟩
          · exact .inl ⟨hl, .inr (.inl rfl)⟩
          · rw [hn] at hl; cases hl
  obtain ⟨hR, hX, hok, hs'⟩ := hbig
  have hap : ∀ u, u ≠ t → Apart ((held t).take m) (held u) := by
    intro u e
    have := I.apart (Ne.symm e)
    cases m with
    | body i =>
      refine ⟨fun j hj hj' => ?_, this.2⟩
      cases hj
      rw [← I.own u i, hm] at hj'
      cases hj'
    | common =>
      refine ⟨this.1, fun h => ?_⟩
      have := h.2
      rw [← I.ownc u, hm] at this
      cases this
  have hown : (∀ u h, (c.own m (some t)).owner (.body h) = some u ↔ (at' held t ((held t).take m) u).b = some h) ∧
      ∀ u, (c.own m (some t)).owner .common = some u ↔ (at' held t ((held t).take m) u).c = true := by
    cases m with
    | body i =>
      have hn : held t = .none := hs.2.1
      refine ⟨fun u h => ?_, fun u => ?_⟩
      · simp only [Cfg.own, Lk.body.injEq]
        by_cases e : u = t
        · subst e
          rw [at_same]
          by_cases e' : h = i
          · simp [e', Held.take]
          · rw [if_neg e', I.own u h, hn]
            simp [Held.take, Held.none, Ne.symm e']
        · rw [at_other _ _ e]
          by_cases e' : h = i
          · subst e'
            rw [if_pos rfl, ← I.own u h, hm]
            simp [Ne.symm e]
          · rw [if_neg e', I.own u h]
      · simp only [Cfg.own, reduceCtorEq, if_false]
        rw [I.ownc u]
        by_cases e : u = t
        · subst e; rw [at_same]; rfl
        · rw [at_other _ _ e]
    | common =>
      refine ⟨fun u h => ?_, fun u => ?_⟩
      · simp only [Cfg.own, reduceCtorEq, if_false]
        rw [I.own u h]
        by_cases e : u = t
        · subst e; rw [at_same]; rfl
        · rw [at_other _ _ e]
      · simp only [Cfg.own, if_true]
        by_cases e : u = t
        · subst e; rw [at_same]; simp [Held.take]
        · rw [at_other _ _ e, ← I.ownc u, hm]; simp [Ne.symm e]
  refine ⟨hown.1, hown.2, fun u => ?_, fun u => ?_, fun l hl => ?_, I.racy, I.good⟩
  · by_cases e : u = t
    · subst e; rw [at_same]; exact hok
    · rw [at_other _ _ e]; exact I.ok u
  · by_cases e : u = t
    · subst e
      simp only [Cfg.go, if_true, Cfg.own]
      rw [at_same, hp]
      refine ⟨ha, hv, hs', fun F hF => ?_⟩
      have : overlay Φ.D ((held u).take m) c.mem F = overlay Φ.D (held u) c.mem F := by
        funext l
        by_cases hr : MayGet Φ.D (held u) c.mem l
        · rw [overlay_rd hr, overlay_rd (hR l hr)]
        · rw [overlay_not hr]
          by_cases hr' : MayGet Φ.D ((held u).take m) c.mem l
          · rw [overlay_rd hr', hF l hr']
            refine I.clean l fun w hw => ?_
            by_cases e : w = u
            · subst e; exact hr hw.rd
            · exact hw.not_rd (hap w e).symm (I.ok w) hok hr'
          · rw [overlay_not hr']
      rw [this]
      exact hU F fun l hl => hF l (hR l hl)
    · simp only [Cfg.go, if_neg e, Cfg.own]
      rw [at_other _ _ e]; exact I.thr u
  · refine I.clean l fun u hu => ?_
    by_cases e : u = t
    · subst e
      have := hl u
      rw [at_same] at this
      exact this (hX l hu)
    · have := hl u
      rw [at_other _ _ e] at this
      exact this hu

/-- **Every step is a step of the atomic object, or none.** -/
theorem Inv.step (I : Inv Φ c A calls held) {ev : Option Event} {c' : Cfg Γ} (hs : Cfg.Step Φ.prog c ev c')
    (hal : ∀ t op, ev = some (.inv t op) → Φ.allowed op) :
    ∃ A' calls' held', Inv Φ c' A' calls' held' ∧ ATrans Φ A calls ev A' calls' := by
  cases hs with
  | inv t op ht hv =>
    have h0 := I.thr t
    rw [ht] at h0
    obtain ⟨hn, hi⟩ := h0
    refine ⟨A, at' calls t (.pending op), held, ⟨I.own, I.ownc, I.ok, fun u => ?_, I.clean, I.racy, I.good⟩, ?_⟩
    · by_cases e : u = t
      · subst e
        simp only [Cfg.go, if_true]
        rw [at_same]
        have ha := hal u op rfl
        refine ⟨ha, ?_, ?_, fun F _ => ?_⟩
        · rw [← I.racy .next trivial]; exact hv
        · rw [hn]; exact Φ.safe op ha c.mem hv
        · rw [hn]
          have : overlay Φ.D .none c.mem F = F := by
            funext l
            refine overlay_not fun h => ?_
            cases l with
            | c f => cases h
            | next => cases h
            | b j f => rcases h with h | ⟨h, _⟩ | ⟨h, _⟩ <;> cases h
          rw [this]
      · simp only [Cfg.go, if_neg e]
        rw [at_other _ _ e]; exact I.thr u
    · intro x tr hx
      exact Atomic.inv t op hx hi
  | ret t o ht =>
    have key : ∀ {A : Mem Γ} {calls : Nat → Call}, Inv Φ c A calls held → ∀ o', calls t = .done o' →
        o' = o ∧ Inv Φ (c.go t none) A (at' calls t .idle) held := by
      intro A calls I o' hp
      have h0 := I.thr t
      rw [ht, hp] at h0
      obtain ⟨h1, h2, _⟩ := h0
      refine ⟨h2.symm, ⟨I.own, I.ownc, I.ok, fun u => ?_, I.clean, I.racy, I.good⟩⟩
      by_cases e : u = t
      · subst e
        simp only [Cfg.go, if_true]
        rw [at_same]; exact ⟨h1, rfl⟩
      · simp only [Cfg.go, if_neg e]
        rw [at_other _ _ e]; exact I.thr u
    cases hp : calls t with
    | idle =>
      have h0 := I.thr t
      rw [ht, hp] at h0
      exact absurd h0 id
    | done o' =>
      obtain ⟨rfl, J⟩ := key I o' hp
      exact ⟨_, _, _, J, .ret hp⟩
    | pending op =>
      obtain ⟨h1, J⟩ := I.finish ht hp
      obtain ⟨h2, K⟩ := key J _ (at_same _ _ _)
      refine ⟨_, _, _, K, (ATrans.effect hp h1).trans ?_⟩
      rw [← h2]
      exact .ret (at_same _ _ _)
  | get t l k ht =>
    have h0 := I.thr t
    rw [ht] at h0
    cases hp : calls t with
    | idle => rw [hp] at h0; exact absurd h0 id
    | done o =>
      rw [hp] at h0
      obtain ⟨⟨h1, h2⟩ | ⟨h1, _⟩, h3, h4⟩ := h0
      · refine ⟨A, calls, held, I.go ?_, .refl _ _ _⟩
        rw [hp]
        exact ⟨h2, h3, h4⟩
      · cases h1
    | pending op =>
      rw [hp] at h0
      obtain ⟨ha, hv, ⟨h1, h2⟩ | ⟨_, ⟨f, rfl, hf⟩, h3⟩, hU⟩ := h0
      · refine ⟨A, calls, held, I.go ?_, .refl _ _ _⟩
        rw [hp]
        refine ⟨ha, hv, h2, fun F hF => ?_⟩
        have := hU F hF
        rwa [Prog.exec, overlay_rd h1] at this
      · obtain ⟨h4, J⟩ := I.peek ht hp hf (h3 _)
        exact ⟨_, _, _, J, .effect hp h4⟩
  | put t l v k ht =>
    have h0 := I.thr t
    rw [ht] at h0
    cases hp : calls t with
    | idle => rw [hp] at h0; exact absurd h0 id
    | done o =>
      rw [hp] at h0
      obtain ⟨⟨hw, ⟨h1, h2⟩ | ⟨h1, _⟩⟩, h3, h4⟩ := h0
      · refine ⟨A, calls, held, I.put hw h1 ?_, .refl _ _ _⟩
        rw [hp]
        exact ⟨h2, h3, fun l' hl => h4 l' ((hw.rd_iff (not_racy_next h1) l').1 hl)⟩
      · cases h1
    | pending op =>
      rw [hp] at h0
      obtain ⟨ha, hv, ⟨hw, ⟨h1, h2⟩ | ⟨_, h1, h2⟩⟩, hU⟩ := h0
      · refine ⟨A, calls, held, I.put hw h1 ?_, .refl _ _ _⟩
        rw [hp]
        refine ⟨ha, hv, h2, fun F hF => ?_⟩
        rw [overlay_set hw (not_racy_next h1)]
        exact hU F fun l' hl => hF l' ((hw.rd_iff (not_racy_next h1) l').2 hl)
      · obtain ⟨h4, J⟩ := I.publish ht hp hw h1 h2
        exact ⟨_, _, _, J, .effect hp h4⟩
  | lock t m k ht hm => exact ⟨_, _, _, I.lock ht hm, .refl _ _ _⟩
  | unlock t m k ht =>
    cases hp : calls t with
    | idle =>
      have h0 := I.thr t
      rw [ht, hp] at h0
      exact absurd h0 id
    | done o => exact ⟨_, _, _, I.unlock_done ht hp, .refl _ _ _⟩
    | pending op =>
      obtain ⟨h1, J⟩ := I.unlock_pending ht hp
      exact ⟨_, _, _, J, .effect hp h1⟩

theorem Inv.init (Φ : Fam Γ S) (M : Mem Γ) (hg : Φ.good M) : Inv Φ (.init M) M (fun _ => .idle) (fun _ => .none) := by
  refine ⟨fun t h => ?_, fun t => ?_, fun t h hb => (by cases hb), fun t => ⟨rfl, rfl⟩, fun l _ => rfl, fun l _ => rfl, hg⟩
  · simp [Cfg.init, Held.none]
  · simp [Cfg.init, Held.none]

/-- All calls in a trace are among those considered. -/
def AllAllowed (Φ : Fam Γ S) (tr : List Event) : Prop := ∀ t op, Event.inv t op ∈ tr → Φ.allowed op

theorem Inv.steps (Φ : Fam Γ S) {M : Mem Γ} {tr : List Event} {c : Cfg Γ} (hg : Φ.good M)
    (hs : Cfg.Steps Φ.prog (.init M) tr c) (hal : AllAllowed Φ tr) :
    ∃ A calls held, Inv Φ c A calls held ∧ Atomic Φ.step ⟨Φ.abs M, fun _ => .idle⟩ tr ⟨Φ.abs A, calls⟩ := by
  induction hs with
  | nil => exact ⟨_, _, _, .init Φ M hg, .nil _⟩
  | snoc _ hstep ih =>
    obtain ⟨A, calls, held, I, hat⟩ := ih (fun t op h => hal t op (by simp [h]))
    obtain ⟨A', calls', held', J, htr⟩ := I.step hstep fun t op h => hal t op (by simp [h])
    exact ⟨A', calls', held', J, htr _ _ hat⟩

end Verif
