import Verif.Proofs.WriteBack
import Verif.Spec.Concurrent

/-!
# Writers that call back: accesses to fields

`Guarded Q H₀ lo fr H p`: a goroutine that holds the mutexes `H`, knows that the Bodies with numbers below `lo` exist, is making Body `fr` (if any), and has yet to execute
`p`, accesses the fields of a Body only if that exists and its mutex is held, or it is being made; and the number of Bodies only with the mutex for that.  It ends with the
mutexes `H₀`.
-/

set_option autoImplicit false

namespace Verif
variable {Γ : Sig}

def mayGet (lo : Nat) (H : List Lk) : Loc Γ → Prop
  | .c _ => False
  | .b h _ => Lk.body h ∈ H ∧ h < lo
  | .next => Lk.common ∈ H

def mayPut (lo : Nat) (fr : Option Nat) (H : List Lk) : (l : Loc Γ) → l.Val → Prop
  | .c _, _ => False
  | .b h _, _ => (Lk.body h ∈ H ∧ h < lo) ∨ fr = some h
  | .next, v => ∃ i, fr = some i ∧ v = i + 1

def isNext (lo : Nat) : (l : Loc Γ) → l.Val → Prop
  | .next, v => lo ≤ v
  | _, _ => True

def freshGet (fr : Option Nat) : (l : Loc Γ) → l.Val → Option Nat
  | .next, v => some v
  | _, _ => fr

def freshPut (fr : Option Nat) : Loc Γ → Option Nat
  | .next => none
  | _ => fr

def lowPut (lo : Nat) : (l : Loc Γ) → l.Val → Nat
  | .next, v => v
  | _, _ => lo

def Guarded (Q : Nat → Out → Prop) (H₀ : List Lk) : Nat → Option Nat → List Lk → Prog Γ → Prop
  | lo, fr, H, .ret o => H = H₀ ∧ fr = none ∧ Q lo o
  | _, _, _, .stuck => True
  | lo, fr, H, .get l k => mayGet lo H l ∧ ∀ v, isNext lo l v → Guarded Q H₀ lo (freshGet fr l v) H (k v)
  | lo, fr, H, .put l v k => mayPut lo fr H l v ∧ Guarded Q H₀ (lowPut lo l v) (freshPut fr l) H k
  | lo, fr, H, .lock m k => m ∉ H → Guarded Q H₀ lo fr (m :: H) k
  | lo, fr, H, .unlock m k => m ∈ H ∧ (m = .common → fr = none) ∧ Guarded Q H₀ lo fr (H.filter (· ≠ m)) k

theorem Guarded.bind {Q R : Nat → Out → Prop} {H₁ H₀ : List Lk} {q : Prog Γ} {k : Out → Prog Γ} (hk : ∀ lo o, R lo o → Guarded Q H₁ lo none H₀ (k o)) :
    ∀ {lo : Nat} {fr : Option Nat} {H : List Lk}, Guarded R H₀ lo fr H q → Guarded Q H₁ lo fr H (q.bind k) := by
  induction q with
  | ret o =>
    intro lo fr H h
    obtain ⟨rfl, rfl, h⟩ := h
    exact hk lo o h
  | stuck => exact fun _ => trivial
  | get l k ih => exact fun h => ⟨h.1, fun v hv => ih v (h.2 v hv)⟩
  | put l v k ih => exact fun h => ⟨h.1, ih h.2⟩
  | lock m k ih => exact fun h hm => ih (h hm)
  | unlock m k ih => exact fun h => ⟨h.1, h.2.1, ih h.2.2⟩

/-- What every goroutine holds, knows and is making. -/
structure Sound (c : Cfg Γ) (held : Nat → List Lk) (lo : Nat → Nat) (fr : Nat → Option Nat) : Prop where
  own : ∀ t m, c.owner m = some t ↔ m ∈ held t
  thr : ∀ t p, c.thr t = some p → Guarded (fun _ _ => True) [] (lo t) (fr t) (held t) p
  idle : ∀ t, c.thr t = none → held t = [] ∧ fr t = none
  low : ∀ t, lo t ≤ c.mem .next
  fresh : ∀ t i, fr t = some i → i = c.mem .next ∧ Lk.common ∈ held t

theorem Sound.init (M : Mem Γ) : Sound (Cfg.init M) (fun _ => []) (fun _ => 0) (fun _ => none) where
  own t m := by simp [Cfg.init]
  thr t p h := by cases h
  idle t _ := ⟨rfl, rfl⟩
  low t := Nat.zero_le _
  fresh t i h := by cases h

/-- No two goroutines hold a mutex. -/
theorem Sound.alone {c : Cfg Γ} {held : Nat → List Lk} {lo : Nat → Nat} {fr : Nat → Option Nat} (I : Sound c held lo fr) {t u : Nat} {m : Lk} (h : m ∈ held t)
    (h' : m ∈ held u) : t = u := by
  have h1 := (I.own t m).2 h
  rw [(I.own u m).2 h'] at h1
  cases h1
  rfl

theorem Sound.move {c d : Cfg Γ} {held : Nat → List Lk} {lo : Nat → Nat} {fr : Nat → Option Nat} (I : Sound c held lo fr) {t : Nat} {p : Prog Γ} {a : Nat} {b : Option Nat}
    (ho : d.owner = c.owner) (ht : ∀ u, d.thr u = if u = t then some p else c.thr u) (hp : Guarded (fun _ _ => True) [] a b (held t) p)
    (hl : c.mem .next ≤ d.mem .next) (hn : d.mem .next = c.mem .next ∨ Lk.common ∈ held t) (ha : a ≤ d.mem .next)
    (hb : ∀ i, b = some i → i = d.mem .next ∧ Lk.common ∈ held t) :
    Sound d held (fun u => if u = t then a else lo u) (fun u => if u = t then b else fr u) where
  own u m := by rw [ho]; exact I.own u m
  thr u q hq := by
    rw [ht] at hq
    split at hq
    next e => cases hq; cases e; simpa using hp
    next e => simpa [e] using I.thr u q hq
  idle u hu := by
    rw [ht] at hu
    split at hu
    · cases hu
    next e => simpa [e] using I.idle u hu
  low u := by
    by_cases e : u = t
    · rw [if_pos e]; exact ha
    · rw [if_neg e]; exact Nat.le_trans (I.low u) hl
  fresh u i hi := by
    split at hi
    next e => subst e; exact hb i hi
    next e =>
      obtain ⟨h1, h2⟩ := I.fresh u i hi
      rcases hn with hn | hn
      · exact ⟨by rw [hn]; exact h1, h2⟩
      · exact absurd (I.alone h2 hn) e

theorem Sound.step {prog : Op → Prog Γ} {c d : Cfg Γ} {ev : Option Event} {held : Nat → List Lk} {lo : Nat → Nat} {fr : Nat → Option Nat} (I : Sound c held lo fr) {K : Nat}
    (hK : K ≤ c.mem .next) (hp : ∀ N op, K ≤ N → op.h < N → Guarded (fun _ _ => True) [] N none [] (prog op)) (h : Cfg.Step prog c ev d) :
    (∃ held lo fr, Sound d held lo fr) ∧ K ≤ d.mem .next := by
  cases h with
  | inv t op ht hx =>
    refine ⟨⟨held, _, _, I.move (t := t) (a := c.mem .next) (b := none) rfl (fun u => rfl) ?_ (Nat.le_refl _) (.inl rfl) (Nat.le_refl _) (fun i h => by cases h)⟩, hK⟩
    rw [(I.idle t ht).1]
    exact hp _ op hK hx
  | ret t o ht =>
    obtain ⟨h0, h1, _⟩ := I.thr t _ ht
    refine ⟨⟨held, lo, fr, I.own, fun u q hq => ?_, fun u hu => ?_, I.low, I.fresh⟩, hK⟩
    · dsimp only [Cfg.go] at hq
      split at hq
      · cases hq
      · exact I.thr u q hq
    · dsimp only [Cfg.go] at hu
      split at hu
      next e => rw [e]; exact ⟨h0, h1⟩
      · exact I.idle u hu
  | get t l k ht =>
    obtain ⟨h1, h2⟩ := I.thr t _ ht
    refine ⟨⟨held, _, _, I.move (t := t) (a := lo t) (b := freshGet (fr t) l (c.mem l)) rfl (fun u => rfl) (h2 _ ?_) (Nat.le_refl _) (.inl rfl) (I.low t) ?_⟩, hK⟩
    · cases l with
      | next => exact I.low t
      | _ => trivial
    · intro i hi
      cases l with
      | next =>
        cases hi
        exact ⟨rfl, h1⟩
      | _ => exact I.fresh t i hi
  | put t l v k ht =>
    obtain ⟨h1, h2⟩ := I.thr t _ ht
    cases l with
    | c f => exact h1.elim
    | b h f =>
      have e : (c.mem.set (.b h f) v) .next = c.mem .next := by simp [Mem.set]
      refine ⟨⟨held, _, _, I.move (t := t) (a := lo t) (b := fr t) rfl (fun u => rfl) h2 (Nat.le_of_eq e.symm) (.inl e) (by show _ ≤ (c.mem.set (.b h f) v) .next; rw [e]; exact I.low t) ?_⟩, ?_⟩
      · intro i hi
        show i = (c.mem.set (.b h f) v) .next ∧ _
        rw [e]
        exact I.fresh t i hi
      · show _ ≤ (c.mem.set (.b h f) v) .next
        rw [e]
        exact hK
    | next =>
      obtain ⟨i, hi, rfl⟩ := h1
      obtain ⟨rfl, h3⟩ := I.fresh t i hi
      have e : (c.mem.set .next (c.mem .next + 1 : Nat)) .next = (c.mem .next + 1 : Nat) := by simp [Mem.set]
      refine ⟨⟨held, _, _, I.move (t := t) (a := c.mem .next + 1) (b := none) rfl (fun u => rfl) h2 ?_ (.inr h3) ?_ (fun i h => by cases h)⟩, ?_⟩
      · show c.mem .next ≤ (c.mem.set .next (c.mem .next + 1 : Nat)) .next
        rw [e]; exact Nat.le_succ _
      · show _ ≤ (c.mem.set .next (c.mem .next + 1 : Nat)) .next
        rw [e]; exact Nat.le_refl _
      · show K ≤ (c.mem.set .next (c.mem .next + 1 : Nat)) .next
        rw [e]; exact Nat.le_succ_of_le hK
  | lock t m k ht hm =>
    have hn : ∀ u, m ∉ held u := fun u hu => by rw [(I.own u m).2 hu] at hm; cases hm
    refine ⟨⟨fun u => if u = t then m :: held t else held u, lo, fr, fun u n => ?_, fun u q hq => ?_, fun u hu => ?_, I.low, fun u i hi => ?_⟩, hK⟩
    · dsimp only [Cfg.go, Cfg.own]
      by_cases e : n = m
      · subst e
        by_cases e' : u = t
        · subst e'; simp
        · simp only [if_pos, Option.some.injEq, if_neg e']
          exact ⟨fun h => absurd h.symm e', fun h => absurd h (hn u)⟩
      · rw [if_neg e, I.own]
        split
        next e' => subst e'; simp [e]
        · rfl
    · dsimp only [Cfg.go] at hq
      split at hq
      next e => cases hq; subst e; simpa using I.thr u _ ht (hn u)
      next e => rw [if_neg e]; exact I.thr u q hq
    · dsimp only [Cfg.go] at hu
      split at hu
      · cases hu
      next e => rw [if_neg e]; exact I.idle u hu
    · obtain ⟨h1, h2⟩ := I.fresh u i hi
      refine ⟨h1, ?_⟩
      split
      next e => subst e; exact List.mem_cons_of_mem _ h2
      · exact h2
  | unlock t m k ht =>
    obtain ⟨h1, h2, h3⟩ := I.thr t _ ht
    have hn : ∀ u, u ≠ t → m ∉ held u := fun u e hu => e (I.alone hu h1)
    refine ⟨⟨fun u => if u = t then (held t).filter (· ≠ m) else held u, lo, fr, fun u n => ?_, fun u q hq => ?_, fun u hu => ?_, I.low, fun u i hi => ?_⟩, hK⟩
    · dsimp only [Cfg.go, Cfg.own]
      by_cases e : n = m
      · subst e
        by_cases e' : u = t
        · subst e'; simp
        · simp [if_neg e', hn u e']
      · rw [if_neg e, I.own]
        split
        next e' => subst e'; simp [e]
        · rfl
    · dsimp only [Cfg.go] at hq
      split at hq
      next e => cases hq; subst e; simpa using h3
      next e => rw [if_neg e]; exact I.thr u q hq
    · dsimp only [Cfg.go] at hu
      split at hu
      · cases hu
      next e => rw [if_neg e]; exact I.idle u hu
    · obtain ⟨h4, h5⟩ := I.fresh u i hi
      refine ⟨h4, ?_⟩
      split
      next e =>
        subst e
        refine List.mem_filter.2 ⟨h5, ?_⟩
        have : Lk.common ≠ m := fun e => by rw [h2 e.symm] at hi; cases hi
        simpa using this
      · exact h5

theorem Sound.steps {prog : Op → Prog Γ} {M : Mem Γ} (hp : ∀ N op, M .next ≤ N → op.h < N → Guarded (fun _ _ => True) [] N none [] (prog op)) {tr : List Event} {c : Cfg Γ}
    (h : Cfg.Steps prog (.init M) tr c) : (∃ held lo fr, Sound c held lo fr) ∧ M .next ≤ c.mem .next := by
  induction h with
  | nil => exact ⟨⟨_, _, _, Sound.init M⟩, Nat.le_refl _⟩
  | snoc _ hstep ih =>
    obtain ⟨⟨held, lo, fr, I⟩, hK⟩ := ih
    exact I.step hK hp hstep

/-- The same variable, by two goroutines, one of which writes. -/
theorem Sound.noRace {c : Cfg Γ} {held : Nat → List Lk} {lo : Nat → Nat} {fr : Nat → Option Nat} (I : Sound c held lo fr) : ¬ Spec.Race c := by
  rintro ⟨t, u, l, htu, ⟨v, k, ht⟩, hu⟩
  have h1 := (I.thr t _ ht).1
  have hu' : mayGet (lo u) (held u) l ∨ ∃ v, mayPut (lo u) (fr u) (held u) l v := by
    rcases hu with ⟨k, hu⟩ | ⟨v, k, hu⟩
    · exact .inl (I.thr u _ hu).1
    · exact .inr ⟨v, (I.thr u _ hu).1⟩
  have ex : ∀ {a b : Nat} {h : Nat}, h < lo a → fr b = some h → False := by
    intro a b h h1 h2
    rw [(I.fresh b h h2).1] at h1
    exact Nat.lt_irrefl _ (Nat.lt_of_lt_of_le h1 (I.low a))
  cases l with
  | c f => exact h1
  | next =>
    obtain ⟨i, hi, _⟩ := h1
    have hc := (I.fresh t i hi).2
    rcases hu' with h2 | ⟨_, j, hj, _⟩
    · exact htu (I.alone hc h2)
    · exact htu (I.alone hc (I.fresh u j hj).2)
  | b h f =>
    have hu'' : (Lk.body h ∈ held u ∧ h < lo u) ∨ fr u = some h := by
      rcases hu' with h2 | ⟨_, h2⟩
      · exact .inl h2
      · exact h2
    rcases h1 with ⟨h1, h1'⟩ | h1 <;> rcases hu'' with ⟨h2, h2'⟩ | h2
    · exact htu (I.alone h1 h2)
    · exact ex h1' h2
    · exact ex h2' h1
    · exact htu (I.alone (I.fresh t h h1).2 (I.fresh u h h2).2)

namespace ConcBytes
open Spec

/-- After a call: the goroutine knows what it knew, and the Body that `Copy` has made. -/
def Knew (N : Nat) (lo : Nat) (o : Out) : Prop := N ≤ lo ∧ ∀ i, o = .copied i → i < lo

variable {B : List Lk} {h N : Nat}

theorem guarded_quit {Q : Nat → Out → Prop} {o : Out} (hm : Lk.body h ∉ B) (hQ : Q N o) : Guarded (Γ := bytesSig) Q B N none (.body h :: B) (quit h o) :=
  ⟨by simp, fun _ => rfl, filter_cons_self hm, rfl, hQ⟩

theorem guarded_get {Q : Nat → Out → Prop} {f : BytesF} {k : bytesSig.BV f → P} {H : List Lk} (hh : h < N) (hk : ∀ v, Guarded Q B N none (.body h :: H) (k v)) :
    Guarded (Γ := bytesSig) Q B N none (.body h :: H) (.get (.b h f) k) := ⟨⟨List.mem_cons_self .., hh⟩, fun v _ => hk v⟩

theorem guarded_put {Q : Nat → Out → Prop} {f : BytesF} {v : bytesSig.BV f} {k : P} {H : List Lk} (hh : h < N) (hk : Guarded Q B N none (.body h :: H) k) :
    Guarded (Γ := bytesSig) Q B N none (.body h :: H) (.put (.b h f) v k) := ⟨.inl ⟨List.mem_cons_self .., hh⟩, hk⟩

theorem knew {o : Out} (ho : ∀ i, o ≠ .copied i) : Knew N N o := ⟨Nat.le_refl _, fun i e => absurd e (ho i)⟩

theorem guarded_written {r : XResp (Int × Option Err)} {i j : Int} {d : List Byte} {M : Nat} (hM : M ≤ N) (hm : Lk.body h ∉ B) (hh : h < N) :
    Guarded (Γ := bytesSig) (Knew M) B N none (.body h :: B) (written h i j d r) := by
  have q : ∀ o : Out, (∀ i, o ≠ .copied i) → Guarded (Γ := bytesSig) (Knew M) B N none (.body h :: B) (quit h o) := fun o ho =>
    guarded_quit hm ⟨hM, fun i e => absurd e (ho i)⟩
  unfold written
  split
  · exact q _ (fun _ e => by cases e)
  · split
    · exact q _ (fun _ e => by cases e)
    · split
      · exact q _ (fun _ e => by cases e)
      · exact guarded_get hh fun v => guarded_put hh (guarded_put hh (q _ (fun _ e => by cases e)))

theorem prog_guarded (op : Op) (hh : op.h < N) : Guarded (Knew N) B N none B (prog op) := by
  cases op with
  | unwrap h => exact ⟨rfl, rfl, knew fun _ e => by cases e⟩
  | copy h =>
    have hh : h < N := hh
    intro hm
    refine guarded_get hh fun v => ?_
    try dsimp only
    split
    · exact guarded_quit hm (knew fun _ e => by cases e)
    refine guarded_get hh fun v1 => guarded_get hh fun v2 => guarded_get hh fun v3 => guarded_get hh fun v4 => fun hc => ⟨List.mem_cons_self .., fun i hi => ?_⟩
    refine ⟨.inr rfl, .inr rfl, .inr rfl, .inr rfl, ⟨i, rfl, rfl⟩, List.mem_cons_self .., fun _ => rfl, ?_⟩
    rw [filter_cons_self hc]
    have hi : N ≤ i := hi
    exact guarded_quit hm ⟨Nat.le_succ_of_le hi, fun j e => by cases e; exact Nat.lt_succ_self _⟩
  | writeTo h w =>
    have hh : h < N := hh
    intro hm
    refine guarded_get hh fun v => ?_
    try dsimp only
    split
    · exact guarded_quit hm (knew fun _ e => by cases e)
    refine guarded_get hh fun v => ?_
    try dsimp only
    split
    · exact guarded_quit hm (knew fun _ e => by cases e)
    refine guarded_get hh fun v => guarded_get hh fun v => ?_
    try dsimp only
    split
    · exact guarded_quit hm (knew fun _ e => by cases e)
    exact guarded_written (r := w _) (j := _) (Nat.le_refl _) hm hh
  | read h k =>
    have hh : h < N := hh
    intro hm
    repeat' first
      | exact guarded_quit hm (knew fun _ e => by cases e)
      | refine guarded_put hh ?_
      | (refine guarded_get hh fun v => ?_; try dsimp only)
      | split
  | readAt h k off =>
    have hh : h < N := hh
    intro hm
    repeat' first
      | exact guarded_quit hm (knew fun _ e => by cases e)
      | refine guarded_put hh ?_
      | (refine guarded_get hh fun v => ?_; try dsimp only)
      | split
  | seek h off wh =>
    have hh : h < N := hh
    intro hm
    repeat' first
      | exact guarded_quit hm (knew fun _ e => by cases e)
      | refine guarded_put hh ?_
      | (refine guarded_get hh fun v => ?_; try dsimp only)
      | split
  | remaining h =>
    have hh : h < N := hh
    intro hm
    repeat' first
      | exact guarded_quit hm (knew fun _ e => by cases e)
      | refine guarded_put hh ?_
      | (refine guarded_get hh fun v => ?_; try dsimp only)
      | split
  | close h =>
    have hh : h < N := hh
    intro hm
    repeat' first
      | exact guarded_quit hm (knew fun _ e => by cases e)
      | refine guarded_put hh ?_
      | (refine guarded_get hh fun v => ?_; try dsimp only)
      | split

theorem _root_.Verif.Spec.Knows.mono {a : Nat} : ∀ {x : WriterDoes} {b : Nat}, a ≤ b → Knows a x → Knows b x := by
  intro x
  induction x generalizing a with
  | answer r => exact fun _ _ => trivial
  | call op next ih =>
    intro b hab hx
    exact ⟨Nat.lt_of_lt_of_le hx.1 hab, fun o ho => ih o hab (hx.2.1 o ho), fun i => ih _ (by omega) (hx.2.2 i)⟩

theorem guarded_after {prog' : Op → P} {H : List Lk} {K M : Nat} {Q : Nat → Out → Prop} (hp : ∀ N op, K ≤ N → op.h < N → Guarded (Knew N) H N none H (prog' op))
    (k : XResp (Int × Option Err) → P) (hk : ∀ N r, M ≤ N → Guarded Q B N none H (k r)) : ∀ (x : WriterDoes) (N : Nat), K ≤ N → M ≤ N → Knows N x →
    Guarded Q B N none H (Prog.after prog' x k) := by
  intro x
  induction x with
  | answer r => exact fun N _ hM _ => hk N r hM
  | call op next ih =>
    intro N hK hM hx
    refine Guarded.bind (R := Knew N) (fun lo o ho => ?_) (hp N op hK hx.1)
    refine ih o lo (Nat.le_trans hK ho.1) (Nat.le_trans hM ho.1) ?_
    by_cases hc : ∃ i, o = .copied i
    · obtain ⟨i, rfl⟩ := hc
      exact (hx.2.2 i).mono (by have := ho.1; have := ho.2 i rfl; omega)
    · exact (hx.2.1 o fun i e => hc ⟨i, e⟩).mono ho.1

theorem back_guarded {calls : WriterCalls} {K : Nat} (hc : ∀ h w d, Knows (max K (h + 1)) (calls h w d)) (n : Nat) : ∀ (B : List Lk) (N : Nat) (op : Op), K ≤ N → op.h < N →
    Guarded (Knew N) B N none B (backProg calls n op) := by
  induction n with
  | zero => exact fun B N op _ hh => prog_guarded op hh
  | succ n ih =>
    intro B N op hK hh
    cases op with
    | writeTo h w =>
      have hh : h < N := hh
      intro hm
      refine guarded_get hh fun v => ?_
      try dsimp only
      split
      · exact guarded_quit hm (knew fun _ e => by cases e)
      refine guarded_get hh fun v => ?_
      try dsimp only
      split
      · exact guarded_quit hm (knew fun _ e => by cases e)
      refine guarded_get hh fun i => guarded_get hh fun data => ?_
      try dsimp only
      split
      · exact guarded_quit hm (knew fun _ e => by cases e)
      next d hd =>
        exact guarded_after (M := N) (fun N op => ih (.body h :: B) N op) _ (fun N' r hN => guarded_written hN hm (Nat.lt_of_lt_of_le hh hN)) _ N hK (Nat.le_refl _)
          ((hc h w d).mono (by omega))
    | _ => exact prog_guarded _ hh

end ConcBytes
end Verif
