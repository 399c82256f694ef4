import Verif.Spec.Pool
import Verif.Proofs.Slices
import Verif.Props.Construct

/-! # Invariant of the calls that share a buffer pool -/

set_option autoImplicit false

namespace Verif
open Spec

/-- Memory has grown, and of the old arrays only `a` may have changed, but not become shorter. -/
structure Kept (m m' : BMem) (a : Nat) : Prop where
  len : m.length ≤ m'.length
  size : ∀ b : Nat, (m[b]?.getD []).length ≤ (m'[b]?.getD []).length
  get : ∀ b, b < m.length → b ≠ a → m'[b]? = m[b]?

theorem Kept.refl (m : BMem) (a : Nat) : Kept m m a := ⟨Nat.le_refl _, fun _ => Nat.le_refl _, fun _ _ _ => rfl⟩

theorem Kept.valid {m m' : BMem} {a : Nat} (h : Kept m m' a) {t : BSlice} (ht : t.Valid m) : t.Valid m' :=
  ⟨ht.1, Nat.le_trans ht.2 (h.size _)⟩

theorem Kept.bytes {m m' : BMem} {a : Nat} (h : Kept m m' a) {t : BSlice} (ht : t.Valid m) (hn : ¬ t.Has a) : m'.bytes t = m.bytes t := by
  by_cases hc : 0 < t.cap
  · have hlt := BMem.arr_lt m t ht hc
    exact BMem.bytes_congr m m' t (h.get t.arr hlt (fun e => hn ⟨hc, e⟩))
  · have h1 := ht.1
    have h0 : t.len = 0 := by omega
    rw [BMem.bytes_empty _ _ h0, BMem.bytes_empty _ _ h0]

theorem Kept.grow (m : BMem) (x : List Byte) (a : Nat) : Kept m (m ++ [x]) a where
  len := by simp
  size b := by
    by_cases hb : b < m.length
    · rw [List.getElem?_append_left hb]; exact Nat.le_refl _
    · rw [List.getElem?_eq_none (Nat.le_of_not_lt hb)]; exact Nat.zero_le _
  get b hb _ := List.getElem?_append_left hb

theorem Kept.store (m : BMem) (s : BSlice) (d : List Byte) (h : s.Valid m) : Kept m (m.store s d) s.arr where
  len := by rw [BMem.length_store]; exact Nat.le_refl _
  size b := by
    by_cases he : s.len = 0
    · rw [BMem.store_empty m s d he]; exact Nat.le_refl _
    by_cases hb : b = s.arr
    · subst hb
      have h1 := h.1; have h2 := h.2
      rw [BMem.getD_store m s d (BMem.arr_lt m s h (by omega)), length_overwrite]
      · exact Nat.le_refl _
      · simp only [List.length_take]; omega
    · rw [BMem.get_store_ne m s d b hb]; exact Nat.le_refl _
  get b _ hb := BMem.get_store_ne m s d b hb

/-- What `append` does. -/
theorem append_spec (m : BMem) (s : BSlice) (d : List Byte) (extra : Nat) (h : s.Valid m) :
    (∀ a, (0 < s.cap → a = s.arr) → Kept m (m.append s d extra).1 a) ∧ (m.append s d extra).2.Valid (m.append s d extra).1 ∧
    (m.append s d extra).1.bytes (m.append s d extra).2 = m.bytes s ++ d ∧
    (m.append s d extra).2.len = s.len + d.length ∧
    (((m.append s d extra).2.arr = s.arr ∧ (m.append s d extra).2.cap = s.cap) ∨ (s.cap < s.len + d.length ∧ (m.append s d extra).2.arr = m.length)) := by
  have h1 := h.1; have h2 := h.2
  unfold BMem.append
  by_cases hc : s.len + d.length ≤ s.cap
  · rw [if_pos hc]
    have hv : (⟨s.arr, s.off + s.len, d.length, s.cap - s.len⟩ : BSlice).Valid m := ⟨by simp only; omega, by simp only; omega⟩
    have hk := Kept.store m ⟨s.arr, s.off + s.len, d.length, s.cap - s.len⟩ d hv
    refine ⟨?_, ⟨hc, Nat.le_trans h2 (hk.size _)⟩, ?_, rfl, .inl ⟨rfl, rfl⟩⟩
    · intro a ha
      by_cases h0 : 0 < s.cap
      · rw [ha h0]; exact hk
      · rw [BMem.store_empty _ _ _ (show d.length = 0 by omega)]; exact Kept.refl m a
    by_cases hd : d.length = 0
    · have : d = [] := List.eq_nil_of_length_eq_zero hd
      subst this
      rw [BMem.store_empty _ _ _ rfl]
      simp
    · have hlt := BMem.arr_lt m s h (by omega)
      have hg := BMem.getD_store m ⟨s.arr, s.off + s.len, d.length, s.cap - s.len⟩ d hlt
      simp only at hg
      simp only [BMem.bytes, hg, List.take_of_length_le (Nat.le_refl d.length)]
      rw [List.take_drop, List.take_drop,
        show s.off + (s.len + d.length) = s.off + s.len + d.length from by omega,
        overwrite_take _ _ _ _ (by omega) (Nat.le_refl _), List.drop_append, List.take_of_length_le (Nat.le_refl d.length)]
      simp only [List.length_take]
      rw [show s.off - min (s.off + s.len) (m[s.arr]?.getD []).length = 0 from by omega, List.drop_zero]
  · rw [if_neg hc]
    have hl := BMem.length_bytes m s h
    refine ⟨fun a _ => Kept.grow m _ a, ⟨by simp only; omega, ?_⟩, ?_, rfl, .inr ⟨by omega, rfl⟩⟩
    · simp [hl]; omega
    · simp only [BMem.bytes, List.getElem?_concat_length, Option.getD_some, List.drop_zero]
      rw [List.take_left']
      show (m.bytes s ++ d).length = _
      simp [hl]

/-! ## The invariant -/

/-- What is known about a call. -/
def JCall.Ok (m : BMem) (c : JCall) : Prop :=
  match c.st with
  | .got buf => buf.len = 0
  | .encoded buf => ∃ src, c.enc = .ok (.ok src) ∧ m.bytes buf = src
  | .conv buf pos dst => c.isPretty = true ∧ ∃ src, c.enc = .ok (.ok src) ∧ m.bytes buf = src ∧ pos ≤ src.length ∧
    m.bytes dst = crlf (src.take pos) ∧ dst.cap = (crlf src).length
  | .done data => ∃ src, c.enc = .ok (.ok src) ∧ m.bytes data = (if c.isPretty then crlf src else []) ∧
    data.cap = (if c.isPretty then crlf src else []).length
  | .panicked p => c.enc = .panics p ∨ ∃ e, c.enc = .ok (.error e) ∧ p = .error e

structure JSys.Inv (X : JSys) : Prop where
  valid : ∀ p t, X.at p = some t → t.Valid X.mem
  excl : ∀ p q t u a, p ≠ q → X.at p = some t → X.at q = some u → t.Has a → ¬ u.Has a
  ok : ∀ (i : Nat) (c : JCall), X.calls[i]? = some c → c.Ok X.mem

/-- A call keeps what is known of it, if nobody else writes to its memory. -/
theorem JCall.Ok.kept {m m' : BMem} {a : Nat} (h : Kept m m' a) {c : JCall} (hc : c.Ok m) (hv : ∀ t, c.st.held = some t ∨ c.st.made = some t → t.Valid m)
    (hn : ∀ t, c.st.held = some t ∨ c.st.made = some t → ¬ t.Has a) : c.Ok m' := by
  unfold JCall.Ok at hc ⊢
  have hb : ∀ t, c.st.held = some t ∨ c.st.made = some t → m'.bytes t = m.bytes t := fun t ht => h.bytes (hv t ht) (hn t ht)
  cases hst : c.st with
  | got buf => rw [hst] at hc; exact hc
  | encoded buf =>
    rw [hst] at hc hb
    simp only at hc ⊢
    rw [hb buf (.inl rfl)]
    exact hc
  | conv buf pos dst =>
    rw [hst] at hc hb
    simp only at hc ⊢
    rw [hb buf (.inl rfl), hb dst (.inr rfl)]
    exact hc
  | done data =>
    rw [hst] at hc hb
    simp only at hc ⊢
    rw [hb data (.inr rfl)]
    exact hc
  | panicked p => rw [hst] at hc; exact hc

/-- Slices move between places, and may get new arrays. -/
theorem excl_move {X Y : JSys} (h : X.Inv) (π : Place → Place) (hπ : ∀ p q, π p = π q → p = q) (f : Place)
    (hm : ∀ p t a, Y.at p = some t → t.Has a → (∃ s, X.at (π p) = some s ∧ s.Has a) ∨ (p = f ∧ X.mem.length ≤ a)) :
    ∀ p q t u a, p ≠ q → Y.at p = some t → Y.at q = some u → t.Has a → ¬ u.Has a := by
  intro p q t u a hne hp hq hta hua
  have low : ∀ p s, X.at p = some s → s.Has a → a < X.mem.length := by
    intro p s hs hsa
    have := BMem.arr_lt X.mem s (h.valid p s hs) hsa.1
    rw [hsa.2] at this
    exact this
  rcases hm p t a hp hta with ⟨s, h1, h2⟩ | ⟨h1, h2⟩
  · rcases hm q u a hq hua with ⟨s', h3, h4⟩ | ⟨h3, h4⟩
    · exact h.excl (π p) (π q) s s' a (fun e => hne (hπ _ _ e)) h1 h3 h2 h4
    · have := low _ _ h1 h2; omega
  · rcases hm q u a hq hua with ⟨s', h3, h4⟩ | ⟨h3, h4⟩
    · have := low _ _ h3 h4; omega
    · exact hne (h1.trans h3.symm)

/-- Exchanging two places. -/
def swapPlaces (x y p : Place) : Place := if p = x then y else if p = y then x else p

theorem swapPlaces_inj (x y p q : Place) (h : swapPlaces x y p = swapPlaces x y q) : p = q := by
  unfold swapPlaces at h
  by_cases h1 : p = x <;> by_cases h2 : p = y <;> by_cases h3 : q = x <;> by_cases h4 : q = y <;> simp_all

theorem Inv_init (m : BMem) : JSys.Inv { mem := m } := by
  refine ⟨?_, ?_, ?_⟩
  · intro p t h; cases p <;> simp [JSys.at] at h
  · intro p q t u a _ h; cases p <;> simp [JSys.at] at h
  · intro i c h; simp at h

/-- The places that belong to call `i`. -/
theorem at_calls {X : JSys} {i : Nat} {c : JCall} (hc : X.calls[i]? = some c) : X.at (.buf i) = c.st.held ∧ X.at (.dst i) = c.st.made := by
  simp [JSys.at, hc]

/-- A call makes a step. -/
theorem putBuffer_at {free : List (Option BSlice)} {back : Option BSlice} {j : Nat} {t : BSlice} (h : (putBuffer free back)[j]?.join = some t) :
    free[j]?.join = some t ∨ (j = free.length ∧ back = some t) := by
  cases back with
  | none => exact .inl h
  | some s =>
    simp only [putBuffer] at h
    rcases Nat.lt_trichotomy j free.length with hj | hj | hj
    · rw [List.getElem?_append_left hj] at h; exact .inl h
    · subst hj; right; simpa using h
    · rw [List.getElem?_eq_none (by simp; omega)] at h; cases h

theorem Inv_advance {X : JSys} (h : X.Inv) {i : Nat} {c : JCall} (hc : X.calls[i]? = some c) (m' : BMem) (st' : JSt) (back : Option BSlice) (a : Nat) (f : Place)
    (hk : Kept X.mem m' a) (ha : ∀ p t, p ≠ .buf i → p ≠ .dst i → X.at p = some t → ¬ t.Has a)
    (hheld : ∀ t, st'.held = some t → t.Valid m' ∧ ∀ b, t.Has b → (∃ s, c.st.held = some s ∧ s.Has b) ∨ (f = .buf i ∧ X.mem.length ≤ b))
    (hmade : ∀ t, st'.made = some t → t.Valid m' ∧ ∀ b, t.Has b → (∃ s, c.st.made = some s ∧ s.Has b) ∨ (f = .dst i ∧ X.mem.length ≤ b))
    (hback : ∀ t, back = some t → st'.held = none ∧ c.st.held = some t)
    (hok : ({ c with st := st' } : JCall).Ok m') :
    JSys.Inv { mem := m', free := putBuffer X.free back, calls := X.calls.set i { c with st := st' } } := by
  have hil : i < X.calls.length := by
    rcases Nat.lt_or_ge i X.calls.length with h' | h'
    · exact h'
    · rw [List.getElem?_eq_none h'] at hc; cases hc
  obtain ⟨hcb, hcd⟩ := at_calls hc
  generalize hY : ({ mem := m', free := putBuffer X.free back, calls := X.calls.set i { c with st := st' } } : JSys) = Y
  have hYm : Y.mem = m' := by rw [← hY]
  have hYb : Y.at (.buf i) = st'.held := by rw [← hY]; simp [JSys.at, hil]
  have hYd : Y.at (.dst i) = st'.made := by rw [← hY]; simp [JSys.at, hil]
  have hYk : ∀ k, k ≠ i → Y.at (.buf k) = X.at (.buf k) ∧ Y.at (.dst k) = X.at (.dst k) := by
    intro k hk; rw [← hY]; simp [JSys.at, List.getElem?_set_ne (Ne.symm hk)]
  have hYf : ∀ j t, Y.at (.free j) = some t → X.at (.free j) = some t ∨ (j = X.free.length ∧ back = some t) := by
    intro j t
    rw [← hY]
    exact putBuffer_at
  have hYfn : X.at (.free X.free.length) = none := by simp [JSys.at]
  -- a slice of another place
  have keep : ∀ p t, p ≠ .buf i → p ≠ .dst i → X.at p = some t → t.Valid m' ∧ m'.bytes t = X.mem.bytes t := by
    intro p t h1 h2 h3
    exact ⟨hk.valid (h.valid p t h3), hk.bytes (h.valid p t h3) (ha p t h1 h2 h3)⟩
  refine ⟨?_, ?_, ?_⟩
  · intro p t hp
    rw [hYm]
    cases p with
    | free j =>
      rcases hYf j t hp with h1 | ⟨h1, h2⟩
      · exact (keep _ t (by simp) (by simp) h1).1
      · have := (hback t h2).2
        rw [← hcb] at this
        exact hk.valid (h.valid _ t this)
    | buf k =>
      by_cases hki : k = i
      · subst hki; rw [hYb] at hp; exact (hheld t hp).1
      · rw [(hYk k hki).1] at hp; exact hk.valid (h.valid _ t hp)
    | dst k =>
      by_cases hki : k = i
      · subst hki; rw [hYd] at hp; exact (hmade t hp).1
      · rw [(hYk k hki).2] at hp; exact hk.valid (h.valid _ t hp)
  · cases hb : back with
    | none =>
      refine excl_move h id (fun _ _ e => e) f ?_
      intro p t b hp htb
      cases p with
      | free j =>
        rcases hYf j t hp with h1 | ⟨h1, h2⟩
        · exact .inl ⟨t, h1, htb⟩
        · rw [hb] at h2; cases h2
      | buf k =>
        by_cases hki : k = i
        · subst hki; rw [hYb] at hp
          rcases (hheld t hp).2 b htb with ⟨s, h1, h2⟩ | h1
          · exact .inl ⟨s, hcb.trans h1, h2⟩
          · exact .inr ⟨h1.1.symm, h1.2⟩
        · rw [(hYk k hki).1] at hp; exact .inl ⟨t, hp, htb⟩
      | dst k =>
        by_cases hki : k = i
        · subst hki; rw [hYd] at hp
          rcases (hmade t hp).2 b htb with ⟨s, h1, h2⟩ | h1
          · exact .inl ⟨s, hcd.trans h1, h2⟩
          · exact .inr ⟨h1.1.symm, h1.2⟩
        · rw [(hYk k hki).2] at hp; exact .inl ⟨t, hp, htb⟩
    | some u =>
      obtain ⟨hb1, hb2⟩ := hback u hb
      refine excl_move h (swapPlaces (.free X.free.length) (.buf i)) (swapPlaces_inj _ _) f ?_
      intro p t b hp htb
      cases p with
      | free j =>
        rcases hYf j t hp with h1 | ⟨h1, h2⟩
        · left
          have : j ≠ X.free.length := by intro e; subst e; rw [hYfn] at h1; cases h1
          refine ⟨t, ?_, htb⟩
          simp only [swapPlaces, Place.free.injEq, this, if_false, reduceCtorEq]
          exact h1
        · subst h1
          left
          refine ⟨u, ?_, ?_⟩
          · simp only [swapPlaces, if_true]; exact hcb.trans hb2
          · rw [hb] at h2; cases h2; exact htb
      | buf k =>
        by_cases hki : k = i
        · subst hki; rw [hYb, hb1] at hp; cases hp
        · rw [(hYk k hki).1] at hp
          refine .inl ⟨t, ?_, htb⟩
          simp only [swapPlaces, Place.buf.injEq, hki, if_false, reduceCtorEq]
          exact hp
      | dst k =>
        have hsw : swapPlaces (.free X.free.length) (.buf i) (.dst k) = .dst k := by simp [swapPlaces]
        rw [hsw]
        by_cases hki : k = i
        · subst hki; rw [hYd] at hp
          rcases (hmade t hp).2 b htb with ⟨s, h1, h2⟩ | h1
          · exact .inl ⟨s, hcd.trans h1, h2⟩
          · exact .inr ⟨h1.1.symm, h1.2⟩
        · rw [(hYk k hki).2] at hp; exact .inl ⟨t, hp, htb⟩
  · intro k d hd
    rw [hYm]
    rw [← hY] at hd
    simp only at hd
    by_cases hki : k = i
    · subst hki
      rw [List.getElem?_set_self hil] at hd
      cases hd
      exact hok
    · rw [List.getElem?_set_ne (Ne.symm hki)] at hd
      obtain ⟨e1, e2⟩ := at_calls hd
      refine JCall.Ok.kept hk (h.ok k d hd) ?_ ?_
      · rintro t (ht | ht)
        · exact h.valid (.buf k) t (e1.trans ht)
        · exact h.valid (.dst k) t (e2.trans ht)
      · rintro t (ht | ht)
        · exact ha (.buf k) t (by simp [hki]) (by simp) (e1.trans ht)
        · exact ha (.dst k) t (by simp) (by simp [hki]) (e2.trans ht)

/-- An array that nobody has. -/
theorem not_has_new {X : JSys} (h : X.Inv) (p : Place) (t : BSlice) (hp : X.at p = some t) : ¬ t.Has X.mem.length := by
  intro ht
  have := BMem.arr_lt X.mem t (h.valid p t hp) ht.1
  rw [ht.2] at this
  exact Nat.lt_irrefl _ this

/-- The array of a slice, if it has any. -/
def BSlice.array (s : BSlice) (m : BMem) : Nat := if 0 < s.cap then s.arr else m.length

theorem BSlice.array_eq (s : BSlice) (m : BMem) (h : 0 < s.cap) : s.array m = s.arr := by simp [BSlice.array, h]

theorem not_has_array {X : JSys} (h : X.Inv) (p q : Place) (t s : BSlice) (hne : p ≠ q) (hp : X.at p = some t) (hq : X.at q = some s) :
    ¬ t.Has (s.array X.mem) := by
  unfold BSlice.array
  split
  · rename_i hc
    exact h.excl q p s t s.arr (Ne.symm hne) hq hp ⟨hc, rfl⟩
  · exact not_has_new h p t hp

theorem crlf_append (a b : List Byte) : crlf (a ++ b) = crlf a ++ crlf b := by simp [crlf]

theorem crlf_take_succ (src : List Byte) (pos : Nat) (ch : Byte) (h : src[pos]? = some ch) :
    crlf (src.take (pos + 1)) = crlf (src.take pos) ++ (if ch = 10 then [13, 10] else [ch]) := by
  rw [List.take_succ, h, crlf_append]
  simp [crlf]

theorem Inv_step_call {X : JSys} (h : X.Inv) (i extra : Nat) : (X.step (.step i extra)).Inv := by
  simp only [JSys.step]
  cases hc : X.calls[i]? with
  | none => exact h
  | some c =>
    obtain ⟨hcb, hcd⟩ := at_calls hc
    have hok := h.ok i c hc
    simp only
    unfold JCall.Ok at hok
    obtain ⟨st, hst⟩ : ∃ st, c.st = st := ⟨_, rfl⟩
    cases st with
    | got buf =>
      rw [hst] at hcb hcd hok
      simp only [JSt.held, JSt.made] at hcb hcd hok
      obtain ⟨en, he⟩ : ∃ en, c.enc = en := ⟨_, rfl⟩
      cases en with
      | panics p =>
        rw [show c.advance X.mem extra = (X.mem, .panicked p, some buf) by simp only [JCall.advance, hst, he]]
        refine Inv_advance h hc X.mem (.panicked p) (some buf) X.mem.length (.buf i) (Kept.refl _ _) (fun q t _ _ => not_has_new h q t)
          (by simp [JSt.held]) (by simp [JSt.made]) (by simp [JSt.held, hst]) ?_
        exact .inl he
      | ok x =>
        cases x with
        | error e =>
          rw [show c.advance X.mem extra = (X.mem, .panicked (.error e), some buf) by simp only [JCall.advance, hst, he]]
          refine Inv_advance h hc X.mem (.panicked (.error e)) (some buf) X.mem.length (.buf i) (Kept.refl _ _) (fun q t _ _ => not_has_new h q t)
            (by simp [JSt.held]) (by simp [JSt.made]) (by simp [JSt.held, hst]) ?_
          exact .inr ⟨e, he, rfl⟩
        | ok src =>
          rw [show c.advance X.mem extra = ((X.mem.append buf src extra).1, .encoded (X.mem.append buf src extra).2, none) by
            simp only [JCall.advance, hst, he]]
          have hv := h.valid _ _ hcb
          obtain ⟨a1, a2, a3, a4, a5⟩ := append_spec X.mem buf src extra hv
          refine Inv_advance h hc _ (.encoded _) none (buf.array X.mem) (.buf i) (a1 _ (buf.array_eq X.mem)) ?_ ?_ (by simp [JSt.made]) (by simp) ?_
          · intro q t h1 _ h3
            exact not_has_array h q (.buf i) t buf h1 h3 hcb
          · intro t ht
            simp only [JSt.held, Option.some.injEq] at ht
            subst ht
            refine ⟨a2, ?_⟩
            intro b hb
            rcases a5 with ⟨a5, a6⟩ | ⟨_, a5⟩
            · left
              refine ⟨buf, by rw [hst]; rfl, by have := hb.1; omega, by rw [← a5]; exact hb.2⟩
            · right
              refine ⟨rfl, ?_⟩
              have := hb.2; omega
          · refine ⟨src, he, ?_⟩
            rw [a3, BMem.bytes_empty _ _ hok]
            rfl
    | encoded buf =>
      rw [hst] at hcb hcd hok
      simp only [JSt.held, JSt.made] at hcb hcd hok
      obtain ⟨src, he, hb⟩ := hok
      have hv := h.valid _ _ hcb
      have hl := BMem.length_bytes X.mem buf hv
      by_cases hp : c.isPretty = true
      · rw [show c.advance X.mem extra = (X.mem ++ [List.replicate (buf.len + (X.mem.bytes buf).count 10) 0],
            .conv buf 0 ⟨X.mem.length, 0, 0, buf.len + (X.mem.bytes buf).count 10⟩, none) by simp only [JCall.advance, hst, if_pos hp, BMem.makeEmpty]]
        refine Inv_advance h hc _ (.conv buf 0 _) none X.mem.length (.dst i) (Kept.grow _ _ _) (fun q t _ _ => not_has_new h q t) ?_ ?_ (by simp) ?_
        · intro t ht
          simp only [JSt.held, Option.some.injEq] at ht
          subst ht
          exact ⟨(Kept.grow X.mem _ X.mem.length).valid hv, fun b hb => .inl ⟨buf, by rw [hst]; rfl, hb⟩⟩
        · intro t ht
          simp only [JSt.made, Option.some.injEq] at ht
          subst ht
          refine ⟨⟨Nat.zero_le _, by simp⟩, ?_⟩
          intro b hb
          refine .inr ⟨rfl, ?_⟩
          have := hb.2; simp only at this; omega
        · refine ⟨hp, src, he, ?_, Nat.zero_le _, ?_, ?_⟩
          · rw [← hb]
            exact (Kept.grow X.mem _ X.mem.length).bytes hv (not_has_new h _ _ hcb)
          · simp [BMem.bytes, crlf]
          · show buf.len + (X.mem.bytes buf).count 10 = _
            rw [C25_length, ← hb, hl]
      · have hcp : X.mem.copy .nil buf = X.mem := BMem.store_empty _ _ _ rfl
        rw [show c.advance X.mem extra = (X.mem, .done .nil, some buf) by simp only [JCall.advance, hst, if_neg hp, hcp]]
        refine Inv_advance h hc X.mem (.done .nil) (some buf) X.mem.length (.buf i) (Kept.refl _ _) (fun q t _ _ => not_has_new h q t)
          (by simp [JSt.held]) ?_ (by simp [JSt.held, hst]) ?_
        · intro t ht
          simp only [JSt.made, Option.some.injEq] at ht
          subst ht
          refine ⟨BSlice.nil_valid _, ?_⟩
          intro b hb
          exact absurd hb.1 (Nat.lt_irrefl 0)
        · refine ⟨src, he, ?_, ?_⟩
          · show X.mem.bytes .nil = if c.isPretty = true then crlf src else []
            rw [if_neg hp, BMem.bytes_nil]
          · show 0 = (if c.isPretty = true then crlf src else []).length
            rw [if_neg hp]; rfl
    | conv buf pos dst =>
      rw [hst] at hcb hcd hok
      simp only [JSt.held, JSt.made] at hcb hcd hok
      obtain ⟨hp, src, he, hb, hpos, hd, hcap⟩ := hok
      have hvb := h.valid _ _ hcb
      have hvd := h.valid _ _ hcd
      cases hch : (X.mem.bytes buf)[pos]? with
      | some ch =>
        rw [show c.advance X.mem extra = ((X.mem.append dst (if ch = 10 then [13, 10] else [ch]) extra).1,
          .conv buf (pos + 1) (X.mem.append dst (if ch = 10 then [13, 10] else [ch]) extra).2, none) by simp only [JCall.advance, hst, hch]]
        obtain ⟨a1, a2, a3, a4, a5⟩ := append_spec X.mem dst (if ch = 10 then [13, 10] else [ch]) extra hvd
        have hpl : pos < src.length := by
          rw [hb] at hch
          rcases Nat.lt_or_ge pos src.length with h' | h'
          · exact h'
          · rw [List.getElem?_eq_none h'] at hch; cases hch
        have hnext : crlf (src.take (pos + 1)) = X.mem.bytes dst ++ (if ch = 10 then [13, 10] else [ch]) := by
          rw [hd, crlf_take_succ src pos ch (by rw [← hb]; exact hch)]
        have hroom : dst.len + (if ch = 10 then [13, 10] else [ch]).length ≤ dst.cap := by
          have h1 := congrArg List.length hnext
          rw [List.length_append, BMem.length_bytes _ _ hvd] at h1
          have h2 : (crlf src).length = (crlf (src.take (pos + 1))).length + (crlf (src.drop (pos + 1))).length := by
            rw [← List.length_append, ← crlf_append, List.take_append_drop]
          omega
        have a6 : (X.mem.append dst (if ch = 10 then [13, 10] else [ch]) extra).2.arr = dst.arr ∧
            (X.mem.append dst (if ch = 10 then [13, 10] else [ch]) extra).2.cap = dst.cap := by
          rcases a5 with a5 | a5
          · exact a5
          · have := a5.1; omega
        have hk := a1 _ (dst.array_eq X.mem)
        refine Inv_advance h hc _ (.conv buf (pos + 1) _) none (dst.array X.mem) (.dst i) hk ?_ ?_ ?_ (by simp) ?_
        · intro q t _ h2 h3
          exact not_has_array h q (.dst i) t dst h2 h3 hcd
        · intro t ht
          simp only [JSt.held, Option.some.injEq] at ht
          subst ht
          exact ⟨hk.valid hvb, fun b hb => .inl ⟨buf, by rw [hst]; rfl, hb⟩⟩
        · intro t ht
          simp only [JSt.made, Option.some.injEq] at ht
          subst ht
          refine ⟨a2, fun b hb => .inl ⟨dst, by rw [hst]; rfl, ?_, ?_⟩⟩
          · have := hb.1; omega
          · rw [← a6.1]; exact hb.2
        · refine ⟨hp, src, he, ?_, hpl, ?_, ?_⟩
          · rw [← hb]
            exact hk.bytes hvb (not_has_array h (.buf i) (.dst i) buf dst (by simp) hcb hcd)
          · rw [a3, hnext]
          · rw [a6.2, hcap]
      | none =>
        rw [show c.advance X.mem extra = (X.mem, .done dst, some buf) by simp only [JCall.advance, hst, hch]]
        have hpl : src.length ≤ pos := by
          rw [hb] at hch
          exact List.getElem?_eq_none_iff.1 hch
        refine Inv_advance h hc X.mem (.done dst) (some buf) X.mem.length (.buf i) (Kept.refl _ _) (fun q t _ _ => not_has_new h q t)
          (by simp [JSt.held]) ?_ (by simp [JSt.held, hst]) ?_
        · intro t ht
          simp only [JSt.made, Option.some.injEq] at ht
          subst ht
          exact ⟨hvd, fun b hb => .inl ⟨dst, by rw [hst]; rfl, hb⟩⟩
        · refine ⟨src, he, ?_, ?_⟩
          · show X.mem.bytes dst = if c.isPretty = true then crlf src else []
            rw [if_pos hp, hd, List.take_of_length_le hpl]
          · show dst.cap = (if c.isPretty = true then crlf src else []).length
            rw [if_pos hp, hcap]
    | done data =>
      rw [show c.advance X.mem extra = (X.mem, .done data, none) by simp only [JCall.advance, hst], show ({ c with st := .done data } : JCall) = c by rw [← hst],
        set_self hc]
      exact h
    | panicked p =>
      rw [show c.advance X.mem extra = (X.mem, .panicked p, none) by simp only [JCall.advance, hst],
        show ({ c with st := .panicked p } : JCall) = c by rw [← hst], set_self hc]
      exact h

theorem Inv_step {X : JSys} (h : X.Inv) (ev : JEv) (hl : X.Legal ev) : (X.step ev).Inv := by
  cases ev with
  | step i extra => exact Inv_step_call h i extra
  | call enc isPretty pick =>
    generalize hY : X.step (.call enc isPretty pick) = Y
    simp only [JSys.step] at hY
    have hn : ∀ k : Nat, k ≠ X.calls.length → Y.at (.buf k) = X.at (.buf k) ∧ Y.at (.dst k) = X.at (.dst k) := by
      intro k hk
      rw [← hY]
      rcases Nat.lt_or_ge k X.calls.length with h' | h'
      · simp [JSys.at, List.getElem?_append_left h']
      · have e1 : X.calls[k]? = none := List.getElem?_eq_none h'
        have e2 : (X.calls ++ [⟨enc, isPretty, .got (getBuffer X.free pick).2⟩])[k]? = none := List.getElem?_eq_none (by simp; omega)
        simp [JSys.at, e1, e2]
    have hb : Y.at (.buf X.calls.length) = some (getBuffer X.free pick).2 := by rw [← hY]; simp [JSys.at, JSt.held]
    have hd : Y.at (.dst X.calls.length) = none := by rw [← hY]; simp [JSys.at, JSt.made]
    have hXb : X.at (.buf X.calls.length) = none := by simp [JSys.at]
    have hm : Y.mem = X.mem := by rw [← hY]
    have hok : ∀ (i : Nat) (c : JCall), Y.calls[i]? = some c → c.Ok Y.mem := by
      intro i c hc
      rw [hm]
      rw [← hY] at hc
      simp only at hc
      rcases Nat.lt_or_ge i X.calls.length with h' | h'
      · rw [List.getElem?_append_left h'] at hc; exact h.ok i c hc
      · rw [List.getElem?_append_right h'] at hc
        cases hi : i - X.calls.length with
        | succ k => rw [hi] at hc; simp at hc
        | zero =>
          rw [hi] at hc
          simp only [List.getElem?_cons_zero, Option.some.injEq] at hc
          subst hc
          show (getBuffer X.free pick).2.len = 0
          unfold getBuffer
          split <;> rfl
    have key : (∃ s, X.at (.free pick) = some s ∧ (getBuffer X.free pick) = (X.free.set pick none, { s with len := 0 })) ∨
        (getBuffer X.free pick) = (X.free, .nil) := by
      unfold getBuffer
      cases hf : X.free[pick]? with
      | none => exact .inr rfl
      | some o =>
        cases o with
        | none => exact .inr rfl
        | some s => exact .inl ⟨s, by simp [JSys.at, hf], rfl⟩
    rcases key with ⟨s, hs, hg⟩ | hg
    · rw [hg] at hb
      have hf : ∀ j t, Y.at (.free j) = some t → j ≠ pick ∧ X.at (.free j) = some t := by
        intro j t ht
        rw [← hY, hg] at ht
        simp only [JSys.at] at ht
        by_cases hj : j = pick
        · subst hj
          rw [List.getElem?_set] at ht
          simp only [if_true] at ht
          split at ht <;> simp at ht
        · rw [List.getElem?_set_ne (Ne.symm hj)] at ht
          exact ⟨hj, ht⟩
      have hv := h.valid _ _ hs
      refine ⟨?_, ?_, hok⟩
      · intro p t hp
        rw [hm]
        cases p with
        | free j => exact h.valid _ t (hf j t hp).2
        | buf k =>
          by_cases hk : k = X.calls.length
          · subst hk; rw [hb] at hp; cases hp; exact ⟨Nat.zero_le _, hv.2⟩
          · rw [(hn k hk).1] at hp; exact h.valid _ t hp
        | dst k =>
          by_cases hk : k = X.calls.length
          · subst hk; rw [hd] at hp; cases hp
          · rw [(hn k hk).2] at hp; exact h.valid _ t hp
      · refine excl_move h (swapPlaces (.free pick) (.buf X.calls.length)) (swapPlaces_inj _ _) (.dst 0) ?_
        intro p t b hp htb
        cases p with
        | free j =>
          obtain ⟨h1, h2⟩ := hf j t hp
          refine .inl ⟨t, ?_, htb⟩
          simp only [swapPlaces, Place.free.injEq, h1, if_false, reduceCtorEq]
          exact h2
        | buf k =>
          by_cases hk : k = X.calls.length
          · subst hk
            rw [hb] at hp
            cases hp
            refine .inl ⟨s, ?_, htb⟩
            simp only [swapPlaces, reduceCtorEq, if_false, if_true]
            exact hs
          · rw [(hn k hk).1] at hp
            refine .inl ⟨t, ?_, htb⟩
            simp only [swapPlaces, Place.buf.injEq, hk, if_false, reduceCtorEq]
            exact hp
        | dst k =>
          by_cases hk : k = X.calls.length
          · subst hk; rw [hd] at hp; cases hp
          · rw [(hn k hk).2] at hp
            refine .inl ⟨t, ?_, htb⟩
            simp only [swapPlaces, if_false, reduceCtorEq]
            exact hp
    · rw [hg] at hb
      have hf : ∀ j, Y.at (.free j) = X.at (.free j) := by
        intro j
        rw [← hY, hg]
        rfl
      refine ⟨?_, ?_, hok⟩
      · intro p t hp
        rw [hm]
        cases p with
        | free j => rw [hf] at hp; exact h.valid _ t hp
        | buf k =>
          by_cases hk : k = X.calls.length
          · subst hk; rw [hb] at hp; cases hp; exact BSlice.nil_valid _
          · rw [(hn k hk).1] at hp; exact h.valid _ t hp
        | dst k =>
          by_cases hk : k = X.calls.length
          · subst hk; rw [hd] at hp; cases hp
          · rw [(hn k hk).2] at hp; exact h.valid _ t hp
      · refine excl_move h id (fun _ _ e => e) (.dst 0) ?_
        intro p t b hp htb
        cases p with
        | free j => rw [hf] at hp; exact .inl ⟨t, hp, htb⟩
        | buf k =>
          by_cases hk : k = X.calls.length
          · subst hk
            rw [hb] at hp
            cases hp
            exact absurd htb.1 (Nat.lt_irrefl 0)
          · rw [(hn k hk).1] at hp; exact .inl ⟨t, hp, htb⟩
        | dst k =>
          by_cases hk : k = X.calls.length
          · subst hk; rw [hd] at hp; cases hp
          · rw [(hn k hk).2] at hp; exact .inl ⟨t, hp, htb⟩
  | take j =>
    have hp : ∀ p t, (X.step (.take j)).at p = some t → X.at p = some t := by
      intro p t
      cases p with
      | free k =>
        simp only [JSys.step, JSys.at]
        by_cases hk : k = j
        · subst hk
          rw [List.getElem?_set]
          simp only [if_true]
          split <;> simp
        · rw [List.getElem?_set_ne (Ne.symm hk)]; exact id
      | buf k => exact id
      | dst k => exact id
    exact ⟨fun p t h1 => h.valid p t (hp p t h1), fun p q t u a hne h1 h2 => h.excl p q t u a hne (hp p t h1) (hp q u h2), h.ok⟩
  | give s =>
    obtain ⟨l1, l2, l3⟩ := hl
    have hp : ∀ p t, (X.step (.give s)).at p = some t → X.at p = some t ∨ (p = .free X.free.length ∧ t = s) := by
      intro p t
      cases p with
      | free k =>
        intro h1
        rcases putBuffer_at (free := X.free) (back := some s) h1 with h2 | ⟨h2, h3⟩
        · exact .inl h2
        · exact .inr ⟨by rw [h2], by cases h3; rfl⟩
      | buf k => exact .inl
      | dst k => exact .inl
    refine ⟨?_, ?_, h.ok⟩
    · intro p t h1
      rcases hp p t h1 with h2 | ⟨h2, h3⟩
      · exact h.valid p t h2
      · subst h3; exact ⟨l1, l2⟩
    · intro p q t u a hne h1 h2 hta hua
      rcases hp p t h1 with h3 | ⟨h3, h4⟩
      · rcases hp q u h2 with h5 | ⟨h5, h6⟩
        · exact h.excl p q t u a hne h3 h5 hta hua
        · subst h6
          have := hua.2
          subst this
          exact l3 p t h3 hua hta
      · rcases hp q u h2 with h5 | ⟨h5, h6⟩
        · subst h4
          have := hta.2
          subst this
          exact l3 q u h5 hta hua
        · exact hne (h3.trans h5.symm)
  | write s d =>
    obtain ⟨l1, l2, l3⟩ := hl
    have hk := Kept.store X.mem s d ⟨l1, l2⟩
    refine ⟨fun p t h1 => hk.valid (h.valid p t h1), h.excl, ?_⟩
    intro i c hc
    obtain ⟨e1, e2⟩ := at_calls hc
    refine JCall.Ok.kept hk (h.ok i c hc) ?_ ?_
    · rintro t (ht | ht)
      · exact h.valid (.buf i) t (e1.trans ht)
      · exact h.valid (.dst i) t (e2.trans ht)
    · rintro t (ht | ht)
      · exact l3 i t (.inl (e1.trans ht))
      · exact l3 i t (.inr (e2.trans ht))
  | alloc d =>
    have hk := Kept.grow X.mem d X.mem.length
    refine ⟨fun p t h1 => hk.valid (h.valid p t h1), h.excl, ?_⟩
    intro i c hc
    obtain ⟨e1, e2⟩ := at_calls hc
    refine JCall.Ok.kept hk (h.ok i c hc) ?_ ?_
    · rintro t (ht | ht)
      · exact h.valid (.buf i) t (e1.trans ht)
      · exact h.valid (.dst i) t (e2.trans ht)
    · rintro t (ht | ht)
      · exact not_has_new h (.buf i) t (e1.trans ht)
      · exact not_has_new h (.dst i) t (e2.trans ht)

theorem Inv_run {X : JSys} (h : X.Inv) (evs : List JEv) (hl : X.LegalRun evs) : (X.run evs).Inv := by
  induction evs generalizing X with
  | nil => exact h
  | cons ev evs ih => exact ih (Inv_step h ev hl.1) hl.2

end Verif
