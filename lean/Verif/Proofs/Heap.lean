import Verif.Spec.Builder
import Verif.Proofs.Text

/-!
# Ownership of maps and arrays

Every map and array allocated by the package is thought to belong to a Builder or to be part of a Response (`Tag`).
-/

set_option autoImplicit false

namespace Verif

open Spec

/-- The owner of a map or an array. -/
inductive Tag where
  | bld (h : Nat)
  | rsp
deriving DecidableEq

/-- The slice lies within its array. -/
def Slice.Valid (H : Heap) (s : Slice) : Prop := s.len ≤ s.cap ∧ s.off + s.cap ≤ (H.arr s.arr).length

/-- Maps have each key once, and slices lie within their arrays. -/
def Heap.WF (H : Heap) : Prop :=
  ∀ r, (H.map r).Pairwise (fun a b => a.1 ≠ b.1) ∧ ∀ e ∈ H.map r, e.2.Valid H

/-- The array of the slice (if any) belongs to `t`. -/
def Slice.Owned (oa : Nat → Tag) (t : Tag) (s : Slice) : Prop := s.cap = 0 ∨ ∃ j, s.arr = .own j ∧ oa j = t

/-- The slices have no element in common. -/
def Slice.Sep (a b : Slice) : Prop := a.cap = 0 ∨ b.cap = 0 ∨ a.arr ≠ b.arr

/-- The map belongs to `t`, all of it, and contains `f`. -/
structure HoldsAt (om oa : Nat → Tag) (t : Tag) (H : Heap) (i : Nat) (f : Hdrs) : Prop where
  lt : i < H.ownMaps.length
  tag : om i = t
  owned : ∀ e ∈ H.map (.own i), e.2.Owned oa t
  sep : (H.map (.own i)).Pairwise (fun a b => a.2.Sep b.2)
  lookup : H.lookup (some (.own i)) = f

/-- The same for a map that may be nil. -/
def Holds (om oa : Nat → Tag) (t : Tag) (H : Heap) (m : Option Ref) (f : Hdrs) : Prop :=
  (m = none ∧ f = .none) ∨ ∃ i, m = some (.own i) ∧ HoldsAt om oa t H i f

/-- What is not yet allocated belongs to `t`. -/
def FreshTo (om oa : Nat → Tag) (t : Tag) (H : Heap) : Prop :=
  (∀ i, H.ownMaps.length ≤ i → om i = t) ∧ ∀ j, H.ownArrs.length ≤ j → oa j = t

/-- `H'` differs from `H` only in what belongs to `t`. -/
structure Upd (om oa : Nat → Tag) (t : Tag) (H H' : Heap) : Prop where
  wf : H'.WF
  extArrs : H'.extArrs = H.extArrs
  extMaps : H'.extMaps = H.extMaps
  mapsLe : H.ownMaps.length ≤ H'.ownMaps.length
  arrsLe : H.ownArrs.length ≤ H'.ownArrs.length
  maps : ∀ i, om i ≠ t → H'.map (.own i) = H.map (.own i)
  arrs : ∀ j, oa j ≠ t → H'.arr (.own j) = H.arr (.own j)

variable {om oa : Nat → Tag} {t : Tag} {H H' H'' : Heap}

theorem Upd.refl (h : H.WF) : Upd om oa t H H := ⟨h, rfl, rfl, Nat.le_refl _, Nat.le_refl _, fun _ _ => rfl, fun _ _ => rfl⟩

theorem Upd.trans (h : Upd om oa t H H') (h' : Upd om oa t H' H'') : Upd om oa t H H'' where
  wf := h'.wf
  extArrs := h'.extArrs.trans h.extArrs
  extMaps := h'.extMaps.trans h.extMaps
  mapsLe := Nat.le_trans h.mapsLe h'.mapsLe
  arrsLe := Nat.le_trans h.arrsLe h'.arrsLe
  maps i hi := (h'.maps i hi).trans (h.maps i hi)
  arrs i hi := (h'.arrs i hi).trans (h.arrs i hi)

theorem FreshTo.mono (h : FreshTo om oa t H) (u : Upd om oa t H H') : FreshTo om oa t H' :=
  ⟨fun i hi => h.1 i (Nat.le_trans u.mapsLe hi), fun i hi => h.2 i (Nat.le_trans u.arrsLe hi)⟩

/-! ## Basic facts -/

namespace Heap

@[simp] theorem lookup_none (H : Heap) : H.lookup none = Hdrs.none := rfl

theorem arr_own_ge (H : Heap) {j : Nat} (h : H.ownArrs.length ≤ j) : H.arr (.own j) = [] := by
  simp [arr, List.getElem?_eq_none h]

theorem map_own_ge (H : Heap) {j : Nat} (h : H.ownMaps.length ≤ j) : H.map (.own j) = [] := by
  simp [map, List.getElem?_eq_none h]

@[simp] theorem arr_setMap (H : Heap) (r : Ref) (m : List (GoStr × Slice)) (r' : Ref) : (H.setMap r m).arr r' = H.arr r' := by
  cases r <;> cases r' <;> rfl

@[simp] theorem map_setArr (H : Heap) (r : Ref) (a : List GoStr) (r' : Ref) : (H.setArr r a).map r' = H.map r' := by
  cases r <;> cases r' <;> rfl

@[simp] theorem map_newArr (H : Heap) (a : List GoStr) (r' : Ref) : (H.newArr a).1.map r' = H.map r' := by
  cases r' <;> rfl

@[simp] theorem strings_setMap (H : Heap) (r : Ref) (m : List (GoStr × Slice)) (s : Slice) :
    (H.setMap r m).strings s = H.strings s := by
  simp [strings]

theorem map_setMap_ne (H : Heap) {r r' : Ref} (m : List (GoStr × Slice)) (h : r' ≠ r) : (H.setMap r m).map r' = H.map r' := by
  cases r <;> cases r' <;> simp_all [map, setMap, eq_comm]
  all_goals rename_i i j; rw [if_neg (fun e => h e.symm)]

theorem map_setMap_own (H : Heap) {i : Nat} (h : i < H.ownMaps.length) (m : List (GoStr × Slice)) :
    (H.setMap (.own i) m).map (.own i) = m := by
  simp [map, setMap, h]

theorem arr_setArr_ne (H : Heap) {r r' : Ref} (m : List GoStr) (h : r' ≠ r) : (H.setArr r m).arr r' = H.arr r' := by
  cases r <;> cases r' <;> simp_all [arr, setArr, eq_comm]
  all_goals rename_i i j; rw [if_neg (fun e => h e.symm)]

theorem arr_setArr_own (H : Heap) {i : Nat} (h : i < H.ownArrs.length) (m : List GoStr) :
    (H.setArr (.own i) m).arr (.own i) = m := by
  simp [arr, setArr, h]

theorem arr_newArr_new (H : Heap) (a : List GoStr) : (H.newArr a).1.arr (.own H.ownArrs.length) = a := by
  simp [arr, newArr]

theorem arr_newArr_old (H : Heap) (a : List GoStr) {r : Ref} (h : r ≠ .own H.ownArrs.length) :
    (H.newArr a).1.arr r = H.arr r := by
  cases r with
  | ext i => rfl
  | own i =>
    simp only [arr, newArr]
    rcases Nat.lt_trichotomy i H.ownArrs.length with hi | hi | hi
    · rw [List.getElem?_append_left hi]
    · exact absurd (by rw [hi]) h
    · rw [List.getElem?_eq_none (by simp; omega), List.getElem?_eq_none (by omega)]

theorem arr_newArr_length (H : Heap) (a : List GoStr) (r : Ref) : (H.arr r).length ≤ ((H.newArr a).1.arr r).length := by
  by_cases h : r = .own H.ownArrs.length
  · subst h; rw [arr_own_ge H (Nat.le_refl _)]; simp
  · rw [arr_newArr_old H a h]; exact Nat.le_refl _

theorem arr_setArr_length (H : Heap) (r : Ref) (a : List GoStr) (h : a.length = (H.arr r).length) (r' : Ref) :
    ((H.setArr r a).arr r').length = (H.arr r').length := by
  by_cases e : r' = r
  · subst e
    cases r' with
    | ext i =>
      simp only [arr, setArr, List.getElem?_set] at *
      by_cases hi : i < H.extArrs.length
      · simp [hi, h]
      · simp [hi]
    | own i =>
      simp only [arr, setArr, List.getElem?_set] at *
      by_cases hi : i < H.ownArrs.length
      · simp [hi, h]
      · simp [hi]
  · rw [arr_setArr_ne H a e]

theorem get_some {H : Heap} {r : Ref} {k : GoStr} {s : Slice} (h : H.get (some r) k = some s) : (k, s) ∈ H.map r := by
  simp only [get, entries, Option.map_eq_some_iff] at h
  obtain ⟨⟨k', s'⟩, h1, h2⟩ := h
  have := List.find?_some h1
  simp at this h2
  subst this; subst h2
  exact List.mem_of_find?_eq_some h1

theorem get_of_mem {H : Heap} (hw : H.WF) {r : Ref} {k : GoStr} {s : Slice} (h : (k, s) ∈ H.map r) :
    H.get (some r) k = some s := by
  have hp := (hw r).1
  simp only [get, entries]
  generalize H.map r = l at h hp
  induction l with
  | nil => simp at h
  | cons e l ih =>
    rw [List.pairwise_cons] at hp
    by_cases hk : e.1 = k
    · rcases List.mem_cons.1 h with h | h
      · simp [← h]
      · exact absurd hk (hp.1 _ h)
    · rcases List.mem_cons.1 h with h | h
      · exact absurd (by rw [← h]) hk
      · simp [hk]
        simpa using ih h hp.2

end Heap

theorem Slice.Valid.mono {s : Slice} (h : s.Valid H) (hl : (H.arr s.arr).length ≤ (H'.arr s.arr).length) : s.Valid H' :=
  ⟨h.1, Nat.le_trans h.2 hl⟩

theorem Slice.Valid.len_zero {s : Slice} (h : s.Valid H) (hc : s.cap = 0) : s.len = 0 := by have := h.1; omega

theorem Slice.valid_nil : Slice.nil.Valid H := ⟨Nat.le_refl _, by simp [Slice.nil]⟩

theorem strings_of_len_zero {s : Slice} (h : s.len = 0) : H.strings s = [] := by simp [Heap.strings, h]

theorem Slice.Valid.lt {s : Slice} (h : s.Valid H) (hc : s.cap ≠ 0) {j : Nat} (hj : s.arr = .own j) : j < H.ownArrs.length := by
  rcases Nat.lt_or_ge j H.ownArrs.length with h' | h'
  · exact h'
  · have := h.2
    rw [hj, Heap.arr_own_ge H h'] at this
    simp at this; omega

theorem Slice.Valid.strings_length {s : Slice} (h : s.Valid H) : (H.strings s).length = s.len := by
  have := h.1; have := h.2
  simp [Heap.strings]; omega

theorem strings_newArr {s : Slice} (h : s.Valid H) (a : List GoStr) : (H.newArr a).1.strings s = H.strings s := by
  by_cases hc : s.cap = 0
  · rw [strings_of_len_zero (h.len_zero hc), strings_of_len_zero (h.len_zero hc)]
  · simp only [Heap.strings]
    rw [Heap.arr_newArr_old]
    intro e
    have := h.lt hc e
    omega

theorem Slice.Valid.newArr {s : Slice} (h : s.Valid H) (a : List GoStr) : s.Valid (H.newArr a).1 :=
  h.mono (Heap.arr_newArr_length H a _)

theorem Slice.Sep.symm {a b : Slice} (h : a.Sep b) : b.Sep a := by
  rcases h with h | h | h
  · exact .inr (.inl h)
  · exact .inl h
  · exact .inr (.inr fun e => h e.symm)

theorem lookup_eq (r : Ref) (k : GoStr) : H.lookup (some r) k = ((H.map r).find? (fun e => e.1 = k)).map (fun e => H.strings e.2) := by
  simp only [Heap.lookup, Heap.get, Heap.entries, Option.map_map]
  rfl

/-- The contents depend on the entries and the strings of their slices only. -/
theorem lookup_congr {r r' : Ref} (hm : H'.map r' = H.map r) (hs : ∀ e ∈ H.map r, H'.strings e.2 = H.strings e.2) :
    H'.lookup (some r') = H.lookup (some r) := by
  funext k
  rw [lookup_eq, lookup_eq, hm]
  cases h : (H.map r).find? (fun e => e.1 = k) with
  | none => rfl
  | some e => simp [hs e (List.mem_of_find?_eq_some h)]

theorem HoldsAt.eq {i : Nat} {f g : Hdrs} (h : HoldsAt om oa t H i f) (e : f = g) : HoldsAt om oa t H i g := e ▸ h

theorem foldl_ext {α β : Type} {f g : β → α → β} {l : List α} {b : β} (h : ∀ b, ∀ a ∈ l, f b a = g b a) :
    l.foldl f b = l.foldl g b := by
  induction l generalizing b with
  | nil => rfl
  | cons a l ih =>
    rw [List.foldl_cons, List.foldl_cons, h b a (List.mem_cons_self ..), ih fun b a ha => h b a (List.mem_cons_of_mem _ ha)]

/-! ## What belongs to others does not change -/

theorem HoldsAt.frame {t' : Tag} (ht : t' ≠ t) {i : Nat} {f : Hdrs} (hw : H.WF) (h : HoldsAt om oa t' H i f)
    (u : Upd om oa t H H') : HoldsAt om oa t' H' i f := by
  have hm := u.maps i (by rw [h.tag]; exact ht)
  refine ⟨Nat.lt_of_lt_of_le h.lt u.mapsLe, h.tag, by rw [hm]; exact h.owned, by rw [hm]; exact h.sep, ?_⟩
  rw [← h.lookup]
  refine lookup_congr hm fun e he => ?_
  by_cases hc : e.2.cap = 0
  · have := ((hw (.own i)).2 e he).len_zero hc
    rw [strings_of_len_zero this, strings_of_len_zero this]
  · rcases h.owned e he with h' | ⟨j, hj, hj'⟩
    · exact absurd h' hc
    · simp only [Heap.strings, hj]
      rw [u.arrs j (by rw [hj']; exact ht)]

theorem Holds.frame {t' : Tag} (ht : t' ≠ t) {m : Option Ref} {f : Hdrs} (hw : H.WF) (h : Holds om oa t' H m f)
    (u : Upd om oa t H H') : Holds om oa t' H' m f := by
  rcases h with h | ⟨i, hi, h⟩
  · exact .inl h
  · exact .inr ⟨i, hi, h.frame ht hw u⟩

/-- Other owners for what does not belong to the map. -/
theorem HoldsAt.retag {om' oa' : Nat → Tag} {t' : Tag} {i : Nat} {f : Hdrs} (hw : H.WF) (h : HoldsAt om oa t H i f)
    (hm : ∀ i, i < H.ownMaps.length → om i = t → om' i = t') (ha : ∀ i, i < H.ownArrs.length → oa i = t → oa' i = t') :
    HoldsAt om' oa' t' H i f := by
  refine ⟨h.lt, hm i h.lt h.tag, fun e he => ?_, h.sep, h.lookup⟩
  by_cases hc : e.2.cap = 0
  · exact .inl hc
  · rcases h.owned e he with h' | ⟨j, hj, hj'⟩
    · exact .inl h'
    · exact .inr ⟨j, hj, ha j (((hw (.own i)).2 e he).lt hc hj) hj'⟩

theorem Holds.retag {om' oa' : Nat → Tag} {t' : Tag} {m : Option Ref} {f : Hdrs} (hw : H.WF) (h : Holds om oa t H m f)
    (hm : ∀ i, i < H.ownMaps.length → om i = t → om' i = t') (ha : ∀ i, i < H.ownArrs.length → oa i = t → oa' i = t') :
    Holds om' oa' t' H m f := by
  rcases h with h | ⟨i, hi, h⟩
  · exact .inl h
  · exact .inr ⟨i, hi, h.retag hw hm ha⟩

theorem Holds.lookup {m : Option Ref} {f : Hdrs} (h : Holds om oa t H m f) : H.lookup m = f := by
  rcases h with ⟨rfl, rfl⟩ | ⟨i, rfl, h⟩
  · rfl
  · exact h.lookup

/-! ## The operations -/

theorem WF.newMap (hw : H.WF) : H.newMap.1.WF := by
  intro r
  have : H.newMap.1.map r = H.map r := by
    cases r with
    | ext i => rfl
    | own i =>
      simp only [Heap.map, Heap.newMap]
      rcases Nat.lt_trichotomy i H.ownMaps.length with hi | hi | hi
      · rw [List.getElem?_append_left hi]
      · subst hi; simp
      · rw [List.getElem?_eq_none (by simp; omega), List.getElem?_eq_none (by omega)]
  rw [this]
  exact hw r

theorem upd_newMap (hw : H.WF) (hf : FreshTo om oa t H) : Upd om oa t H H.newMap.1 := by
  refine ⟨WF.newMap hw, rfl, rfl, by simp [Heap.newMap], by simp [Heap.newMap], ?_, fun _ _ => rfl⟩
  intro i hi
  have : i < H.ownMaps.length := by
    rcases Nat.lt_or_ge i H.ownMaps.length with h | h
    · exact h
    · exact absurd (hf.1 i h) hi
  simp only [Heap.map, Heap.newMap]
  rw [List.getElem?_append_left this]

theorem holds_newMap (hf : FreshTo om oa t H) : HoldsAt om oa t H.newMap.1 H.ownMaps.length .none := by
  have hm : H.newMap.1.map (.own H.ownMaps.length) = [] := by simp [Heap.map, Heap.newMap]
  refine ⟨by simp [Heap.newMap], hf.1 _ (Nat.le_refl _), by simp [hm], by simp [hm], ?_⟩
  funext k
  rw [lookup_eq, hm]
  rfl

theorem WF.newArr (hw : H.WF) (a : List GoStr) : (H.newArr a).1.WF := by
  intro r
  rw [Heap.map_newArr]
  exact ⟨(hw r).1, fun e he => ((hw r).2 e he).newArr a⟩

theorem upd_newArr (hw : H.WF) (hf : FreshTo om oa t H) (a : List GoStr) : Upd om oa t H (H.newArr a).1 := by
  refine ⟨WF.newArr hw a, rfl, rfl, by simp [Heap.newArr], by simp [Heap.newArr], fun _ _ => by simp, ?_⟩
  intro i hi
  apply Heap.arr_newArr_old
  intro e
  cases e
  exact hi (hf.2 _ (Nat.le_refl _))

theorem HoldsAt.newArr {i : Nat} {f : Hdrs} (hw : H.WF) (h : HoldsAt om oa t H i f) (a : List GoStr) :
    HoldsAt om oa t (H.newArr a).1 i f := by
  refine ⟨by simpa [Heap.newArr] using h.lt, h.tag, by simpa using h.owned, by simpa using h.sep, ?_⟩
  rw [← h.lookup]
  exact lookup_congr (by simp) fun e he => strings_newArr ((hw _).2 e he) a

/-- The entries after `m[k] = s`. -/
def putList (l : List (GoStr × Slice)) (k : GoStr) (s : Slice) : List (GoStr × Slice) :=
  if l.any (fun e => e.1 = k) then l.map (fun e => if e.1 = k then (k, s) else e) else l ++ [(k, s)]

theorem mem_putList {l : List (GoStr × Slice)} {k : GoStr} {s : Slice} {e : GoStr × Slice} (h : e ∈ putList l k s) :
    e = (k, s) ∨ (e ∈ l ∧ e.1 ≠ k) := by
  unfold putList at h
  split at h
  · obtain ⟨a, ha, h⟩ := List.mem_map.1 h
    split at h
    · exact .inl h.symm
    · rename_i hk; subst h; exact .inr ⟨ha, hk⟩
  · rename_i hk
    rcases List.mem_append.1 h with h | h
    · refine .inr ⟨h, fun e' => hk ?_⟩
      simp only [List.any_eq_true, decide_eq_true_eq]
      exact ⟨e, h, e'⟩
    · exact .inl (by simpa using h)

theorem putList_pairwise {R : GoStr × Slice → GoStr × Slice → Prop} {l : List (GoStr × Slice)} {k : GoStr} {s : Slice}
    (hl : l.Pairwise R) (hk : l.Pairwise (fun a b => a.1 ≠ b.1)) (hr : ∀ e ∈ l, e.1 ≠ k → R e (k, s) ∧ R (k, s) e) :
    (putList l k s).Pairwise R := by
  unfold putList
  split
  · rw [List.pairwise_map]
    refine List.Pairwise.imp_of_mem ?_ (hl.and hk)
    intro a b ha hb hab
    split
    · rename_i h1
      split
      · rename_i h2; exact absurd (h1.trans h2.symm) hab.2
      · rename_i h2; exact (hr b hb h2).2
    · rename_i h1
      split
      · exact (hr a ha h1).1
      · exact hab.1
  · rename_i hn
    rw [List.pairwise_append]
    refine ⟨hl, List.pairwise_singleton _ _, ?_⟩
    intro a ha b hb
    simp only [List.mem_singleton] at hb
    subst hb
    refine (hr a ha fun e => hn ?_).1
    simp only [List.any_eq_true, decide_eq_true_eq]
    exact ⟨a, ha, e⟩

theorem find_putList (l : List (GoStr × Slice)) (k : GoStr) (s : Slice) (k' : GoStr) :
    (putList l k s).find? (fun e => e.1 = k') = if k' = k then some (k, s) else l.find? (fun e => e.1 = k') := by
  unfold putList
  split
  · rename_i h
    induction l with
    | nil => simp at h
    | cons e l ih =>
      simp only [List.map_cons, List.find?_cons]
      by_cases he : e.1 = k
      · by_cases hk : k' = k
        · simp [he, hk]
        · simp only [he, if_pos, if_neg hk]
          have h1 : decide (k = k') = false := by simp [Ne.symm hk]
          simp only [h1]
          clear ih h
          induction l with
          | nil => rfl
          | cons e l ih =>
            simp only [List.map_cons, List.find?_cons]
            by_cases he : e.1 = k
            · simp only [he, if_pos, h1]; exact ih
            · simp only [he, if_neg, not_false_iff, ih]
      · simp only [he, if_neg, not_false_iff]
        have hl : l.any (fun e => e.1 = k) = true := by simpa [he] using h
        rw [ih hl]
        by_cases hk : k' = k
        · have : decide (e.1 = k') = false := by simp [hk, he]
          simp [hk, he]
        · simp [hk]
  · rename_i h
    rw [List.find?_append]
    by_cases hk : k' = k
    · have : l.find? (fun e => e.1 = k') = none := by
        rw [List.find?_eq_none]
        intro e he
        simp only [decide_eq_true_eq]
        intro e'
        apply h
        simp only [List.any_eq_true, decide_eq_true_eq]
        exact ⟨e, he, by rw [e', hk]⟩
      rw [this]
      simp [hk, List.find?_cons]
    · have : decide (k = k') = false := by simp [Ne.symm hk]
      simp [List.find?_cons, this, hk]

theorem WF.setMap (hw : H.WF) (r : Ref) {l : List (GoStr × Slice)} (h1 : l.Pairwise (fun a b => a.1 ≠ b.1))
    (h2 : ∀ e ∈ l, e.2.Valid H) : (H.setMap r l).WF := by
  have hv : ∀ {s : Slice}, s.Valid H → s.Valid (H.setMap r l) := fun h => ⟨h.1, by simpa using h.2⟩
  intro r'
  by_cases hr : r' = r
  · subst hr
    have : (H.setMap r' l).map r' = l ∨ (H.setMap r' l).map r' = [] := by
      cases r' with
      | ext i =>
        simp only [Heap.map, Heap.setMap, List.getElem?_set]
        by_cases hi : i < H.extMaps.length <;> simp [hi]
      | own i =>
        simp only [Heap.map, Heap.setMap, List.getElem?_set]
        by_cases hi : i < H.ownMaps.length <;> simp [hi]
    rcases this with h | h
    · rw [h]; exact ⟨h1, fun e he => hv (h2 e he)⟩
    · rw [h]; simp
  · rw [Heap.map_setMap_ne H l hr]
    exact ⟨(hw r').1, fun e he => hv ((hw r').2 e he)⟩

theorem put_eq (r : Ref) (k : GoStr) (s : Slice) : H.put r k s = H.setMap r (putList (H.map r) k s) := rfl

theorem WF.put (hw : H.WF) (r : Ref) (k : GoStr) {s : Slice} (hs : s.Valid H) : (H.put r k s).WF := by
  rw [put_eq]
  refine WF.setMap hw r (putList_pairwise (hw r).1 (hw r).1 fun e he hk => ⟨hk, Ne.symm hk⟩) fun e he => ?_
  rcases mem_putList he with rfl | ⟨he, _⟩
  · exact hs
  · exact (hw r).2 e he

theorem WF.del (hw : H.WF) (r : Ref) (k : GoStr) : (H.del r k).WF :=
  WF.setMap hw r ((hw r).1.filter _) fun e he => (hw r).2 e (List.mem_filter.1 he).1

theorem upd_setMap {i : Nat} {l : List (GoStr × Slice)} (ht : om i = t) (hw : (H.setMap (.own i) l).WF) :
    Upd om oa t H (H.setMap (.own i) l) := by
  refine ⟨hw, rfl, rfl, by simp [Heap.setMap], by simp [Heap.setMap], fun j hj => ?_, fun _ _ => by simp⟩
  apply Heap.map_setMap_ne
  intro e
  cases e
  exact hj ht

/-- `m[k] = s`. -/
theorem HoldsAt.put {i : Nat} {f : Hdrs} (hw : H.WF) (h : HoldsAt om oa t H i f) (k : GoStr) {s : Slice} (hs : s.Valid H)
    (ho : s.Owned oa t) (hsep : ∀ e ∈ H.map (.own i), e.1 ≠ k → e.2.Sep s) :
    Upd om oa t H (H.put (.own i) k s) ∧ HoldsAt om oa t (H.put (.own i) k s) i (f.with k (some (H.strings s))) := by
  refine ⟨upd_setMap h.tag (WF.put hw _ k hs), ?_⟩
  rw [put_eq]
  have hm := Heap.map_setMap_own H h.lt (putList (H.map (.own i)) k s)
  refine ⟨by simpa [Heap.setMap] using h.lt, h.tag, ?_, ?_, ?_⟩
  · rw [hm]
    intro e he
    rcases mem_putList he with rfl | ⟨he, _⟩
    · exact ho
    · exact h.owned e he
  · rw [hm]
    exact putList_pairwise h.sep (hw _).1 fun e he hk => ⟨hsep e he hk, (hsep e he hk).symm⟩
  · rw [← h.lookup]
    funext k'
    rw [lookup_eq, hm, find_putList, Hdrs.with]
    split
    · simp
    · rw [lookup_eq]; simp

theorem HoldsAt.del {i : Nat} {f : Hdrs} (hw : H.WF) (h : HoldsAt om oa t H i f) (k : GoStr) :
    Upd om oa t H (H.del (.own i) k) ∧ HoldsAt om oa t (H.del (.own i) k) i (f.with k none) := by
  refine ⟨upd_setMap h.tag (WF.del hw _ k), ?_⟩
  unfold Heap.del
  have hm := Heap.map_setMap_own H h.lt ((H.map (.own i)).filter (fun e => e.1 ≠ k))
  refine ⟨by simpa [Heap.setMap] using h.lt, h.tag, ?_, ?_, ?_⟩
  · rw [hm]
    exact fun e he => h.owned e (List.mem_filter.1 he).1
  · rw [hm]
    exact h.sep.filter _
  · rw [← h.lookup]
    funext k'
    rw [lookup_eq, hm, List.find?_filter, Hdrs.with]
    split
    · rename_i hk
      subst hk
      simp only [Option.map_eq_none_iff, List.find?_eq_none]
      intro e he
      simp
    · rename_i hk
      rw [lookup_eq]
      simp only [Heap.strings_setMap]
      congr 2
      funext e
      by_cases he : e.1 = k'
      · simp [he, hk]
      · simp [he]

/-- A new array and `m[k] = ` a slice of it. -/
theorem HoldsAt.putNew {i : Nat} {f : Hdrs} (hw : H.WF) (hf : FreshTo om oa t H) (h : HoldsAt om oa t H i f) (k : GoStr)
    (a : List GoStr) {n c : Nat} (hn : n ≤ c) (hc : c ≤ a.length) :
    Upd om oa t H ((H.newArr a).1.put (.own i) k { arr := (H.newArr a).2, len := n, cap := c }) ∧
    HoldsAt om oa t ((H.newArr a).1.put (.own i) k { arr := (H.newArr a).2, len := n, cap := c }) i (f.with k (some (a.take n))) := by
  have h1 := h.newArr hw a
  have hv : Slice.Valid (H.newArr a).1 { arr := (H.newArr a).2, len := n, cap := c } := by
    refine ⟨hn, ?_⟩
    show 0 + c ≤ ((H.newArr a).1.arr (.own H.ownArrs.length)).length
    rw [Heap.arr_newArr_new]; omega
  have h2 := h1.put (WF.newArr hw a) k hv (.inr ⟨_, rfl, hf.2 _ (Nat.le_refl _)⟩) (by
    intro e he _
    rw [Heap.map_newArr] at he
    by_cases hz : e.2.cap = 0
    · exact .inl hz
    · refine .inr (.inr fun e' => ?_)
      have := ((hw _).2 e he).lt hz e'
      omega)
  refine ⟨(upd_newArr hw hf a).trans h2.1, ?_⟩
  have : (H.newArr a).1.strings { arr := (H.newArr a).2, len := n, cap := c } = a.take n := by
    show (((H.newArr a).1.arr (.own H.ownArrs.length)).drop 0).take n = a.take n
    rw [Heap.arr_newArr_new]; rfl
  rw [this] at h2
  exact h2.2

theorem WF.setArr (hw : H.WF) (r : Ref) {a : List GoStr} (h : a.length = (H.arr r).length) : (H.setArr r a).WF := by
  intro r'
  rw [Heap.map_setArr]
  exact ⟨(hw r').1, fun e he => ((hw r').2 e he).mono (Nat.le_of_eq (Heap.arr_setArr_length H r a h _).symm)⟩

theorem upd_setArr {j : Nat} {a : List GoStr} (hw : H.WF) (ht : oa j = t) (h : a.length = (H.arr (.own j)).length) :
    Upd om oa t H (H.setArr (.own j) a) := by
  refine ⟨WF.setArr hw _ h, rfl, rfl, by simp [Heap.setArr], by simp [Heap.setArr], fun _ _ => by simp, fun i hi => ?_⟩
  apply Heap.arr_setArr_ne
  intro e
  cases e
  exact hi ht

theorem pairwise_sep {l : List (GoStr × Slice)} {a b : GoStr × Slice} (hl : l.Pairwise (fun a b => a.2.Sep b.2)) (ha : a ∈ l)
    (hb : b ∈ l) (hne : a ≠ b) : a.2.Sep b.2 := by
  induction l with
  | nil => simp at ha
  | cons e l ih =>
    rw [List.pairwise_cons] at hl
    rcases List.mem_cons.1 ha with rfl | ha'
    · rcases List.mem_cons.1 hb with rfl | hb'
      · exact absurd rfl hne
      · exact hl.1 b hb'
    · rcases List.mem_cons.1 hb with rfl | hb'
      · exact (hl.1 a ha').symm
      · exact ih hl.2 ha' hb'

/-- Writing to the array of one of the slices. -/
theorem HoldsAt.setArr {i : Nat} {f : Hdrs} (hw : H.WF) (h : HoldsAt om oa t H i f) {k : GoStr} {s : Slice}
    (hs : H.get (some (.own i)) k = some s) (hc : s.cap ≠ 0) (a : List GoStr) (ha : a.length = (H.arr s.arr).length) :
    Upd om oa t H (H.setArr s.arr a) ∧ HoldsAt om oa t (H.setArr s.arr a) i (f.with k (some ((a.drop s.off).take s.len))) := by
  have hmem := Heap.get_some hs
  obtain ⟨j, hj, hjt⟩ := (h.owned _ hmem).resolve_left hc
  simp only at hj
  have hlt := ((hw _).2 _ hmem).lt hc hj
  refine ⟨by rw [hj]; exact upd_setArr hw hjt (by rw [ha, hj]), ?_⟩
  refine ⟨by rw [hj]; simpa [Heap.setArr] using h.lt, h.tag, by simpa using h.owned, by simpa using h.sep, ?_⟩
  rw [← h.lookup]
  funext k'
  rw [lookup_eq, Heap.map_setArr, Hdrs.with]
  split
  · rename_i hk
    subst hk
    have : (H.map (.own i)).find? (fun e => e.1 = k') = some (k', s) := by
      simp only [Heap.get, Heap.entries, Option.map_eq_some_iff] at hs
      obtain ⟨⟨k'', s'⟩, h1, h2⟩ := hs
      have := List.find?_some h1
      simp at this h2
      subst this; subst h2
      exact h1
    rw [this]
    simp only [Option.map_some, Heap.strings]
    rw [hj, Heap.arr_setArr_own H hlt]
  · rename_i hk
    rw [lookup_eq]
    cases he : (H.map (.own i)).find? (fun e => e.1 = k') with
    | none => rfl
    | some e =>
      have hem := List.mem_of_find?_eq_some he
      have hek := List.find?_some he
      simp only [decide_eq_true_eq] at hek
      simp only [Option.map_some, Option.some.injEq]
      by_cases hz : e.2.cap = 0
      · have := ((hw _).2 e hem).len_zero hz
        rw [strings_of_len_zero this, strings_of_len_zero this]
      · have hsep := pairwise_sep h.sep hem hmem (by intro e'; apply hk; rw [← hek, e'])
        rcases hsep with h' | h' | h'
        · exact absurd h' hz
        · exact absurd h' hc
        · simp only [Heap.strings]
          rw [Heap.arr_setArr_ne H a h']

/-- `m[k] = append(m[k], v)`. -/
theorem HoldsAt.add {i : Nat} {f : Hdrs} (spare : Nat → Nat) (hw : H.WF) (hf : FreshTo om oa t H) (h : HoldsAt om oa t H i f)
    (name v : GoStr) :
    Upd om oa t H (H.hadd spare (.own i) name v) ∧
    HoldsAt om oa t (H.hadd spare (.own i) name v) i (f.with (canon name) (some ((f (canon name)).getD [] ++ [v]))) := by
  unfold Heap.hadd Heap.append
  generalize canon name = k
  have hfk : f k = (H.get (some (.own i)) k).map H.strings := by rw [← h.lookup]; rfl
  cases hg : H.get (some (.own i)) k with
  | none =>
    simp only [Option.getD_none]
    rw [if_neg (by simp [Slice.nil])]
    simp only
    have := h.putNew (n := Slice.nil.len + 1) (c := Slice.nil.len + 1 + spare Slice.nil.len) hw hf k
      (H.strings Slice.nil ++ [v] ++ List.replicate (spare Slice.nil.len) []) (by omega)
      (by simp [strings_of_len_zero (H := H) (s := Slice.nil) rfl]; simp [Slice.nil]; omega)
    refine ⟨this.1, ?_⟩
    have h2 := this.2
    rw [strings_of_len_zero (H := H) (s := Slice.nil) rfl] at h2 ⊢
    rw [hfk, hg]
    simpa [Slice.nil] using h2
  | some s =>
    simp only [Option.getD_some]
    have hmem := Heap.get_some hg
    have hv := (hw _).2 _ hmem
    simp only at hv
    have hsl := hv.strings_length
    split
    · rename_i hlt
      have hc : s.cap ≠ 0 := by omega
      simp only
      have h1 := h.setArr hw hg hc ((H.arr s.arr).set (s.off + s.len) v) (by simp)
      have hgl : (H.arr s.arr).length > s.off + s.len := by have := hv.2; omega
      have hlen : ∀ r, ((H.setArr s.arr ((H.arr s.arr).set (s.off + s.len) v)).arr r).length = (H.arr r).length :=
        Heap.arr_setArr_length H _ _ (by simp)
      have h2 := h1.2.put h1.1.wf k (s := { s with len := s.len + 1 })
        ⟨by simp only; omega, by simp only; rw [hlen]; exact hv.2⟩ (h.owned _ hmem) (by
          intro e he hk
          rw [Heap.map_setArr] at he
          have := pairwise_sep h.sep he hmem (by intro e'; apply hk; rw [e'])
          exact this)
      refine ⟨h1.1.trans h2.1, ?_⟩
      have h3 := h2.2
      obtain ⟨j, hj, hjt⟩ := (h.owned _ hmem).resolve_left hc
      simp only at hj
      have hjl := hv.lt hc hj
      have hstr : (H.setArr s.arr ((H.arr s.arr).set (s.off + s.len) v)).strings { s with len := s.len + 1 } = H.strings s ++ [v] := by
        simp only [Heap.strings]
        rw [hj] at hgl ⊢
        rw [Heap.arr_setArr_own H hjl, List.drop_set, if_neg (by omega), List.take_set]
        have : s.off + s.len - s.off = s.len := by omega
        rw [this, List.take_add_one, List.set_append_right _ _ (by simp; omega)]
        have hx : (List.drop s.off (H.arr (.own j)))[s.len]? = some ((H.arr (.own j))[s.off + s.len]'hgl) := by
          rw [List.getElem?_drop]; simp [hgl]
        rw [hx]
        have : s.len - (List.take s.len (List.drop s.off (H.arr (Ref.own j)))).length = 0 := by simp; omega
        rw [this]
        rfl
      rw [hstr] at h3
      rw [hfk, hg]
      refine h3.eq ?_
      funext k'
      simp only [Hdrs.with]
      split <;> simp
    · simp only
      have := h.putNew (n := s.len + 1) (c := s.len + 1 + spare s.len) hw hf k
        (H.strings s ++ [v] ++ List.replicate (spare s.len) []) (by omega) (by simp [hsl]; omega)
      refine ⟨this.1, ?_⟩
      have h2 := this.2
      rw [hfk, hg]
      have e : List.take (s.len + 1) (H.strings s ++ [v] ++ List.replicate (spare s.len) []) = H.strings s ++ [v] := by
        rw [List.take_append_of_le_length (by simp [hsl]), List.take_of_length_le (by simp [hsl])]
      rw [e] at h2
      simpa using h2

/-- `h.Set(name, v)`. -/
theorem HoldsAt.set {i : Nat} {f : Hdrs} (hw : H.WF) (hf : FreshTo om oa t H) (h : HoldsAt om oa t H i f) (name v : GoStr) :
    Upd om oa t H (H.hset (.own i) name v) ∧
    HoldsAt om oa t (H.hset (.own i) name v) i (f.with (canon name) (some [v])) :=
  h.putNew hw hf (canon name) [v] (n := 1) (c := 1) (Nat.le_refl _) (Nat.le_refl _)

/-! ## Copying -/

theorem upd_copyEntry {i : Nat} {f : Hdrs} (hw : H.WF) (hf : FreshTo om oa t H) (h : HoldsAt om oa t H i f) {e : GoStr × Slice}
    (hv : e.2.Valid H) :
    Upd om oa t H (H.copyEntry (.own i) e) ∧ HoldsAt om oa t (H.copyEntry (.own i) e) i (f.with e.1 (some (H.strings e.2))) ∧
      ∀ s : Slice, s.Valid H → s.Valid (H.copyEntry (.own i) e) ∧ (H.copyEntry (.own i) e).strings s = H.strings s := by
  unfold Heap.copyEntry Heap.copyStrings
  split
  · rename_i h0
    have := h.put hw e.1 (s := .nil) Slice.valid_nil (.inl rfl) (fun _ _ _ => .inr (.inl rfl))
    simp only
    refine ⟨this.1, ?_, fun s hs => ⟨⟨hs.1, by simpa [Heap.put] using hs.2⟩, by simp [Heap.put]⟩⟩
    rw [strings_of_len_zero h0]
    exact this.2
  · simp only
    have hl := hv.strings_length
    have := h.putNew hw hf e.1 (H.strings e.2) (n := e.2.len) (c := e.2.len) (Nat.le_refl _) (by omega)
    refine ⟨this.1, ?_, fun s hs => ?_⟩
    · have h2 := this.2
      rwa [List.take_of_length_le (by omega)] at h2
    · have h1 := hs.newArr (H.strings e.2)
      exact ⟨⟨h1.1, by simpa [Heap.put] using h1.2⟩, by simp [Heap.put, strings_newArr hs]⟩

theorem upd_copyFold {i : Nat} (L : List (GoStr × Slice)) : ∀ {H : Heap} {f : Hdrs}, H.WF → FreshTo om oa t H →
    HoldsAt om oa t H i f → (∀ e ∈ L, e.2.Valid H) →
    Upd om oa t H (L.foldl (Heap.copyEntry (.own i)) H) ∧
    HoldsAt om oa t (L.foldl (Heap.copyEntry (.own i)) H) i (L.foldl (fun f e => f.with e.1 (some (H.strings e.2))) f) := by
  induction L with
  | nil => intro H f hw _ h _; exact ⟨.refl hw, h⟩
  | cons e L ih =>
    intro H f hw hf h hv
    obtain ⟨h1, h2, h3⟩ := upd_copyEntry hw hf h (hv e (List.mem_cons_self ..))
    obtain ⟨h4, h5⟩ := ih h1.wf (hf.mono h1) h2 (fun e' he' => (h3 _ (hv e' (List.mem_cons_of_mem _ he'))).1)
    refine ⟨h1.trans h4, ?_⟩
    simp only [List.foldl_cons]
    refine h5.eq ?_
    apply foldl_ext
    intro f' e' he'
    rw [(h3 _ (hv e' (List.mem_cons_of_mem _ he'))).2]

theorem foldl_with (g : Slice → List GoStr) (L : List (GoStr × Slice)) (hL : L.Pairwise (fun a b => a.1 ≠ b.1)) (f : Hdrs) :
    L.foldl (fun f e => Hdrs.with f e.1 (some (g e.2))) f =
      fun k => match L.find? (fun e => e.1 = k) with | none => f k | some e => some (g e.2) := by
  induction L generalizing f with
  | nil => rfl
  | cons e L ih =>
    rw [List.pairwise_cons] at hL
    rw [List.foldl_cons, ih hL.2]
    funext k
    by_cases hk : e.1 = k
    · have : L.find? (fun e => e.1 = k) = none := by
        rw [List.find?_eq_none]
        intro e' he'
        simp only [decide_eq_true_eq]
        intro e''
        exact hL.1 e' he' (hk.trans e''.symm)
      simp [this, hk, Hdrs.with]
    · simp only [List.find?_cons, hk, decide_false, Hdrs.with, if_neg (Ne.symm hk)]

/-- `copyHeaders` yields a map of its own with the same contents. -/
theorem copyHeaders_spec (hw : H.WF) (hf : FreshTo om oa t H) (m : Option Ref) :
    Upd om oa t H (H.copyHeaders m).1 ∧ Holds om oa t (H.copyHeaders m).1 (H.copyHeaders m).2 (H.lookup m) := by
  unfold Heap.copyHeaders
  split
  · rename_i h0
    refine ⟨.refl hw, .inl ⟨rfl, ?_⟩⟩
    have h0 := List.length_eq_zero_iff.1 h0
    funext k
    simp [Heap.lookup, Heap.get, h0, Hdrs.none]
  · rename_i h0
    cases m with
    | none => exact absurd rfl h0
    | some r =>
      simp only [Heap.entries]
      have hn := upd_newMap hw hf
      have hs : ∀ s, H.newMap.1.strings s = H.strings s := fun _ => rfl
      have hv : ∀ e ∈ H.map r, e.2.Valid H.newMap.1 := fun e he => (hw r).2 e he
      obtain ⟨h1, h2⟩ := upd_copyFold (H.map r) hn.wf (hf.mono hn) (holds_newMap hf) hv
      refine ⟨hn.trans h1, .inr ⟨_, rfl, ?_⟩⟩
      refine h2.eq ?_
      have := foldl_with H.strings (H.map r) (hw r).1 .none
      rw [show (fun (f : Hdrs) (e : GoStr × Slice) => f.with e.1 (some (H.newMap.1.strings e.2))) =
        (fun f e => Hdrs.with f e.1 (some (H.strings e.2))) from rfl, this]
      funext k
      rw [lookup_eq]
      cases (H.map r).find? (fun e => e.1 = k) <;> rfl

theorem upd_allocFold {i : Nat} (L : List (GoStr × List GoStr)) : ∀ {H : Heap} {f : Hdrs}, H.WF → FreshTo om oa t H →
    HoldsAt om oa t H i f →
    Upd om oa t H (L.foldl (Heap.allocEntry (.own i)) H) ∧
    HoldsAt om oa t (L.foldl (Heap.allocEntry (.own i)) H) i (L.foldl (fun f e => f.with e.1 (some e.2)) f) := by
  induction L with
  | nil => intro H f hw _ h; exact ⟨.refl hw, h⟩
  | cons e L ih =>
    intro H f hw hf h
    have h1 := h.putNew hw hf e.1 e.2 (n := e.2.length) (c := e.2.length) (Nat.le_refl _) (Nat.le_refl _)
    rw [List.take_length] at h1
    obtain ⟨h4, h5⟩ := ih h1.1.wf (hf.mono h1.1) h1.2
    exact ⟨h1.1.trans h4, h5⟩

theorem alloc_spec (hw : H.WF) (hf : FreshTo om oa t H) (v : List (GoStr × List GoStr)) :
    Upd om oa t H (H.alloc v).1 ∧ Holds om oa t (H.alloc v).1 (some (H.alloc v).2) (.of v) := by
  have hn := upd_newMap hw hf
  obtain ⟨h1, h2⟩ := upd_allocFold v hn.wf (hf.mono hn) (holds_newMap hf)
  exact ⟨hn.trans h1, .inr ⟨_, rfl, h2⟩⟩

end Verif
