import Verif.Proofs.Heap
import Verif.Model.ServedHeaders

/-! # Headers that share arrays -/

set_option autoImplicit false

namespace Verif
open Spec

/-- The map exists. -/
def Heap.HasMap (H : Heap) : Ref → Prop
  | .ext i => i < H.extMaps.length
  | .own i => i < H.ownMaps.length

variable {H H' H0 : Heap} {W : List Ref} {R : List (Option Ref)}

theorem Heap.map_setMap_self {r : Ref} (h : H.HasMap r) (m : List (GoStr × Slice)) : (H.setMap r m).map r = m := by
  cases r <;> simp only [Heap.HasMap] at h <;> simp [Heap.map, Heap.setMap, h]

theorem Heap.HasMap.setMap {r r' : Ref} (h : H.HasMap r) (m : List (GoStr × Slice)) : (H.setMap r' m).HasMap r := by
  cases r <;> cases r' <;> simpa [Heap.HasMap, Heap.setMap] using h

theorem Heap.HasMap.setArr {r r' : Ref} (h : H.HasMap r) (a : List GoStr) : (H.setArr r' a).HasMap r := by
  cases r <;> cases r' <;> simpa [Heap.HasMap, Heap.setArr] using h

theorem Heap.HasMap.newArr {r : Ref} (h : H.HasMap r) (a : List GoStr) : (H.newArr a).1.HasMap r := by
  cases r <;> simpa [Heap.HasMap, Heap.newArr] using h

theorem lookup_put {w : Ref} (h : H.HasMap w) (k : GoStr) (s : Slice) :
    (H.put w k s).lookup (some w) = Hdrs.with (H.lookup (some w)) k (some (H.strings s)) := by
  funext k'
  rw [lookup_eq, put_eq, Heap.map_setMap_self h, find_putList, Hdrs.with, lookup_eq]
  split <;> simp

theorem lookup_put_ne {w r : Ref} (hr : r ≠ w) (k : GoStr) (s : Slice) : (H.put w k s).lookup (some r) = H.lookup (some r) :=
  lookup_congr (by rw [put_eq, Heap.map_setMap_ne H _ hr]) fun e _ => by rw [put_eq, Heap.strings_setMap]

theorem lookup_del {w : Ref} (h : H.HasMap w) (k : GoStr) : (H.del w k).lookup (some w) = Hdrs.with (H.lookup (some w)) k none := by
  funext k'
  rw [lookup_eq, Heap.del, Heap.map_setMap_self h, List.find?_filter, Hdrs.with]
  split
  · rename_i hk
    subst hk
    simp only [Option.map_eq_none_iff, List.find?_eq_none]
    intro e he
    simp
  · rename_i hk
    rw [lookup_eq]
    simp only [Heap.strings_setMap]
    congr 2
    funext e
    by_cases he : e.1 = k'
    · simp [he, hk]
    · simp [he]

/-- No other entry of these maps uses the array of the entry `e` of the map `w`. -/
def Alone (W : List Ref) (R : List (Option Ref)) (H : Heap) (w : Ref) (k : GoStr) (s : Slice) : Prop :=
  ∀ r, r ∈ W ∨ some r ∈ R → ∀ e ∈ H.map r, e.2.cap ≠ 0 → e.2.arr = s.arr → r = w ∧ e.1 = k

/-- The values in the maps of the ResponseWriters are `S`.  Whoever has room to grow is alone. -/
structure HKept (W : List Ref) (R : List (Option Ref)) (H0 H : Heap) (S : Nat → Hdrs) : Prop where
  wf : H.WF
  has : ∀ w ∈ W, H.HasMap w
  maps : ∀ r, some r ∈ R → H.map r = H0.map r
  strings : ∀ r, some r ∈ R → ∀ e ∈ H.map r, H.strings e.2 = H0.strings e.2
  room : ∀ w ∈ W, ∀ e ∈ H.map w, canon e.1 = e.1 → e.2.len < e.2.cap → Alone W R H w e.1 e.2
  vals : ∀ i w, W[i]? = some w → H.lookup (some w) = S i

variable {S : Nat → Hdrs} {i : Nat} {w : Ref}

theorem mem_of_get (hi : W[i]? = some w) : w ∈ W := List.mem_of_getElem? hi

/-- What remains of `HKept` if the map `w` becomes `l`, with slices as good as those it had. -/
theorem mem_put {r : Ref} (hw : H.HasMap w) {k : GoStr} {s : Slice} {e : GoStr × Slice} (h : e ∈ (H.put w k s).map r) :
    (r = w ∧ e = (k, s)) ∨ (e ∈ H.map r ∧ (r = w → e.1 ≠ k)) := by
  rw [put_eq] at h
  by_cases hr : r = w
  · subst hr
    rw [Heap.map_setMap_self hw] at h
    rcases mem_putList h with h | h
    · exact .inl ⟨rfl, h⟩
    · exact .inr ⟨h.1, fun _ => h.2⟩
  · rw [Heap.map_setMap_ne H _ hr] at h
    exact .inr ⟨h, fun h' => absurd h' hr⟩

theorem HKept.put (h : HKept W R H0 H S) (hn : W.Nodup) (ha : ∀ w ∈ W, some w ∉ R) (hi : W[i]? = some w) (k : GoStr) {s : Slice} (hv : s.Valid H)
    (hs : canon k = k → s.len < s.cap → Alone W R H w k s)
    (hx : ∀ w' ∈ W, ∀ e ∈ H.map w', canon e.1 = e.1 → e.2.len < e.2.cap → s.cap ≠ 0 → s.arr = e.2.arr → w' = w ∧ e.1 = k) :
    HKept W R H0 (H.put w k s) (oneOf S i ((S i).with k (some (H.strings s)))) := by
  have hw := h.has w (mem_of_get hi)
  have hne : ∀ r, some r ∈ R → r ≠ w := fun r hr e => ha w (mem_of_get hi) (e ▸ hr)
  refine ⟨WF.put h.wf w k hv, fun w' hw' => (h.has w' hw').setMap _, fun r hr => ?_, fun r hr e he => ?_, ?_, ?_⟩
  · rw [put_eq, Heap.map_setMap_ne H _ (hne r hr)]; exact h.maps r hr
  · rw [put_eq, Heap.map_setMap_ne H _ (hne r hr)] at he
    rw [put_eq, Heap.strings_setMap]
    exact h.strings r hr e he
  · intro w' hw' e he hc hl r hr e' he' h0 hq
    rcases mem_put hw he with ⟨rfl, rfl⟩ | ⟨heo, hek⟩
    · rcases mem_put hw he' with ⟨rfl, rfl⟩ | ⟨heo', -⟩
      · exact ⟨rfl, rfl⟩
      · exact hs hc hl r hr e' heo' h0 hq
    · rcases mem_put hw he' with ⟨rfl, rfl⟩ | ⟨heo', -⟩
      · obtain ⟨h1, h2⟩ := hx w' hw' e heo hc hl h0 hq
        exact absurd h2 (hek h1)
      · exact h.room w' hw' e heo hc hl r hr e' heo' h0 hq
  · intro j w' hj
    simp only [oneOf]
    by_cases hji : j = i
    · subst hji
      rw [hi] at hj
      cases hj
      rw [if_pos rfl, lookup_put hw, h.vals j w hi]
    · rw [if_neg hji, lookup_put_ne, h.vals j w' hj]
      intro e
      subst e
      exact hji ((List.getElem?_inj (List.getElem?_eq_some_iff.1 hj).1 hn).1 (hj.trans hi.symm))

/-- A new array. -/
theorem HKept.newArr (h : HKept W R H0 H S) (a : List GoStr) : HKept W R H0 (H.newArr a).1 S where
  wf := WF.newArr h.wf a
  has w hw := (h.has w hw).newArr a
  maps r hr := by rw [Heap.map_newArr]; exact h.maps r hr
  strings r hr e he := by
    rw [Heap.map_newArr] at he
    rw [strings_newArr ((h.wf r).2 e he)]
    exact h.strings r hr e he
  room w hw e he hc hl r hr e' he' h0 hq := by
    rw [Heap.map_newArr] at he he'
    exact h.room w hw e he hc hl r hr e' he' h0 hq
  vals i w hi := by
    rw [← h.vals i w hi]
    exact lookup_congr (by rw [Heap.map_newArr]) fun e he => strings_newArr ((h.wf w).2 e he) a

/-- A new array is nobody's. -/
theorem fresh_arr (hwf : H.WF) {r : Ref} {e : GoStr × Slice} (he : e ∈ H.map r) (h0 : e.2.cap ≠ 0) : e.2.arr ≠ .own H.ownArrs.length := by
  intro hq
  exact absurd (((hwf r).2 e he).lt h0 hq) (Nat.lt_irrefl _)

/-- A new slice over a new array is put into the map. -/
theorem HKept.putNew (h : HKept W R H0 H S) (hn : W.Nodup) (ha : ∀ w ∈ W, some w ∉ R) (hi : W[i]? = some w) (k : GoStr) (a : List GoStr) (n : Nat)
    (hlen : n ≤ a.length) :
    HKept W R H0 ((H.newArr a).1.put w k { arr := (H.newArr a).2, len := n, cap := a.length }) (oneOf S i ((S i).with k (some (a.take n)))) := by
  have e1 : (H.newArr a).1.arr (.own H.ownArrs.length) = a := Heap.arr_newArr_new H a
  have hs : (H.newArr a).1.strings { arr := (H.newArr a).2, len := n, cap := a.length } = a.take n := by
    simp only [Heap.strings, Heap.newArr] at e1 ⊢
    rw [e1]; rfl
  rw [← hs]
  refine (h.newArr a).put hn ha hi k ⟨hlen, by rw [show (H.newArr a).2 = Ref.own H.ownArrs.length from rfl, e1]; simp⟩ ?_ ?_
  · intro _ _ r _ e he h0 hq
    rw [Heap.map_newArr] at he
    exact absurd hq (fresh_arr h.wf he h0)
  · intro w' _ e he _ hl _ hq
    rw [Heap.map_newArr] at he
    exact absurd hq.symm (fresh_arr h.wf he (by omega))

theorem HKept.del (h : HKept W R H0 H S) (hn : W.Nodup) (ha : ∀ w ∈ W, some w ∉ R) (hi : W[i]? = some w) (k : GoStr) :
    HKept W R H0 (H.del w k) (oneOf S i ((S i).with k none)) := by
  have hw := h.has w (mem_of_get hi)
  have hne : ∀ r, some r ∈ R → r ≠ w := fun r hr e => ha w (mem_of_get hi) (e ▸ hr)
  have hsub : ∀ r, ∀ e ∈ (H.del w k).map r, e ∈ H.map r := by
    intro r e he
    rw [Heap.del] at he
    by_cases hr : r = w
    · subst hr
      rw [Heap.map_setMap_self hw] at he
      exact (List.mem_filter.1 he).1
    · rw [Heap.map_setMap_ne H _ hr] at he
      exact he
  refine ⟨WF.del h.wf w k, fun w' hw' => (h.has w' hw').setMap _, fun r hr => ?_, fun r hr e he => ?_, ?_, ?_⟩
  · rw [Heap.del, Heap.map_setMap_ne H _ (hne r hr)]; exact h.maps r hr
  · rw [Heap.del, Heap.strings_setMap]
    exact h.strings r hr e (hsub r e he)
  · intro w' hw' e he hc hl r hr e' he' h0 hq
    exact h.room w' hw' e (hsub w' e he) hc hl r hr e' (hsub r e' he') h0 hq
  · intro j w' hj
    simp only [oneOf]
    by_cases hji : j = i
    · subst hji
      rw [hi] at hj
      cases hj
      rw [if_pos rfl, lookup_del hw, h.vals j w hi]
    · rw [if_neg hji, ← h.vals j w' hj]
      refine lookup_congr ?_ fun e _ => by rw [Heap.del, Heap.strings_setMap]
      rw [Heap.del, Heap.map_setMap_ne]
      intro e
      subst e
      exact hji ((List.getElem?_inj (List.getElem?_eq_some_iff.1 hj).1 hn).1 (hj.trans hi.symm))

theorem Heap.arr_setArr_self {r : Ref} {a : List GoStr} (h : a.length = (H.arr r).length) : (H.setArr r a).arr r = a := by
  cases r with
  | ext i =>
    simp only [Heap.setArr, Heap.arr, List.getElem?_set_self'] at h ⊢
    cases hi : H.extArrs[i]? with
    | none => rw [hi] at h; simp only [Option.map_eq_map, Option.map_none, Option.getD_none, List.length_nil] at h ⊢; exact (List.eq_nil_of_length_eq_zero h).symm
    | some b => rfl
  | own i =>
    simp only [Heap.setArr, Heap.arr, List.getElem?_set_self'] at h ⊢
    cases hi : H.ownArrs[i]? with
    | none => rw [hi] at h; simp only [Option.map_eq_map, Option.map_none, Option.getD_none, List.length_nil] at h ⊢; exact (List.eq_nil_of_length_eq_zero h).symm
    | some b => rfl

theorem strings_set_end (s : Slice) (v : GoStr) : (H.setArr s.arr ((H.arr s.arr).set (s.off + s.len) v)).strings s = H.strings s := by
  simp only [Heap.strings]
  rw [Heap.arr_setArr_self (by simp)]
  apply List.ext_getElem?
  intro i
  simp only [List.getElem?_take, List.getElem?_drop, List.getElem?_set]
  split
  · rw [if_neg (by omega)]
  · rfl

theorem strings_grown {s : Slice} (hv : s.Valid H) (hl : s.len < s.cap) (v : GoStr) :
    (H.setArr s.arr ((H.arr s.arr).set (s.off + s.len) v)).strings { s with len := s.len + 1 } = H.strings s ++ [v] := by
  have h2 := hv.2
  simp only [Heap.strings]
  rw [Heap.arr_setArr_self (by simp)]
  apply List.ext_getElem?
  intro i
  simp only [List.getElem?_take, List.getElem?_drop, List.getElem?_set, List.getElem?_append, List.length_take, List.length_drop]
  rcases Nat.lt_trichotomy i s.len with h | h | h
  · rw [if_pos (by omega), if_neg (by omega), if_pos (by omega), if_pos h]
  · subst h
    rw [if_pos (by omega), if_pos rfl, if_pos (by omega), if_neg (by omega)]
    rw [show s.len - min s.len ((H.arr s.arr).length - s.off) = 0 by omega]
    rfl
  · rw [if_neg (by omega), if_neg (by omega), List.getElem?_eq_none (by simp; omega)]

/-- An element is written in the part of the array that only this entry has, beyond its end. -/
theorem HKept.grow (h : HKept W R H0 H S) (ha : ∀ w ∈ W, some w ∉ R) (hw : w ∈ W) {k : GoStr} {s : Slice}
    (he : (k, s) ∈ H.map w) (hc : canon k = k) (hl : s.len < s.cap) (v : GoStr) :
    HKept W R H0 (H.setArr s.arr ((H.arr s.arr).set (s.off + s.len) v)) S := by
  have hal := h.room w hw (k, s) he hc hl
  have huniq : ∀ e ∈ H.map w, e.1 = k → e = (k, s) := by
    intro e he' hk
    have h1 := Heap.get_of_mem h.wf (r := w) (k := k) (s := e.2) (hk ▸ he')
    rw [Heap.get_of_mem h.wf he] at h1
    rw [← hk, Option.some.inj h1]
  have hstr : ∀ r, r ∈ W ∨ some r ∈ R → ∀ e ∈ H.map r,
      (H.setArr s.arr ((H.arr s.arr).set (s.off + s.len) v)).strings e.2 = H.strings e.2 := by
    intro r hr e he'
    have hval := (h.wf r).2 e he'
    by_cases h0 : e.2.cap = 0
    · rw [strings_of_len_zero (hval.len_zero h0), strings_of_len_zero (hval.len_zero h0)]
    · by_cases hq : e.2.arr = s.arr
      · obtain ⟨h1, h2⟩ := hal r hr e he' h0 hq
        subst h1
        have := huniq e he' h2
        subst this
        exact strings_set_end _ _
      · simp only [Heap.strings]
        rw [Heap.arr_setArr_ne H _ hq]
  refine ⟨WF.setArr h.wf _ (by simp), fun w' hw' => (h.has w' hw').setArr _, fun r hr => ?_, fun r hr e he' => ?_, ?_, ?_⟩
  · rw [Heap.map_setArr]; exact h.maps r hr
  · rw [Heap.map_setArr] at he'
    rw [hstr r (.inr hr) e he']
    exact h.strings r hr e he'
  · intro w' hw' e he' hc' hl' r hr e' he'' h0 hq
    rw [Heap.map_setArr] at he' he''
    exact h.room w' hw' e he' hc' hl' r hr e' he'' h0 hq
  · intro j w' hj
    rw [← h.vals j w' hj]
    exact lookup_congr (by rw [Heap.map_setArr]) fun e he' => hstr w' (.inl (mem_of_get hj)) e he'

/-- `Header.Add`. -/
theorem HKept.add (h : HKept W R H0 H S) (hn : W.Nodup) (ha : ∀ w ∈ W, some w ∉ R) (hi : W[i]? = some w) (spare : Nat → Nat) (name v : GoStr) :
    HKept W R H0 (H.hadd spare w name v) (oneOf S i ((S i).with (canon name) (some ((S i (canon name)).getD [] ++ [v])))) := by
  have hw := mem_of_get hi
  have hS : S i (canon name) = (H.get (some w) (canon name)).map H.strings := by rw [← h.vals i w hi]; rfl
  rw [Heap.hadd]
  cases hg : H.get (some w) (canon name) with
  | none =>
    rw [hS, hg]
    simp only [Option.getD_none, Option.map_none, List.nil_append]
    have := h.putNew hn ha hi (canon name) ([v] ++ List.replicate (spare 0) []) 1 (by simp)
    simpa [Heap.append, Slice.nil, Heap.strings, Nat.add_comm] using this
  | some s =>
    have hm := Heap.get_some hg
    have hv : s.Valid H := (h.wf w).2 _ hm
    rw [hS, hg]
    simp only [Option.getD_some, Option.map_some]
    by_cases hl : s.len < s.cap
    · simp only [Heap.append, if_pos hl]
      rw [← strings_grown hv hl v]
      have hg := h.grow ha hw hm (canon_idem _) hl v
      have hal := h.room w hw _ hm (canon_idem _) hl
      refine hg.put hn ha hi (canon name) ⟨by dsimp only; omega, ?_⟩ ?_ ?_
      · dsimp only
        rw [Heap.arr_setArr_self (by simp)]
        simpa using hv.2
      · intro _ _ r hr e he
        rw [Heap.map_setArr] at he
        exact hal r hr e he
      · intro w' hw' e he hc hl' _ hq
        rw [Heap.map_setArr] at he
        have := h.room w' hw' e he hc hl' w (.inl hw) _ hm (by dsimp only; omega) hq
        exact ⟨this.1.symm, this.2.symm⟩
    · simp only [Heap.append, if_neg hl]
      have hlen := hv.strings_length
      have := h.putNew hn ha hi (canon name) (H.strings s ++ [v] ++ List.replicate (spare s.len) []) (s.len + 1) (by simp; omega)
      have hlen' : (H.strings s ++ [v] ++ List.replicate (spare s.len) ([] : GoStr)).length = s.len + 1 + spare s.len := by simp; omega
      rw [hlen', List.take_left' (by simp; omega)] at this
      exact this

/-- `Header.Set`. -/
theorem HKept.set (h : HKept W R H0 H S) (hn : W.Nodup) (ha : ∀ w ∈ W, some w ∉ R) (hi : W[i]? = some w) (name v : GoStr) :
    HKept W R H0 (H.hset w name v) (oneOf S i ((S i).with (canon name) (some [v]))) :=
  h.putNew hn ha hi (canon name) [v] 1 (Nat.le_refl _)

theorem oneOf_oneOf (S : Nat → Hdrs) (i : Nat) (f g : Hdrs) : oneOf (oneOf S i f) i g = oneOf S i g := by
  funext j; simp only [oneOf]; split <;> rfl

theorem oneOf_same (S : Nat → Hdrs) (i : Nat) : oneOf S i (S i) = S := by
  funext j; simp only [oneOf]; split
  · rename_i h; rw [h]
  · rfl

theorem HKept.serveFold (hsn : Snug H0 R) (hn : W.Nodup) (ha : ∀ w ∈ W, some w ∉ R) (hi : W[i]? = some w) {r : Ref} (hr : some r ∈ R)
    (L : List (GoStr × Slice)) (hL : ∀ e ∈ L, e ∈ H0.map r) : ∀ {H : Heap} {S : Nat → Hdrs}, HKept W R H0 H S →
    HKept W R H0 (L.foldl (fun H e => if e.1 ≠ headerPush then H.put w e.1 e.2 else H) H)
      (oneOf S i (L.foldl (fun f e => if e.1 ≠ headerPush then Hdrs.with f e.1 (some (H0.strings e.2)) else f) (S i))) := by
  induction L with
  | nil => intro H S h; rw [List.foldl_nil, List.foldl_nil, oneOf_same]; exact h
  | cons e L ih =>
    intro H S h
    rw [List.foldl_cons, List.foldl_cons]
    by_cases hp : e.1 ≠ headerPush
    · rw [if_pos hp, if_pos hp]
      have he0 := hL e (List.mem_cons_self ..)
      have he : e ∈ H.map r := by rw [h.maps r hr]; exact he0
      have h1 := h.put hn ha hi e.1 ((h.wf r).2 e he)
        (fun hc hl => absurd hl (hsn r hr e he0 hp hc))
        (fun w' hw' e' he' hc hl h0 hq => absurd (h.room w' hw' e' he' hc hl r (.inr hr) e he h0 hq).1
          (fun hh => ha w' hw' (hh ▸ hr)))
      have h2 := ih (fun e he => hL e (List.mem_cons_of_mem _ he)) h1
      rw [oneOf_oneOf] at h2
      simp only [oneOf, if_true] at h2
      rw [h.strings r hr e he] at h2
      exact h2
    · rw [if_neg hp, if_neg hp]
      exact ih (fun e he => hL e (List.mem_cons_of_mem _ he)) h

theorem foldl_over (g : Slice → List GoStr) (L : List (GoStr × Slice)) (hL : L.Pairwise (fun a b => a.1 ≠ b.1)) (f : Hdrs) :
    L.foldl (fun f e => if e.1 ≠ headerPush then Hdrs.with f e.1 (some (g e.2)) else f) f =
      Hdrs.over (fun k => (L.find? (fun e => e.1 = k)).map (fun e => g e.2)) f := by
  have h1 : L.foldl (fun f e => if e.1 ≠ headerPush then Hdrs.with f e.1 (some (g e.2)) else f) f =
      (L.filter (fun e => e.1 ≠ headerPush)).foldl (fun f e => Hdrs.with f e.1 (some (g e.2))) f := by
    rw [List.foldl_filter]
    simp only [decide_eq_true_eq]
  rw [h1, foldl_with g _ (hL.filter _)]
  funext k
  simp only [Hdrs.over, List.find?_filter]
  by_cases hk : k = lit "Push"
  · rw [if_pos hk]
    have : L.find? (fun a => decide (decide (a.1 ≠ headerPush) = true ∧ decide (a.1 = k) = true)) = none := by
      rw [List.find?_eq_none]
      intro e _
      simp only [decide_eq_true_eq]
      rintro ⟨h1, h2⟩
      exact h1 (h2.trans hk)
    rw [this]
  · rw [if_neg hk]
    have : (fun a : GoStr × Slice => decide (decide (a.1 ≠ headerPush) = true ∧ decide (a.1 = k) = true)) = fun a => decide (a.1 = k) := by
      funext a
      by_cases ha : a.1 = k
      · have : a.1 ≠ headerPush := fun h => hk (ha.symm.trans h)
        simp [ha, ha ▸ this]
      · simp [ha]
    rw [this]
    cases L.find? (fun a => decide (a.1 = k)) <;> rfl

/-- A Response is served. -/
theorem HKept.serve (hwf : H0.WF) (hsn : Snug H0 R) (hn : W.Nodup) (ha : ∀ w ∈ W, some w ∉ R) (hi : W[i]? = some w) {m : Option Ref} (hr : m ∈ R)
    (h : HKept W R H0 H S) : HKept W R H0 (H.serveHeaders w m) (oneOf S i ((Hdrs.over (H0.lookup m) (S i)))) := by
  cases m with
  | none =>
    have : Hdrs.over (H0.lookup none) (S i) = S i := by
      funext k; simp [Hdrs.over, Heap.lookup, Heap.get, Heap.entries]
    rw [this, oneOf_same]
    exact h
  | some r =>
    have h1 := HKept.serveFold hsn hn ha hi hr (H0.map r) (fun _ he => he) h
    rw [foldl_over _ _ (hwf r).1] at h1
    have h2 : H0.lookup (some r) = fun k => ((H0.map r).find? (fun e => e.1 = k)).map (fun e => H0.strings e.2) := funext (lookup_eq r)
    rw [h2, Heap.serveHeaders, Heap.entries, h.maps r hr]
    exact h1

/-- Whatever happens. -/
theorem HKept.edit (hwf : H0.WF) (hsn : Snug H0 R) (hn : W.Nodup) (ha : ∀ w ∈ W, some w ∉ R) (spare : Nat → Nat) (h : HKept W R H0 H S)
    (op : HEdit) : HKept W R H0 (H.edit spare W R op) (edited (fun j => H0.lookup (R[j]?.getD none)) S op) := by
  have hout : ∀ {i : Nat} {f : Hdrs}, W[i]? = none → HKept W R H0 H (oneOf S i f) := by
    intro i f hi
    refine { h with vals := fun j w' hj => ?_ }
    simp only [oneOf]
    rw [if_neg (by intro e; subst e; rw [hi] at hj; cases hj)]
    exact h.vals j w' hj
  cases op with
  | serve i j =>
    simp only [Heap.edit, edited]
    cases hi : W[i]? with
    | none => exact hout hi
    | some w =>
      cases hj : R[j]? with
      | none =>
        have : Hdrs.over (H0.lookup none) (S i) = S i := by
          funext k; simp [Hdrs.over, Heap.lookup, Heap.get, Heap.entries]
        simp only [Option.getD_none]
        rw [this, oneOf_same]
        exact h
      | some m => exact HKept.serve hwf hsn hn ha hi (List.mem_of_getElem? hj) h
  | add i name value =>
    simp only [Heap.edit, edited]
    cases hi : W[i]? with
    | none => exact hout hi
    | some w => exact h.add hn ha hi spare name value
  | set i name value =>
    simp only [Heap.edit, edited]
    cases hi : W[i]? with
    | none => exact hout hi
    | some w => exact h.set hn ha hi name value
  | del i name =>
    simp only [Heap.edit, edited]
    cases hi : W[i]? with
    | none => exact hout hi
    | some w => exact h.del hn ha hi (canon name)

theorem HKept.edits (hwf : H0.WF) (hsn : Snug H0 R) (hn : W.Nodup) (ha : ∀ w ∈ W, some w ∉ R) (spare : Nat → Nat) (ops : List HEdit) :
    ∀ {H : Heap} {S : Nat → Hdrs}, HKept W R H0 H S →
    HKept W R H0 (ops.foldl (Heap.edit spare W R) H) (ops.foldl (edited (fun j => H0.lookup (R[j]?.getD none))) S) := by
  induction ops with
  | nil => intro H S h; exact h
  | cons op ops ih => intro H S h; exact ih (h.edit hwf hsn hn ha spare op)

/-! ## What is served is what is in the map, slice by slice -/

theorem get_eq (r : Ref) (k : GoStr) : H.get (some r) k = ((H.map r).find? (fun e => e.1 = k)).map (·.2) := rfl

theorem get_put {w : Ref} (h : H.HasMap w) (k : GoStr) (s : Slice) (k' : GoStr) :
    (H.put w k s).get (some w) k' = if k' = k then some s else H.get (some w) k' := by
  rw [get_eq, put_eq, Heap.map_setMap_self h, find_putList, get_eq]
  split <;> simp

theorem serveFold_maps (w : Ref) (L : List (GoStr × Slice)) : ∀ {H : Heap},
    (∀ r, r ≠ w → (L.foldl (fun H e => if e.1 ≠ headerPush then H.put w e.1 e.2 else H) H).map r = H.map r) ∧
    (∀ r, (L.foldl (fun H e => if e.1 ≠ headerPush then H.put w e.1 e.2 else H) H).arr r = H.arr r) ∧
    (∀ r, H.HasMap r → (L.foldl (fun H e => if e.1 ≠ headerPush then H.put w e.1 e.2 else H) H).HasMap r) := by
  induction L with
  | nil => exact ⟨fun _ _ => rfl, fun _ => rfl, fun _ h => h⟩
  | cons e L ih =>
    intro H
    rw [List.foldl_cons]
    by_cases hp : e.1 ≠ headerPush
    · rw [if_pos hp]
      obtain ⟨h1, h2, h3⟩ := ih (H := H.put w e.1 e.2)
      refine ⟨fun r hr => (h1 r hr).trans ?_, fun r => (h2 r).trans ?_, fun r hr => h3 r (hr.setMap _)⟩
      · rw [put_eq, Heap.map_setMap_ne H _ hr]
      · rw [put_eq, Heap.arr_setMap]
    · rw [if_neg hp]
      exact ih

theorem serveFold_get {w : Ref} {k : GoStr} {s : Slice} (hk : k ≠ headerPush) (L : List (GoStr × Slice)) (hL : L.Pairwise (fun a b => a.1 ≠ b.1)) :
    ∀ {H : Heap}, H.HasMap w → ((k, s) ∈ L ∨ (∀ e ∈ L, e.1 ≠ k) ∧ H.get (some w) k = some s) →
    (L.foldl (fun H e => if e.1 ≠ headerPush then H.put w e.1 e.2 else H) H).get (some w) k = some s := by
  induction L with
  | nil =>
    intro H _ h
    rcases h with h | h
    · cases h
    · exact h.2
  | cons e L ih =>
    intro H hw h
    rw [List.pairwise_cons] at hL
    rw [List.foldl_cons]
    by_cases hek : e.1 = k
    · rw [if_pos (by rw [hek]; exact hk)]
      refine ih hL.2 (hw.setMap _) (.inr ⟨fun e' he' hq => hL.1 e' he' (hek.trans hq.symm), ?_⟩)
      rw [get_put hw, if_pos hek.symm]
      rcases h with h | h
      · rcases List.mem_cons.1 h with h | h
        · rw [← h]
        · exact absurd hek (hL.1 _ h)
      · exact absurd hek (h.1 e (List.mem_cons_self ..))
    · have h' : ∀ H' : Heap, H'.get (some w) k = H.get (some w) k → (k, s) ∈ L ∨ (∀ e ∈ L, e.1 ≠ k) ∧ H'.get (some w) k = some s := by
        intro H' hq
        rcases h with h | h
        · rcases List.mem_cons.1 h with h | h
          · exact absurd (by rw [← h]) hek
          · exact .inl h
        · exact .inr ⟨fun e' he' => h.1 e' (List.mem_cons_of_mem _ he'), hq.trans h.2⟩
      by_cases hp : e.1 ≠ headerPush
      · rw [if_pos hp]
        exact ih hL.2 (hw.setMap _) (h' _ (by rw [get_put hw, if_neg (Ne.symm hek)]))
      · rw [if_neg hp]
        exact ih hL.2 hw (h' _ rfl)

theorem serve_get (hwf : H.WF) {w r : Ref} (hw : H.HasMap w) {k : GoStr} {s : Slice} (hk : k ≠ headerPush) (he : (k, s) ∈ H.map r) :
    (H.serveHeaders w (some r)).get (some w) k = some s :=
  serveFold_get hk _ (hwf r).1 hw (.inl he)

theorem serve_map {w r : Ref} {m : Option Ref} (hr : r ≠ w) : (H.serveHeaders w m).map r = H.map r := (serveFold_maps w _).1 r hr

theorem serve_arr {w r : Ref} {m : Option Ref} : (H.serveHeaders w m).arr r = H.arr r := (serveFold_maps w _).2.1 r

theorem serve_has {w r : Ref} {m : Option Ref} (hr : H.HasMap r) : (H.serveHeaders w m).HasMap r := (serveFold_maps w _).2.2 r hr

theorem serve_wf (hwf : H.WF) {w : Ref} {m : Option Ref} : (H.serveHeaders w m).WF := by
  have : ∀ (L : List (GoStr × Slice)) {H : Heap}, H.WF → (∀ e ∈ L, e.2.Valid H) →
      (L.foldl (fun H e => if e.1 ≠ headerPush then H.put w e.1 e.2 else H) H).WF := by
    intro L
    induction L with
    | nil => intro H h _; exact h
    | cons e L ih =>
      intro H h hv
      rw [List.foldl_cons]
      by_cases hp : e.1 ≠ headerPush
      · rw [if_pos hp]
        refine ih (WF.put h w e.1 (hv e (List.mem_cons_self ..))) fun e' he' => ?_
        refine (hv e' (List.mem_cons_of_mem _ he')).mono ?_
        rw [put_eq, Heap.arr_setMap]
        exact Nat.le_refl _
      · rw [if_neg hp]
        exact ih h fun e' he' => hv e' (List.mem_cons_of_mem _ he')
  refine this _ hwf ?_
  cases m with
  | none => intro e he; cases he
  | some r => exact (hwf r).2

/-- Two maps with the same slice, with spare capacity: what is added to one is overwritten by what is added to the other. -/
theorem add_add (spare : Nat → Nat) {w w' : Ref} (hne : w ≠ w') (hw : H.HasMap w) {k : GoStr} (hk : canon k = k) {s : Slice}
    (hv : s.Valid H) (hl : s.len < s.cap) (h1 : H.get (some w) k = some s) (h2 : H.get (some w') k = some s) (x y : GoStr) :
    ((H.hadd spare w k x).hadd spare w' k y).lookup (some w) k = some (H.strings s ++ [y]) := by
  have e1 : H.hadd spare w k x = (H.setArr s.arr ((H.arr s.arr).set (s.off + s.len) x)).put w k { s with len := s.len + 1 } := by
    simp only [Heap.hadd, hk, h1, Option.getD_some, Heap.append, if_pos hl]
  have ha : ∀ (G : Heap) (m : Option Ref), (∀ r, m = some r → G.map r = H.map r) → G.get m k = H.get m k := by
    intro G m hm
    cases m with
    | none => rfl
    | some r => rw [get_eq, get_eq, hm r rfl]
  have e2 : (H.hadd spare w k x).get (some w') k = some s := by
    rw [ha _ _ (fun r hr => ?_), h2]
    cases hr
    rw [e1, put_eq, Heap.map_setMap_ne _ _ hne.symm, Heap.map_setArr]
  have e3 : (H.hadd spare w k x).arr s.arr = (H.arr s.arr).set (s.off + s.len) x := by
    rw [e1, put_eq, Heap.arr_setMap, Heap.arr_setArr_self (by simp)]
  have e4 : (H.hadd spare w k x).hadd spare w' k y =
      ((H.hadd spare w k x).setArr s.arr ((H.arr s.arr).set (s.off + s.len) y)).put w' k { s with len := s.len + 1 } := by
    rw [Heap.hadd, hk, e2]
    simp only [Option.getD_some, Heap.append, if_pos hl, e3, List.set_set]
  have e5 : (H.hadd spare w k x).get (some w) k = some { s with len := s.len + 1 } := by
    rw [e1, get_put (hw.setArr _), if_pos rfl]
  rw [e4, lookup_put_ne hne, Heap.lookup, show ((H.hadd spare w k x).setArr s.arr ((H.arr s.arr).set (s.off + s.len) y)).get (some w) k =
    (H.hadd spare w k x).get (some w) k by rw [get_eq, Heap.map_setArr]; rfl, e5]
  rw [Option.map_some, ← strings_grown hv hl y]
  simp only [Heap.strings]
  rw [Heap.arr_setArr_self (by rw [e3]; simp), Heap.arr_setArr_self (by simp)]

end Verif
