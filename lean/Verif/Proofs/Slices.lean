import Verif.Model.Slices

/-! # Facts about slices -/

set_option autoImplicit false

namespace Verif

/-- The slice lies within its array. -/
def BSlice.Valid (m : BMem) (s : BSlice) : Prop := s.len ≤ s.cap ∧ s.off + s.cap ≤ (m[s.arr]?.getD []).length

theorem BSlice.nil_valid (m : BMem) : BSlice.nil.Valid m := ⟨Nat.le_refl _, Nat.zero_le _⟩

theorem overwrite_nil (l : List Byte) (i : Nat) : overwrite l i [] = l := by simp [overwrite]

theorem length_overwrite (l : List Byte) (i : Nat) (d : List Byte) (h : i + d.length ≤ l.length) : (overwrite l i d).length = l.length := by
  simp [overwrite]; omega

/-- Looking at what was written. -/
theorem overwrite_read (l : List Byte) (i : Nat) (d : List Byte) (h : i ≤ l.length) : ((overwrite l i d).drop i).take d.length = d := by
  simp only [overwrite, List.append_assoc]
  rw [List.drop_left' (by simp [h]), List.take_left' rfl]

/-- Looking before, and at the front of what was written. -/
theorem overwrite_take (l : List Byte) (i : Nat) (d : List Byte) (n : Nat) (h : i ≤ l.length) (hn : n ≤ d.length) :
    (overwrite l i d).take (i + n) = l.take i ++ d.take n := by
  simp only [overwrite, List.append_assoc]
  rw [List.take_append, List.take_of_length_le (by simp only [List.length_take]; omega)]
  simp only [List.length_take, Nat.min_eq_left h, Nat.add_sub_cancel_left]
  rw [List.take_append, Nat.sub_eq_zero_of_le hn, List.take_zero, List.append_nil]

namespace BMem

theorem length_store (m : BMem) (s : BSlice) (d : List Byte) : (m.store s d).length = m.length := by simp [store]

theorem get_store_ne (m : BMem) (s : BSlice) (d : List Byte) (a : Nat) (h : a ≠ s.arr) : (m.store s d)[a]? = m[a]? := by
  simp [store, List.getElem?_set_ne (Ne.symm h)]

theorem getD_store (m : BMem) (s : BSlice) (d : List Byte) (h : s.arr < m.length) :
    (m.store s d)[s.arr]?.getD [] = overwrite (m[s.arr]?.getD []) s.off (d.take s.len) := by
  simp [store, h]

/-- A slice with an element has an array. -/
theorem arr_lt (m : BMem) (s : BSlice) (h : s.Valid m) (hc : s.cap > 0) : s.arr < m.length := by
  apply Classical.byContradiction
  intro hlt
  have := h.2
  rw [List.getElem?_eq_none (by omega)] at this
  simp at this; omega

theorem store_empty (m : BMem) (s : BSlice) (d : List Byte) (h : s.len = 0) : m.store s d = m := by
  unfold store
  rw [h, List.take_zero, overwrite_nil]
  by_cases hl : s.arr < m.length
  · simp [hl]
  · rw [List.set_eq_of_length_le (by omega)]

theorem length_bytes (m : BMem) (s : BSlice) (h : s.Valid m) : (m.bytes s).length = s.len := by
  have := h.1; have := h.2
  simp only [bytes, List.length_take, List.length_drop]; omega

theorem bytes_nil (m : BMem) : m.bytes .nil = [] := by simp [bytes, BSlice.nil]

theorem bytes_empty (m : BMem) (s : BSlice) (h : s.len = 0) : m.bytes s = [] := by simp [bytes, h]

theorem bytes_congr (m m' : BMem) (s : BSlice) (h : m'[s.arr]? = m[s.arr]?) : m'.bytes s = m.bytes s := by simp [bytes, h]

theorem valid_congr (m m' : BMem) (s : BSlice) (h : m'[s.arr]? = m[s.arr]?) : s.Valid m ↔ s.Valid m' := by simp [BSlice.Valid, h]

/-- Storing does not change where slices are. -/
theorem valid_store (m : BMem) (p s : BSlice) (d : List Byte) (hp : p.Valid m) : s.Valid (m.store p d) ↔ s.Valid m := by
  by_cases he : p.len = 0
  · rw [store_empty m p d he]
  by_cases h : s.arr = p.arr
  · have hlt := arr_lt m p hp (by have := hp.1; omega)
    have : ((m.store p d)[s.arr]?.getD []).length = (m[s.arr]?.getD []).length := by
      rw [h, getD_store m p d hlt]
      apply length_overwrite
      have := hp.1; have := hp.2; simp only [List.length_take]; omega
    simp only [BSlice.Valid, this]
  · simp only [BSlice.Valid, get_store_ne m p d s.arr h]

/-- BSlice expressions, on the level of lists. -/
theorem sub_bytes (m : BMem) (s : BSlice) (i j : Int) (h : s.Valid m) (hj : j ≤ s.len) : goSlice (m.bytes s) i j = (s.sub i j).map m.bytes := by
  have h1 := h.1
  have hl := length_bytes m s h
  unfold goSlice BSlice.sub
  rw [hl]
  by_cases hc : 0 ≤ i ∧ i ≤ j ∧ j ≤ (s.len : Int)
  · rw [if_pos hc, if_pos ⟨hc.1, hc.2.1, by omega⟩]
    simp only [Option.map_some, Option.some.injEq, bytes]
    rw [List.drop_take, List.take_take, List.drop_drop]
    congr 1
    omega
  · rw [if_neg hc, if_neg (fun h => hc ⟨h.1, h.2.1, hj⟩)]
    rfl

theorem sub_valid (m : BMem) (s t : BSlice) (i j : Int) (h : s.Valid m) (ht : s.sub i j = some t) :
    t.Valid m ∧ t.arr = s.arr ∧ (t.len : Int) = j - i ∧ t.off = s.off + i.toNat ∧ t.cap = s.cap - i.toNat := by
  unfold BSlice.sub at ht
  split at ht
  · rename_i hc
    simp only [Option.some.injEq] at ht
    subst ht
    have := h.1; have := h.2
    refine ⟨⟨?_, ?_⟩, rfl, ?_, rfl, rfl⟩ <;> simp only <;> omega
  · simp at ht

/-- What was stored can be read back. -/
theorem bytes_store_take (m : BMem) (p : BSlice) (d : List Byte) (hp : p.Valid m) (hd : d.length ≤ p.len) :
    ((m.store p d).bytes p).take d.length = d := by
  by_cases h0 : d.length = 0
  · rw [List.eq_nil_of_length_eq_zero h0]; simp
  have h1 := hp.1; have h2 := hp.2
  have hlt := arr_lt m p hp (by omega)
  simp only [bytes, getD_store m p d hlt]
  rw [List.take_of_length_le hd, List.take_take, Nat.min_eq_left hd]
  exact overwrite_read _ _ _ (by omega)

theorem store_congr (m m' : BMem) (p : BSlice) (d : List Byte) (a : Nat) (h : m'[a]? = m[a]?) : (m'.store p d)[a]? = (m.store p d)[a]? := by
  by_cases ha : a = p.arr
  · subst ha
    simp only [store]
    rw [List.getElem?_set, List.getElem?_set, h]
    simp only [if_true]
    by_cases hl : p.arr < m.length
    · have hl' : p.arr < m'.length := by
        apply Classical.byContradiction; intro hc
        rw [List.getElem?_eq_none (l := m') (by omega), List.getElem?_eq_getElem hl] at h
        cases h
      simp [hl, hl']
    · have hl' : ¬ p.arr < m'.length := by
        intro hc
        rw [List.getElem?_eq_none (l := m) (by omega), List.getElem?_eq_getElem hc] at h
        cases h
      simp [hl, hl']
  · rw [get_store_ne _ _ _ _ ha, get_store_ne _ _ _ _ ha, h]

/-- Memory that has only grown. -/
theorem valid_grow (m m' : BMem) (s : BSlice) (h : s.Valid m) (hg : ∀ a, a < m.length → m'[a]? = m[a]?) :
    s.Valid m' ∧ m'.bytes s = m.bytes s := by
  by_cases ha : s.arr < m.length
  · exact ⟨(valid_congr _ _ _ (hg _ ha)).1 h, bytes_congr _ _ _ (hg _ ha)⟩
  · have h2 := h.2; have h1 := h.1
    rw [List.getElem?_eq_none (by omega)] at h2
    simp at h2
    have : s.len = 0 := by omega
    exact ⟨⟨h1, by omega⟩, by rw [bytes_empty _ _ this, bytes_empty _ _ this]⟩

/-- Storing at the front of a part that begins where the slice begins. -/
theorem store_sub (m : BMem) (p t : BSlice) (d : List Byte) (h1 : t.arr = p.arr) (h2 : t.off = p.off) (h3 : d.length ≤ t.len) (h4 : d.length ≤ p.len) :
    m.store t d = m.store p d := by
  unfold store
  rw [h1, h2, List.take_of_length_le h3, List.take_of_length_le h4]

end BMem
end Verif
