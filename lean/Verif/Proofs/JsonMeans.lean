import Verif.Proofs.JsonValue

/-! # What can be encoded is what has a meaning, and only one -/

set_option autoImplicit false

namespace Verif.Json
open Verif.Spec (crlf)
open Verif.Spec.Json

/-! ## Numbers, once more -/

theorem dropWhile_digits {d r : GoStr} (h : ∀ b ∈ d, digit b = true) (hr : ∀ b ∈ r.head?, digit b = false) : (d ++ r).dropWhile digit = r := by
  induction d with
  | nil =>
    match r, hr with
    | [], _ => rfl
    | b :: r, hr => rw [List.nil_append, List.dropWhile_cons, hr b (by simp)]; rfl
  | cons b d ih =>
    rw [List.cons_append, List.dropWhile_cons, h b (by simp), if_pos rfl]
    exact ih fun x hx => h x (by simp [hx])

theorem validExp_of {x : GoStr} {e : Int} (h : ExpPart x e) : validExp x = some [] := by
  rcases h with ⟨rfl, -⟩ | ⟨a, s, d, ha, ⟨hd, hd'⟩, rfl, hs⟩
  · rfl
  · have hall : d.dropWhile digit = [] := by
      have := dropWhile_digits (r := []) hd' (by simp)
      rwa [List.append_nil] at this
    rcases hs with ⟨rfl | rfl, -⟩ | ⟨rfl, -⟩
    · match d, hd, hd', hall with
      | b :: d, _, hd', hall =>
        have hb := digit_byte (hd' b (by simp))
        rw [List.nil_append, validExp, if_pos ha, if_neg (by simp [hb]), hall]
    · rw [List.singleton_append, validExp, if_pos ha, if_pos (.inl rfl), if_neg hd, hall]
    · rw [List.singleton_append, validExp, if_pos ha, if_pos (.inr rfl), if_neg hd, hall]

theorem expPart_head {x : GoStr} {e : Int} (h : ExpPart x e) : ∀ b ∈ x.head?, digit b = false ∧ b ≠ 46 := by
  rcases h with ⟨rfl, -⟩ | ⟨a, s, d, ha, -, rfl, -⟩
  · intro b hb; cases hb
  · intro b hb
    simp only [List.head?_cons, Option.mem_def, Option.some.injEq] at hb
    subst hb
    rcases ha with rfl | rfl <;> decide

theorem validFrac_of {f d x : GoStr} {e : Int} (h : FracPart f d) (hx : ExpPart x e) : validFrac (f ++ x) = x := by
  have hh := expPart_head hx
  rcases h with ⟨rfl, rfl⟩ | ⟨⟨h1, h2⟩, rfl⟩
  · match x, hh with
    | [], _ => rfl
    | [a], _ => rfl
    | a :: b :: x, hh =>
      have := (hh a (by simp)).2
      simp [validFrac, this]
  · match d, h1, h2 with
    | b :: d, _, h2 =>
      simp only [List.cons_append, validFrac]
      rw [if_pos (by simp [h2 b (by simp)])]
      exact dropWhile_digits (fun y hy => h2 y (by simp [hy])) fun y hy => (hh y hy).1

theorem validInt_of {int r : GoStr} (h : IntPart int) (hr : ∀ b ∈ r.head?, digit b = false) : validInt (int ++ r) = some r := by
  obtain ⟨⟨h1, h2⟩, h3⟩ := h
  match int, h1, h2, h3 with
  | b :: l, _, h2, h3 =>
    by_cases hb : b = 48
    · subst hb
      cases h3 rfl
      rfl
    · rw [List.cons_append, validInt, if_neg hb, if_pos (digit_range (h2 b (by simp)) hb), dropWhile_digits (fun y hy => h2 y (by simp [hy])) hr]

/-- `isValidNumber` accepts all numbers. -/
theorem num_valid {t : GoStr} {m e : Int} (h : NumText t m e) : isValidNumber t = true := by
  obtain ⟨neg, int, f, d, x, ex, h1, h2, h3, rfl, -, -⟩ := h
  have hr : ∀ b ∈ (f ++ x).head?, digit b = false := by
    rcases h2 with ⟨rfl, -⟩ | ⟨-, rfl⟩
    · exact fun b hb => (expPart_head h3 b hb).1
    · intro b hb
      simp only [List.cons_append, List.head?_cons, Option.mem_def, Option.some.injEq] at hb
      subst hb
      decide
  have hi := validInt_of h1 hr
  have hs : (if ((if neg then [45] else []) ++ int ++ f ++ x).head? = some 45 then ((if neg then [45] else []) ++ int ++ f ++ x).tail
      else (if neg then [45] else []) ++ int ++ f ++ x) = int ++ (f ++ x) := by
    cases neg
    · match int, h1 with
      | [], h1 => exact absurd rfl h1.1.1
      | b :: l, h1 =>
        have := (digit_byte (h1.1.2 b (by simp))).2.1
        simp [this]
    · simp
  simp only [isValidNumber]
  rw [hs, hi]
  simp only []
  rw [validFrac_of h2 h3, validExp_of h3]
  simp

/-! ## What has a meaning can be encoded -/

theorem rawDepthAll_le {l : List JVal} {v : JVal} (h : v ∈ l) : rawDepth v ≤ rawDepthAll l := by
  induction l with
  | nil => cases h
  | cons w l ih =>
    rw [rawDepthAll]
    rcases List.mem_cons.1 h with rfl | h
    · omega
    · have := ih h
      omega

theorem rawDepthMems_le {l : List (GoStr × JVal)} {p : GoStr × JVal} (h : p ∈ l) : rawDepth p.2 ≤ rawDepthMems l := by
  induction l with
  | nil => cases h
  | cons w l ih =>
    obtain ⟨k, w⟩ := w
    rw [rawDepthMems]
    rcases List.mem_cons.1 h with rfl | h
    · exact Nat.le_max_left _ _
    · have := ih h
      omega

theorem rawDepthMems_perm {l l' : List (GoStr × JVal)} (h : l.Perm l') : rawDepthMems l = rawDepthMems l' := by
  induction h with
  | nil => rfl
  | cons p _ ih => obtain ⟨k, v⟩ := p; simp only [rawDepthMems, ih]
  | swap p q l => obtain ⟨k, v⟩ := p; obtain ⟨k', v'⟩ := q; simp only [rawDepthMems]; omega
  | trans _ _ h1 h2 => exact h1.trans h2

mutual

theorem rawDepth_le : ∀ v : JVal, rawDepth v ≤ depth v
  | .null | .bool _ | .int _ | .number _ | .str _ | .own _ | .bad _ => by simp [rawDepth]
  | .raw s => by rw [rawDepth, depth]; exact Nat.le_refl _
  | .arr l => by have := rawDepthAll_depth l; rw [rawDepth, depth]; omega
  | .struct l => by have := rawDepthMems_depth l; rw [rawDepth, depth]; omega
  | .map l => by have := rawDepthMems_depth l; rw [rawDepth, depth]; omega

theorem rawDepthAll_depth : ∀ l : List JVal, rawDepthAll l ≤ depthAll l
  | [] => by rw [rawDepthAll, depthAll]; exact Nat.le_refl _
  | v :: l => by have h1 := rawDepth_le v; have h2 := rawDepthAll_depth l; rw [rawDepthAll, depthAll]; omega

theorem rawDepthMems_depth : ∀ l : List (GoStr × JVal), rawDepthMems l ≤ depthMems l
  | [] => by rw [rawDepthMems, depthMems]; exact Nat.le_refl _
  | (k, v) :: l => by have h1 := rawDepth_le v; have h2 := rawDepthMems_depth l; rw [rawDepthMems, depthMems]; omega

end

theorem means_marshal {v : JVal} {j : J} (h : Means v j) (hd : rawDepth v ≤ 10000) : ∃ t, marshal v = .ok t := by
  induction h with
  | @raw s j hj =>
    obtain ⟨T, -, -, -, h4⟩ := squeezed_parse hj
    rw [rawDepth, textNest, hj, Option.map_some, Option.getD_some] at hd
    exact ⟨_, by rw [marshal, h4, if_pos (by exact hd)]⟩
  | null => exact ⟨_, by rw [marshal]⟩
  | bool b => exact ⟨_, by rw [marshal]⟩
  | int i => exact ⟨_, by rw [marshal]⟩
  | zero => exact ⟨_, by rw [marshal]; rfl⟩
  | @number t s m e ht hs =>
    obtain ⟨u, hs', hu⟩ := number_bytes hs
    rw [List.append_nil] at hs'
    subst hs'
    rw [utf8_chrs fun b hb => (hu.ascii b hb).1] at ht
    subst ht
    have hv := num_valid hu
    obtain ⟨b, l, rfl, -⟩ := hu.first
    exact ⟨_, by rw [marshal]; simp [hv]; rfl⟩
  | str _ => exact ⟨_, by rw [marshal]⟩
  | arrNil => exact (marshal_arr _).2 fun v hv => by cases hv
  | arrCons _ _ h1 h2 =>
    simp only [rawDepth, rawDepthAll] at hd h2
    refine (marshal_arr _).2 fun v hv => ?_
    rcases List.mem_cons.1 hv with rfl | hv
    · exact h1 (by omega)
    · exact (marshal_arr _).1 (h2 (by omega)) v hv
  | structNil => exact (marshal_struct _).2 fun v hv => by cases hv
  | structCons _ _ _ h1 h2 =>
    simp only [rawDepth, rawDepthMems] at hd h2
    refine (marshal_struct _).2 fun p hp => ?_
    rcases List.mem_cons.1 hp with rfl | hp
    · exact h1 (by omega)
    · exact (marshal_struct _).1 (h2 (by omega)) p hp
  | map hp _ _ h =>
    simp only [rawDepth] at hd h
    exact (marshal_map _).2 fun p hq => (marshal_struct _).1 (h (by rw [rawDepthMems_perm hp]; exact hd)) p (hp.mem_iff.2 hq)

mutual

theorem marshal_rawDepth : ∀ v : JVal, WellNamed v → (∃ t, marshal v = .ok t) → rawDepth v ≤ 10000
  | .null, _, _ | .bool _, _, _ | .int _, _, _ | .number _, _, _ | .str _, _, _ | .bad _, _, _ => by simp [rawDepth]
  | .raw s, .raw (j := j) hj, h => by
    obtain ⟨T, -, -, -, h4⟩ := squeezed_parse hj
    rw [rawDepth, textNest, hj, Option.map_some, Option.getD_some]
    by_cases hn : j.nest ≤ maxNesting
    · exact hn
    · rw [if_neg hn] at h4
      obtain ⟨t, ht⟩ := h
      rw [marshal, h4] at ht
      cases ht
  | .arr l, .arr hw, h => by rw [rawDepth]; exact marshal_rawDepthAll l hw ((marshal_arr l).1 h)
  | .struct l, .struct _ hw, h => by rw [rawDepth]; exact marshal_rawDepthMems l hw ((marshal_struct l).1 h)
  | .map l, .map hw, h => by rw [rawDepth]; exact marshal_rawDepthMems l hw ((marshal_map l).1 h)

theorem marshal_rawDepthAll : ∀ l : List JVal, (∀ v ∈ l, WellNamed v) → (∀ v ∈ l, ∃ t, marshal v = .ok t) → rawDepthAll l ≤ 10000
  | [], _, _ => by rw [rawDepthAll]; omega
  | v :: l, hw, h => by
    have h1 := marshal_rawDepth v (hw v List.mem_cons_self) (h v List.mem_cons_self)
    have h2 := marshal_rawDepthAll l (fun w k => hw w (List.mem_cons_of_mem _ k)) fun w k => h w (List.mem_cons_of_mem _ k)
    rw [rawDepthAll]
    omega

theorem marshal_rawDepthMems : ∀ l : List (GoStr × JVal), (∀ p ∈ l, WellNamed p.2) → (∀ p ∈ l, ∃ t, marshal p.2 = .ok t) → rawDepthMems l ≤ 10000
  | [], _, _ => by rw [rawDepthMems]; omega
  | (k, v) :: l, hw, h => by
    have h1 := marshal_rawDepth v (hw (k, v) List.mem_cons_self) (h (k, v) List.mem_cons_self)
    have h2 := marshal_rawDepthMems l (fun w k => hw w (List.mem_cons_of_mem _ k)) fun w k => h w (List.mem_cons_of_mem _ k)
    rw [rawDepthMems]
    omega

end

/-- The values that can be encoded are those that have a meaning, unless what encodes itself is nested too deep. -/
theorem marshal_iff_means {v : JVal} (hw : WellNamed v) : (∃ t, marshal v = .ok t) ↔ (∃ j, Means v j) ∧ rawDepth v ≤ 10000 := by
  constructor
  · intro h
    have hd := marshal_rawDepth v hw h
    obtain ⟨e, h1, rfl⟩ := marshal_text v hw h
    exact ⟨⟨_, h1.means⟩, hd⟩
  · rintro ⟨⟨j, hj⟩, hd⟩
    exact means_marshal hj hd

/-! ## Only one meaning -/

theorem utf8_first {c c' : Char} {s s' : GoStr} (h : String.utf8EncodeChar c ++ s = String.utf8EncodeChar c' ++ s') : c = c' ∧ s = s' := by
  have h1 := decode_rune (char_valid c) s
  have h2 := decode_rune (char_valid c') s'
  rw [← utf8_char] at h1 h2
  rw [h, h2] at h1
  have : c = c' := by
    have := congrArg Prod.fst h1
    simp only at this
    rw [← ofNat_toNat c, ← ofNat_toNat c', this]
  subst this
  exact ⟨rfl, List.append_cancel_left h⟩

theorem runes_unique {s : GoStr} {cs cs' : List Char} (h : Runes s cs) (h' : Runes s cs') : cs = cs' := by
  induction h generalizing cs' with
  | nil =>
    generalize hs : ([] : GoStr) = s at h'
    cases h' with
    | nil => rfl
    | char c _ => rw [utf8_char] at hs; exact absurd (List.append_eq_nil_iff.1 hs.symm).1 (encodeRune_ne_nil _)
    | broken b _ _ => cases hs
  | @char c s cs _ ih =>
    generalize hs : String.utf8EncodeChar c ++ s = u at h'
    cases h' with
    | nil => rw [utf8_char] at hs; exact absurd (List.append_eq_nil_iff.1 hs).1 (encodeRune_ne_nil _)
    | char c' h' =>
      obtain ⟨rfl, rfl⟩ := utf8_first hs
      rw [ih h']
    | broken b hb _ => exact absurd hs.symm (hb c s)
  | @broken b s cs hb _ ih =>
    generalize hs : b :: s = u at h'
    cases h' with
    | nil => cases hs
    | char c' h' => exact absurd hs (hb c' _)
    | broken b' _ h' =>
      cases hs
      rw [ih h']

theorem means_unique {v : JVal} {j j' : J} (hk : Keyed v) (h : Means v j) (h' : Means v j') : j = j' := by
  induction h generalizing j' with
  | null => cases h'; rfl
  | bool b => cases h'; rfl
  | int i => cases h'; rfl
  | zero =>
    generalize hv : JVal.number [] = v at h'
    cases h' with
    | zero => rfl
    | @number t s m e ht hs =>
      cases hv
      cases s with
      | nil => cases hs
      | cons c s =>
        rw [utf8_cons, utf8_char] at ht
        exact absurd (List.append_eq_nil_iff.1 ht.symm).1 (encodeRune_ne_nil _)
    | _ => cases hv
  | @number t s m e ht hs =>
    cases h' with
    | zero =>
      cases s with
      | nil => cases hs
      | cons c s =>
        rw [utf8_cons, utf8_char] at ht
        exact absurd (List.append_eq_nil_iff.1 ht.symm).1 (encodeRune_ne_nil _)
    | @number _ s' m' e' ht' hs' =>
      have := utf8_inj (ht.symm.trans ht')
      subst this
      rw [hs] at hs'
      simp only [Option.some.injEq, Prod.mk.injEq, and_true] at hs'
      rw [hs'.1, hs'.2]
  | str hr => cases h' with | str hr' => rw [runes_unique hr hr']
  | arrNil => cases h'; rfl
  | arrCons _ _ h1 h2 =>
    cases hk with | arr hk =>
    cases h' with | arrCons k1 k2 =>
    have e1 := h1 (hk _ List.mem_cons_self) k1
    have e2 := h2 (.arr fun v hv => hk v (List.mem_cons_of_mem _ hv)) k2
    cases e2
    rw [e1]
  | raw h1 => cases h' with | raw h2 => exact Option.some.inj (h1.symm.trans h2)
  | structNil => cases h'; rfl
  | structCons hr _ _ h1 h2 =>
    cases hk with | struct hk =>
    cases h' with | structCons hr' k1 k2 =>
    have e1 := h1 (hk _ List.mem_cons_self) k1
    have e2 := h2 (.struct fun v hv => hk v (List.mem_cons_of_mem _ hv)) k2
    cases e2
    rw [e1, runes_unique hr hr']
  | map hp hs _ ih =>
    cases hk with | map hd hk =>
    cases h' with | @map _ l2 _ hp' hs' h' =>
    refine ih (.struct fun p hq => hk p (hp.mem_iff.1 hq)) ?_
    have : l2 = _ := List.Perm.eq_of_pairwise (fun a b ha hb h1 h2 => mem_same_key hd (hp'.mem_iff.1 ha) (hp.mem_iff.1 hb) (List.le_antisymm h1 h2)) hs' hs (hp'.trans hp.symm)
    rw [← this]
    exact h'

/-! ## The order of maps -/

theorem marshalAll_append (a b b' : List JVal) (h : ∀ first, marshalAll first b = marshalAll first b') : ∀ first, marshalAll first (a ++ b) = marshalAll first (a ++ b') := by
  induction a with
  | nil => exact h
  | cons v a ih => intro first; rw [List.cons_append, List.cons_append, marshalAll, marshalAll, ih]

theorem reordered_same {v w : JVal} (h : Reordered v w) : marshal v = marshal w := by
  induction h with
  | refl v => rfl
  | trans _ _ h1 h2 => exact h1.trans h2
  | @arr a b v w _ ih =>
    rw [marshal, marshal, marshalAll_append a (v :: b) (w :: b) fun first => by rw [marshalAll, marshalAll, ih]]
  | struct a b k _ ih => rw [marshal, marshal, marshalFields_map, marshalFields_map]; simp [ih]
  | map a b k _ ih => rw [marshal, marshal, marshalFields_map, marshalFields_map]; simp [ih]
  | perm hp hd =>
    rw [marshal, marshal, marshalFields_map, marshalFields_map, sortKeys_unique (hp.map _) (by rw [List.map_map]; exact hd)]

end Verif.Json
