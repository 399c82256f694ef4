import Verif.Proofs.JsonParse

/-! # What `json.Marshal` makes of a value -/

set_option autoImplicit false

namespace Verif.Json
open Verif.Spec (crlf)
open Verif.Spec.Json

/-! ## Sorting -/

theorem insertKey_perm {α : Type} (p : GoStr × α) (l : List (GoStr × α)) : (insertKey p l).Perm (p :: l) := by
  induction l with
  | nil => exact .refl _
  | cons q l ih =>
    rw [insertKey]
    split
    · exact .refl _
    · exact (ih.cons q).trans (.swap p q l)

theorem sortKeys_perm {α : Type} (l : List (GoStr × α)) : (sortKeys l).Perm l := by
  induction l with
  | nil => exact .refl _
  | cons p l ih => exact (insertKey_perm p _).trans (ih.cons p)

theorem insertKey_sorted {α : Type} (p : GoStr × α) {l : List (GoStr × α)} (h : l.Pairwise fun a b => a.1 ≤ b.1) :
    (insertKey p l).Pairwise fun a b => a.1 ≤ b.1 := by
  induction l with
  | nil => simp [insertKey]
  | cons q l ih =>
    rw [insertKey]
    obtain ⟨h1, h2⟩ := List.pairwise_cons.1 h
    split
    · rename_i hp
      refine List.pairwise_cons.2 ⟨fun x hx => ?_, h⟩
      rcases List.mem_cons.1 hx with rfl | hx
      · exact hp
      · exact List.le_trans hp (h1 x hx)
    · rename_i hp
      refine List.pairwise_cons.2 ⟨fun x hx => ?_, ih h2⟩
      rcases List.mem_cons.1 ((insertKey_perm p l).mem_iff.1 hx) with rfl | hx
      · exact (List.le_total _ _).resolve_left hp
      · exact h1 x hx

theorem sortKeys_sorted {α : Type} (l : List (GoStr × α)) : (sortKeys l).Pairwise fun a b => a.1 ≤ b.1 := by
  induction l with
  | nil => exact .nil
  | cons p l ih => exact insertKey_sorted p ih

theorem insertKey_map {α β : Type} (f : α → β) (p : GoStr × α) (l : List (GoStr × α)) :
    insertKey (p.1, f p.2) (l.map fun q => (q.1, f q.2)) = (insertKey p l).map fun q => (q.1, f q.2) := by
  induction l with
  | nil => rfl
  | cons q l ih =>
    rw [List.map_cons, insertKey, insertKey]
    split
    · rfl
    · rw [List.map_cons, ih]

theorem sortKeys_map {α β : Type} (f : α → β) (l : List (GoStr × α)) :
    sortKeys (l.map fun q => (q.1, f q.2)) = (sortKeys l).map fun q => (q.1, f q.2) := by
  induction l with
  | nil => rfl
  | cons p l ih =>
    show insertKey (p.1, f p.2) (sortKeys (l.map fun q => (q.1, f q.2))) = _
    rw [ih, insertKey_map]
    rfl

theorem mem_same_key {α : Type} {l : List (GoStr × α)} (hd : (l.map (·.1)).Nodup) {a b : GoStr × α} (ha : a ∈ l) (hb : b ∈ l) (he : a.1 = b.1) : a = b := by
  induction l with
  | nil => cases ha
  | cons p l ih =>
    rw [List.map_cons, List.nodup_cons] at hd
    rcases List.mem_cons.1 ha with ha' | ha' <;> rcases List.mem_cons.1 hb with hb' | hb'
    · rw [ha', hb']
    · exact absurd (List.mem_map.2 ⟨b, hb', by rw [← ha', he]⟩) hd.1
    · exact absurd (List.mem_map.2 ⟨a, ha', by rw [← hb', he]⟩) hd.1
    · exact ih hd.2 ha' hb'

/-- The order before sorting does not matter. -/
theorem sortKeys_unique {α : Type} {l l' : List (GoStr × α)} (hp : l.Perm l') (hd : (l.map (·.1)).Nodup) : sortKeys l = sortKeys l' := by
  refine List.Perm.eq_of_pairwise ?_ (sortKeys_sorted l) (sortKeys_sorted l') ((sortKeys_perm l).trans (hp.trans (sortKeys_perm l').symm))
  intro a b ha hb h1 h2
  exact mem_same_key hd ((sortKeys_perm l).mem_iff.1 ha) (hp.mem_iff.2 ((sortKeys_perm l').mem_iff.1 hb)) (List.le_antisymm h1 h2)

/-! ## Which values can be encoded -/

theorem marshalFields_map (l : List (GoStr × JVal)) : marshalFields l = l.map fun p => (p.1, marshal p.2) := by
  induction l with
  | nil => rw [marshalFields]; rfl
  | cons p l ih => rw [marshalFields, ih]; rfl

theorem joinFields_ok (name : GoStr → GoStr) : ∀ (l : List (GoStr × Except Err GoStr)) (first : Bool),
    (∃ r, joinFields name first l = .ok r) ↔ ∀ q ∈ l, ∃ t, q.2 = .ok t
  | [], first => ⟨fun _ q hq => (by cases hq), fun _ => ⟨[], rfl⟩⟩
  | (k, t) :: l, first => by
    have ih := joinFields_ok name l false
    cases t with
    | error e =>
      constructor
      · rintro ⟨r, hr⟩; cases hr
      · intro h; obtain ⟨t, ht⟩ := h _ (List.mem_cons_self); cases ht
    | ok t =>
      constructor
      · rintro ⟨r, hr⟩ q hq
        rcases List.mem_cons.1 hq with rfl | hq
        · exact ⟨t, rfl⟩
        · refine ih.1 ?_ q hq
          simp only [joinFields] at hr
          split at hr
          · cases hr
          · rename_i r' hr'; exact ⟨r', hr'⟩
      · intro h
        obtain ⟨r, hr⟩ := ih.2 fun q hq => h q (List.mem_cons_of_mem _ hq)
        exact ⟨_, by simp only [joinFields]; rw [hr]⟩

theorem marshalAll_ok : ∀ (l : List JVal) (first : Bool), (∃ r, marshalAll first l = .ok r) ↔ ∀ v ∈ l, ∃ t, marshal v = .ok t
  | [], first => ⟨fun _ q hq => (by cases hq), fun _ => ⟨[], by rw [marshalAll]⟩⟩
  | v :: l, first => by
    have ih := marshalAll_ok l false
    constructor
    · rintro ⟨r, hr⟩ q hq
      rw [marshalAll] at hr
      split at hr
      · cases hr
      · rename_i t ht
        rcases List.mem_cons.1 hq with rfl | hq
        · exact ⟨t, ht⟩
        · refine ih.1 ?_ q hq
          split at hr
          · cases hr
          · rename_i r' hr'; exact ⟨r', hr'⟩
    · intro h
      obtain ⟨t, ht⟩ := h v List.mem_cons_self
      obtain ⟨r, hr⟩ := ih.2 fun q hq => h q (List.mem_cons_of_mem _ hq)
      exact ⟨_, by rw [marshalAll, ht]; simp only []; rw [hr]⟩

theorem map_ok {f : GoStr → GoStr} {x : Except Err GoStr} : (∃ t, x.map f = .ok t) ↔ ∃ r, x = .ok r := by
  cases x with
  | error e => constructor <;> (rintro ⟨t, h⟩; cases h)
  | ok r => exact ⟨fun _ => ⟨r, rfl⟩, fun _ => ⟨_, rfl⟩⟩

theorem marshal_arr (l : List JVal) : (∃ t, marshal (.arr l) = .ok t) ↔ ∀ v ∈ l, ∃ t, marshal v = .ok t := by
  rw [marshal, map_ok, marshalAll_ok]

theorem marshal_struct (l : List (GoStr × JVal)) : (∃ t, marshal (.struct l) = .ok t) ↔ ∀ p ∈ l, ∃ t, marshal p.2 = .ok t := by
  rw [marshal, map_ok, joinFields_ok, marshalFields_map]
  simp only [List.mem_map, forall_exists_index, and_imp]
  exact ⟨fun h p hp => h _ p hp rfl, fun h q p hp he => by subst he; exact h p hp⟩

theorem marshal_map (l : List (GoStr × JVal)) : (∃ t, marshal (.map l) = .ok t) ↔ ∀ p ∈ l, ∃ t, marshal p.2 = .ok t := by
  rw [marshal, map_ok, joinFields_ok, marshalFields_map]
  simp only [(sortKeys_perm _).mem_iff, List.mem_map, forall_exists_index, and_imp]
  exact ⟨fun h p hp => h _ p hp rfl, fun h q p hp he => by subst he; exact h p hp⟩

/-! ## Numbers -/

theorem num_means {t : GoStr} {m e : Int} (h : NumText t m e) : Means (.number t) (.num m e) := by
  have := h.read ends_nil
  rw [List.append_nil] at this
  exact .number (utf8_chrs fun x hx => (h.ascii x hx).1).symm this

/-! ## Values -/

/-- A value that has been encoded. -/
structure Enc where
  v : JVal
  t : GoStr
  T : Tree
  j : J

structure Enc.Ok (e : Enc) : Prop where
  marshal : marshal e.v = .ok e.t
  reads : Reads e.T e.j
  means : Means e.v e.j
  text : ∀ d, compact d e.T = e.t
  nest : e.T.nest = depth e.v
  shape : Shape e.v e.T

/-- Members of an object. -/
theorem members_ok (name : GoStr → GoStr) : ∀ L : List (GoStr × Enc), (∀ p ∈ L, p.2.Ok) → (∀ p ∈ L, ∃ cs, Runes p.1 cs ∧ KeyOk (name p.1) cs) →
    ∃ js, ReadsMems (L.map fun p => (name p.1, p.2.T)) js ∧ Means (.struct (L.map fun p => (p.1, p.2.v))) (.obj js) ∧
      nestMems (L.map fun p => (name p.1, p.2.T)) = depthMems (L.map fun p => (p.1, p.2.v)) ∧
      Shape (.struct (L.map fun p => (p.1, p.2.v))) (.obj (L.map fun p => (name p.1, p.2.T))) ∧
      ∀ d, joinFields name false (L.map fun p => (p.1, .ok p.2.t)) = .ok (layMore (fun _ => []) [] d (L.map fun p => (name p.1, p.2.T)))
  | [], _, _ => ⟨[], .nil, .structNil, rfl, .structNil, fun d => by simp [joinFields, layMore]⟩
  | p :: L, h, hk => by
    obtain ⟨js, h1, h2, h3, hsh, h4⟩ := members_ok name L (fun q hq => h q (List.mem_cons_of_mem _ hq)) fun q hq => hk q (List.mem_cons_of_mem _ hq)
    obtain ⟨cs, hc, hn⟩ := hk p List.mem_cons_self
    have hp := h p List.mem_cons_self
    refine ⟨(cs, p.2.j) :: js, .cons hn hp.reads h1, .structCons hc hp.means h2, ?_, .structCons _ _ hp.shape hsh, fun d => ?_⟩
    · simp only [List.map_cons, nestMems, depthMems, hp.nest, h3]
    · simp only [List.map_cons, joinFields]
      rw [h4 d]
      simp only [layMore, List.append_nil, Bool.false_eq_true, if_false]
      rw [show lay (fun _ => []) [] d p.2.T = p.2.t from hp.text d]

/-- Objects. -/
theorem object_ok (name : GoStr → GoStr) (L : List (GoStr × Enc)) (h : ∀ p ∈ L, p.2.Ok) (hk : ∀ p ∈ L, ∃ cs, Runes p.1 cs ∧ KeyOk (name p.1) cs) :
    ∃ T js t, Reads T (.obj js) ∧ Means (.struct (L.map fun p => (p.1, p.2.v))) (.obj js) ∧ T.nest = depthMems (L.map fun p => (p.1, p.2.v)) + 1 ∧
      Shape (.struct (L.map fun p => (p.1, p.2.v))) T ∧ joinFields name true (L.map fun p => (p.1, .ok p.2.t)) = .ok t ∧ ∀ d, compact d T = [123] ++ t ++ [125] := by
  cases L with
  | nil => exact ⟨.obj [], [], [], .obj .nil, .structNil, rfl, .structNil, rfl, fun d => by rw [compact, lay]; rfl⟩
  | cons p L =>
    obtain ⟨js, h1, h2, h3, hsh, h4⟩ := members_ok name L (fun q hq => h q (List.mem_cons_of_mem _ hq)) fun q hq => hk q (List.mem_cons_of_mem _ hq)
    obtain ⟨cs, hc, hn⟩ := hk p List.mem_cons_self
    have hp := h p List.mem_cons_self
    refine ⟨.obj ((name p.1, p.2.T) :: L.map fun p => (name p.1, p.2.T)), (cs, p.2.j) :: js,
      name p.1 ++ [58] ++ p.2.t ++ layMore (fun _ => []) [] 0 (L.map fun p => (name p.1, p.2.T)), .obj (.cons hn hp.reads h1), .structCons hc hp.means h2, ?_, .structCons _ _ hp.shape hsh, ?_, fun d => ?_⟩
    · simp only [List.map_cons, Tree.nest, nestMems, depthMems, hp.nest, h3]
    · simp only [List.map_cons, joinFields]
      rw [h4 0]
      simp
    · have e := (h4 0).symm.trans (h4 (d + 1))
      rw [compact, lay, ← Except.ok.inj e, show lay (fun _ => []) [] (d + 1) p.2.T = p.2.t from hp.text _]
      simp

theorem depthMems_perm {l l' : List (GoStr × JVal)} (h : l.Perm l') : depthMems l = depthMems l' := by
  induction h with
  | nil => rfl
  | cons p _ ih => obtain ⟨k, v⟩ := p; simp only [depthMems, ih]
  | swap p q l => obtain ⟨k, v⟩ := p; obtain ⟨k', v'⟩ := q; simp only [depthMems]; omega
  | trans _ _ h1 h2 => exact h1.trans h2

mutual

/-- What `json.Marshal` makes of a value is a text that means it. -/
theorem marshal_text : ∀ (v : JVal), WellNamed v → (∃ t, marshal v = .ok t) → ∃ e : Enc, e.Ok ∧ e.v = v
  | .null, _, _ => ⟨⟨.null, lit "null", .lit (lit "null"), .null⟩, ⟨by rw [marshal], .lit word_ok.1, .null, fun d => by rw [compact, lay], by simp [Tree.nest, depth], .lit _ (by simp [depth]) (by intro s h; cases h) (by intro s h; cases h)⟩, rfl⟩
  | .bool true, _, _ =>
    ⟨⟨.bool true, lit "true", .lit (lit "true"), .bool true⟩, ⟨by rw [marshal]; rfl, .lit word_ok.2.1, .bool _, fun d => by rw [compact, lay], by simp [Tree.nest, depth], .lit _ (by simp [depth]) (by intro s h; cases h) (by intro s h; cases h)⟩, rfl⟩
  | .bool false, _, _ =>
    ⟨⟨.bool false, lit "false", .lit (lit "false"), .bool false⟩, ⟨by rw [marshal]; rfl, .lit word_ok.2.2, .bool _, fun d => by rw [compact, lay], by simp [Tree.nest, depth], .lit _ (by simp [depth]) (by intro s h; cases h) (by intro s h; cases h)⟩, rfl⟩
  | .int i, _, _ => ⟨⟨.int i, itoa i, .lit (itoa i), .num i 0⟩, ⟨by rw [marshal], .lit (number_ok (itoa_num i)), .int i, fun d => by rw [compact, lay], by simp [Tree.nest, depth], .lit _ (by simp [depth]) (by intro s h; cases h) (by intro s h; cases h)⟩, rfl⟩
  | .number t, _, h => by
    by_cases ht : t = []
    · subst ht
      exact ⟨⟨.number [], itoa 0, .lit (itoa 0), .num 0 0⟩, ⟨by rw [marshal]; rfl, .lit (number_ok (itoa_num 0)), .zero, fun d => by rw [compact, lay], by simp [Tree.nest, depth], .lit _ (by simp [depth]) (by intro s h; cases h) (by intro s h; cases h)⟩, rfl⟩
    · obtain ⟨u, hu⟩ := h
      have hv : isValidNumber t = true := by
        cases hv : isValidNumber t with
        | true => rfl
        | false => rw [marshal] at hu; simp [ht, hv] at hu
      obtain ⟨m, e, hn⟩ := valid_num hv
      exact ⟨⟨.number t, t, .lit t, .num m e⟩, ⟨by rw [marshal]; simp only [if_neg ht, hv, if_true], .lit (number_ok hn), num_means hn, fun d => by rw [compact, lay], by simp [Tree.nest, depth], .lit _ (by simp [depth]) (by intro s h; cases h) (by intro s h; cases h)⟩, rfl⟩
  | .str s, _, _ => by
    obtain ⟨q, cs, h1, h2, h3⟩ := string_text s
    exact ⟨⟨.str s, string s, .lit (string s), .str cs⟩, ⟨by rw [marshal], .lit (h3 ▸ strText_ok h2), .str h1, fun d => by rw [compact, lay], by simp [Tree.nest, depth], .lit _ (by simp [depth]) (by intro s h; cases h) (by intro s h; cases h)⟩, rfl⟩
  | .bad e, _, h => by obtain ⟨t, ht⟩ := h; rw [marshal] at ht; cases ht
  | .raw s, .raw (j := j) hj, h => by
    obtain ⟨T, h1, h2, h3, h4⟩ := squeezed_parse hj
    by_cases hn : j.nest ≤ maxNesting
    · rw [if_pos hn] at h4
      exact ⟨⟨.raw s, compact 0 T, T, j⟩, ⟨by rw [marshal, h4], h1, .raw hj, fun d => compact_same T d 0, by simp only [h2, depth, textNest, hj, Option.map_some, Option.getD_some], .raw hj h3⟩, rfl⟩
    · rw [if_neg hn] at h4
      obtain ⟨t, ht⟩ := h
      rw [marshal, h4] at ht
      cases ht
  | .arr l, .arr hw, h => by
    obtain ⟨L, hL, rfl⟩ := marshal_texts l hw ((marshal_arr l).1 h)
    have key : ∀ L : List Enc, (∀ e ∈ L, e.Ok) → ∃ js, ReadsAll (L.map (·.T)) js ∧ Means (.arr (L.map (·.v))) (.arr js) ∧ nestAll (L.map (·.T)) = depthAll (L.map (·.v)) ∧ Shape (.arr (L.map (·.v))) (.arr (L.map (·.T))) ∧
        ∀ d, marshalAll false (L.map (·.v)) = .ok (layRest (fun _ => []) [] d (L.map (·.T))) := by
      intro L
      induction L with
      | nil => intro _; exact ⟨[], .nil, .arrNil, rfl, .arrNil, fun d => by simp [marshalAll, layRest]⟩
      | cons e L ih =>
        intro h
        obtain ⟨js, h1, h2, h3, hsh, h4⟩ := ih fun q hq => h q (List.mem_cons_of_mem _ hq)
        have he := h e List.mem_cons_self
        refine ⟨e.j :: js, .cons he.reads h1, .arrCons he.means h2, ?_, .arrCons he.shape hsh, fun d => ?_⟩
        · simp only [List.map_cons, nestAll, depthAll, he.nest, h3]
        · simp only [List.map_cons, marshalAll]
          rw [he.marshal]
          simp only []
          rw [h4 d]
          simp only [layRest, List.append_nil, Bool.false_eq_true, if_false]
          rw [show lay (fun _ => []) [] d e.T = e.t from he.text d]
    cases L with
    | nil => exact ⟨⟨.arr [], [91, 93], .arr [], .arr []⟩, ⟨by simp [marshal, marshalAll, Except.map], .arr .nil, .arrNil, fun d => by rw [compact, lay], by simp [Tree.nest, depth, nestAll, depthAll], .arrNil⟩, rfl⟩
    | cons e L =>
      obtain ⟨js, h1, h2, h3, hsh, h4⟩ := key L fun q hq => hL q (List.mem_cons_of_mem _ hq)
      have he := hL e List.mem_cons_self
      refine ⟨⟨.arr ((e :: L).map (·.v)), [91] ++ (e.t ++ layRest (fun _ => []) [] 0 (L.map (·.T))) ++ [93], .arr ((e :: L).map (·.T)), .arr (e.j :: js)⟩,
        ⟨?_, .arr (.cons he.reads h1), .arrCons he.means h2, fun d => ?_, ?_, .arrCons he.shape hsh⟩, rfl⟩
      · simp only [List.map_cons, marshal, marshalAll]
        rw [he.marshal]
        simp only []
        rw [h4 0]
        simp [Except.map]
      · have e' := (h4 0).symm.trans (h4 (d + 1))
        simp only [List.map_cons]
        rw [compact, lay, Except.ok.inj e', show lay (fun _ => []) [] (d + 1) e.T = e.t from he.text _]
        simp
      · simp only [List.map_cons, Tree.nest, nestAll, depth, depthAll, he.nest, h3]
  | .struct l, .struct hn hw, h => by
    obtain ⟨L, hL, rfl⟩ := marshal_fields l hw ((marshal_struct l).1 h)
    obtain ⟨T, js, t, h1, h2, h3, hsh, h4, h5⟩ := object_ok (fun k => [34] ++ k ++ [34]) L hL fun p hp => by
      obtain ⟨q, k1, k2, k3⟩ := fieldName_text (hn (p.1, p.2.v) (List.mem_map.2 ⟨p, hp, rfl⟩))
      exact ⟨q, k1, q, k2, by rw [← k3]⟩
    refine ⟨⟨_, [123] ++ t ++ [125], T, .obj js⟩, ⟨?_, h1, h2, h5, ?_, hsh⟩, rfl⟩
    · show marshal (.struct _) = _
      rw [marshal, marshalFields_map, List.map_map]
      rw [show (L.map ((fun p => (p.1, marshal p.2)) ∘ fun p : GoStr × Enc => (p.1, p.2.v))) = L.map fun p => (p.1, .ok p.2.t) from
        List.map_congr_left fun p hp => by simp only [Function.comp_apply, (hL p hp).marshal], h4]
      rfl
    · show T.nest = depth (.struct _)
      rw [h3, depth]
  | .map l, .map hw, h => by
    obtain ⟨L, hL, rfl⟩ := marshal_fields l hw ((marshal_map l).1 h)
    have hp := sortKeys_perm L
    obtain ⟨T, js, t, h1, h2, h3, hsh, h4, h5⟩ := object_ok string (sortKeys L) (fun p h => hL p (hp.mem_iff.1 h)) fun p _ => by
      obtain ⟨q, cs, k1, k2, k3⟩ := string_text p.1
      exact ⟨cs, k1, q, k2, k3⟩
    have hs := sortKeys_map (fun e : Enc => e.v) L
    refine ⟨⟨_, [123] ++ t ++ [125], T, .obj js⟩, ⟨?_, h1, .map (hp.map _) (hs ▸ sortKeys_sorted _) h2, h5, ?_, .map (hp.map _) (hs ▸ sortKeys_sorted _) hsh⟩, rfl⟩
    · show marshal (.map _) = _
      rw [marshal, marshalFields_map, List.map_map]
      rw [show (L.map ((fun p => (p.1, marshal p.2)) ∘ fun p : GoStr × Enc => (p.1, p.2.v))) = L.map fun p => (p.1, .ok p.2.t) from
        List.map_congr_left fun p hp => by simp only [Function.comp_apply, (hL p hp).marshal]]
      rw [sortKeys_map (fun e : Enc => (.ok e.t : Except Err GoStr)) L, h4]
      rfl
    · show T.nest = depth (.map _)
      rw [h3, depth, depthMems_perm (hp.map _)]

theorem marshal_texts : ∀ (l : List JVal), (∀ v ∈ l, WellNamed v) → (∀ v ∈ l, ∃ t, marshal v = .ok t) → ∃ L : List Enc, (∀ e ∈ L, e.Ok) ∧ L.map (·.v) = l
  | [], _, _ => ⟨[], fun e he => (by cases he), rfl⟩
  | v :: l, hw, h => by
    obtain ⟨e, h1, h2⟩ := marshal_text v (hw v List.mem_cons_self) (h v List.mem_cons_self)
    obtain ⟨L, h3, h4⟩ := marshal_texts l (fun q hq => hw q (List.mem_cons_of_mem _ hq)) fun q hq => h q (List.mem_cons_of_mem _ hq)
    refine ⟨e :: L, fun q hq => ?_, by rw [List.map_cons, h2, h4]⟩
    rcases List.mem_cons.1 hq with rfl | hq
    · exact h1
    · exact h3 q hq

theorem marshal_fields : ∀ (l : List (GoStr × JVal)), (∀ p ∈ l, WellNamed p.2) → (∀ p ∈ l, ∃ t, marshal p.2 = .ok t) →
    ∃ L : List (GoStr × Enc), (∀ p ∈ L, p.2.Ok) ∧ (L.map fun p => (p.1, p.2.v)) = l
  | [], _, _ => ⟨[], fun e he => (by cases he), rfl⟩
  | (k, v) :: l, hw, h => by
    obtain ⟨e, h1, h2⟩ := marshal_text v (hw (k, v) List.mem_cons_self) (h (k, v) List.mem_cons_self)
    obtain ⟨L, h3, h4⟩ := marshal_fields l (fun q hq => hw q (List.mem_cons_of_mem _ hq)) fun q hq => h q (List.mem_cons_of_mem _ hq)
    refine ⟨(k, e) :: L, fun q hq => ?_, by rw [List.map_cons, h4]; simp only [h2]⟩
    rcases List.mem_cons.1 hq with rfl | hq
    · exact h1
    · exact h3 q hq

end

end Verif.Json
