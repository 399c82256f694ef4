import Verif.Proofs.Mime

/-! # Media types: what is written can be read back, the whole -/

set_option autoImplicit false

namespace Verif
namespace Mime

/-! ## Maps -/

abbrev PMap := List (GoStr × GoStr)

theorem get_none {m : PMap} {k : GoStr} : get m k = none ↔ k ∉ m.map (·.1) := by
  simp only [get, Option.map_eq_none_iff, List.find?_eq_none, decide_eq_true_eq, List.mem_map, not_exists, not_and]

theorem get_some_of_mem {m : PMap} {k v : GoStr} (hn : (m.map (·.1)).Nodup) (h : (k, v) ∈ m) : get m k = some v := by
  induction m with
  | nil => cases h
  | cons e m ih =>
    simp only [List.map_cons, List.nodup_cons] at hn
    rcases List.mem_cons.1 h with rfl | h
    · simp [get]
    · have hne : e.1 ≠ k := by
        rintro rfl
        exact hn.1 (List.mem_map.2 ⟨(e.1, v), h, rfl⟩)
      have := ih hn.2 h
      simp only [get, List.find?_cons, hne, decide_false] at this ⊢
      exact this

theorem get_mem {m : PMap} {k v : GoStr} (h : get m k = some v) : (k, v) ∈ m := by
  simp only [get, Option.map_eq_some_iff] at h
  obtain ⟨e, h1, rfl⟩ := h
  have := List.find?_some h1
  simp only [decide_eq_true_eq] at this
  subst this
  exact List.mem_of_find?_eq_some h1

theorem put_new {m : PMap} {k : GoStr} (v : GoStr) (h : k ∉ m.map (·.1)) : put m k v = m ++ [(k, v)] := by
  simp [put, get_none.2 h]

theorem put_keys {m : PMap} {k v : GoStr} (hn : (m.map (·.1)).Nodup) :
    ((put m k v).map (·.1)).Nodup ∧ ∀ x, x ∈ (put m k v).map (·.1) → x = k ∨ x ∈ m.map (·.1) := by
  unfold put
  by_cases h : k ∈ m.map (·.1)
  · have h1 : (get m k).isSome = true := by
      cases hg : get m k with
      | none => exact absurd h (get_none.1 hg)
      | some _ => rfl
    rw [if_pos h1]
    have h2 : (m.map fun e => if e.1 = k then (k, v) else e).map (·.1) = m.map (·.1) := by
      rw [List.map_map]
      apply List.map_congr_left
      intro e _
      simp only [Function.comp]
      split
      · rename_i h; exact h.symm
      · rfl
    rw [h2]
    exact ⟨hn, fun x hx => .inr hx⟩
  · rw [if_neg (by simp [get_none.2 h])]
    simp only [List.map_append, List.map_cons, List.map_nil]
    refine ⟨List.nodup_append.2 ⟨hn, by simp, ?_⟩, fun x hx => ?_⟩
    · intro a ha b hb
      simp only [List.mem_singleton] at hb
      subst hb
      rintro rfl
      exact h ha
    · rcases List.mem_append.1 hx with hx | hx
      · exact .inr hx
      · exact .inl (by simpa using hx)

/-! ## Order -/

theorem le_refl (s : GoStr) : le s s = true := by
  induction s with
  | nil => rfl
  | cons a s ih => simp [le, ih]

theorem le_total (s t : GoStr) : le s t = true ∨ le t s = true := by
  induction s generalizing t with
  | nil => exact .inl rfl
  | cons a s ih =>
    cases t with
    | nil => exact .inr rfl
    | cons b t =>
      simp only [le]
      by_cases h1 : a < b
      · simp [h1]
      · by_cases h2 : b < a
        · simp [h1, h2]
        · simp only [h1, h2, if_false]
          exact ih t

theorem le_antisymm (s t : GoStr) : le s t = true → le t s = true → s = t := by
  induction s generalizing t with
  | nil => intro _ h; cases t with
    | nil => rfl
    | cons b t => simp [le] at h
  | cons a s ih =>
    cases t with
    | nil => intro h; simp [le] at h
    | cons b t =>
      simp only [le]
      by_cases h1 : a < b
      · have h2 : ¬ b < a := UInt8.lt_asymm h1
        simp [h1, h2]
      · by_cases h2 : b < a
        · simp [h1, h2]
        · simp only [h1, h2, if_false]
          intro g1 g2
          have : a = b := by
            have := UInt8.not_lt.1 h1
            have := UInt8.not_lt.1 h2
            exact UInt8.le_antisymm (by assumption) (by assumption)
          rw [this, ih t g1 g2]

theorem le_trans (s t u : GoStr) : le s t = true → le t u = true → le s u = true := by
  induction s generalizing t u with
  | nil => intros; rfl
  | cons a s ih =>
    cases t with
    | nil => intro h; simp [le] at h
    | cons b t =>
      cases u with
      | nil => intro _ h; simp [le] at h
      | cons c u =>
        simp only [le]
        by_cases h1 : a < b
        · by_cases h2 : b < c
          · simp [h1, h2, UInt8.lt_trans h1 h2]
          · by_cases h3 : c < b
            · simp [h2, h3]
            · have : b = c := UInt8.le_antisymm (UInt8.not_lt.1 h3) (UInt8.not_lt.1 h2)
              subst this
              simp [h1]
        · by_cases h1' : b < a
          · simp [h1, h1']
          · have : a = b := UInt8.le_antisymm (UInt8.not_lt.1 h1') (UInt8.not_lt.1 h1)
            subst this
            by_cases h2 : a < c
            · simp [h2]
            · by_cases h3 : c < a
              · simp [h2, h3]
              · simp only [h2, h3, h1, if_false]
                exact ih t u

theorem insert_perm (e : GoStr × GoStr) (l : PMap) : (insert e l).Perm (e :: l) := by
  induction l with
  | nil => exact .refl _
  | cons f l ih =>
    simp only [insert]
    split
    · exact .refl _
    · exact (ih.cons f).trans (.swap e f l)

theorem sort_perm (l : PMap) : (sort l).Perm l := by
  induction l with
  | nil => exact .refl _
  | cons e l ih => exact (insert_perm e (sort l)).trans (ih.cons e)

theorem insert_sorted (e : GoStr × GoStr) (l : PMap) (h : l.Pairwise fun a b => le a.1 b.1 = true) :
    (insert e l).Pairwise fun a b => le a.1 b.1 = true := by
  induction l with
  | nil => simp [insert]
  | cons f l ih =>
    rw [List.pairwise_cons] at h
    simp only [insert]
    split
    · rename_i hle
      rw [List.pairwise_cons]
      refine ⟨fun x hx => ?_, List.pairwise_cons.2 h⟩
      rcases List.mem_cons.1 hx with rfl | hx
      · exact hle
      · exact le_trans _ _ _ hle (h.1 x hx)
    · rename_i hle
      rw [List.pairwise_cons]
      refine ⟨fun x hx => ?_, ih h.2⟩
      rcases List.mem_cons.1 ((insert_perm e l).mem_iff.1 hx) with rfl | hx
      · rcases le_total x.1 f.1 with h1 | h1
        · exact absurd h1 hle
        · exact h1
      · exact h.1 x hx

theorem sort_sorted (l : PMap) : (sort l).Pairwise fun a b => le a.1 b.1 = true := by
  induction l with
  | nil => exact .nil
  | cons e l ih => exact insert_sorted e _ ih

theorem key_unique {m : PMap} (hn : (m.map (·.1)).Nodup) {a b : GoStr × GoStr} (ha : a ∈ m) (hb : b ∈ m) (h : a.1 = b.1) : a = b := by
  have h1 := get_some_of_mem hn (show (a.1, a.2) ∈ m from ha)
  have h2 := get_some_of_mem hn (show (b.1, b.2) ∈ m from hb)
  rw [h] at h1
  rw [h1] at h2
  exact Prod.ext h (Option.some.inj h2)

/-- Sorting does not depend on the order before. -/
theorem sort_congr {l m : PMap} (hn : (l.map (·.1)).Nodup) (h : l.Perm m) : sort l = sort m := by
  refine List.Perm.eq_of_pairwise ?_ (sort_sorted l) (sort_sorted m) ((sort_perm l).trans (h.trans (sort_perm m).symm))
  intro a b ha hb h1 h2
  exact key_unique hn ((sort_perm l).mem_iff.1 ha) (h.mem_iff.2 ((sort_perm m).mem_iff.1 hb)) (le_antisymm _ _ h1 h2)

/-! ## Reading parameters back -/

/-- A name that can be written: a token in lower case, without an asterisk. -/
def GoodKey (k : GoStr) : Prop := k ≠ [] ∧ LowTok k ∧ 42 ∉ k

/-- What follows a parameter: nothing, or another one. -/
def Next (rest : GoStr) : Prop := rest = [] ∨ ∃ t, rest = 59 :: t

theorem Next.stop {rest : GoStr} (h : Next rest) : ∀ c t, rest = c :: t → isTokenChar c = false := by
  intro c t e
  rcases h with h | ⟨u, h⟩
  · rw [h] at e; cases e
  · rw [h] at e
    cases e
    decide

/-- The name and the value as they appear. -/
def written (e : GoStr × GoStr) : GoStr × GoStr :=
  if needsEncoding e.2 then (e.1 ++ [42], lit "utf-8''" ++ escape e.2) else e

theorem trimLeft_key {k : GoStr} (h : GoodKey k) (r : GoStr) : trimLeft (k ++ r) = k ++ r := by
  obtain ⟨h1, h2, _⟩ := h
  cases k with
  | nil => exact absurd rfl h1
  | cons c k => exact trimLeft_vis c _ (vis_of_token c (h2 c (by simp)).1)

theorem formatParam_eq (k v rest : GoStr) (hk : GoodKey k) :
    formatParam k v ++ rest = 59 :: 32 :: (k ++
      (if needsEncoding v then lit "*=utf-8''" ++ escape v
     else if isToken v then lit "=" ++ v
     else lit "=\"" ++ quoteInside v ++ lit "\"") ++ rest) := by
  unfold formatParam
  rw [lower_low k hk.2.1.low]
  rfl

theorem noEnc (v : GoStr) (h : needsEncoding v = false) : ∀ c ∈ v, c ≠ 13 ∧ c ≠ 10 := by
  intro c hc
  have h1 := List.any_eq_false.1 h c hc
  constructor <;> (rintro rfl; exact absurd h1 (by decide))

theorem consume_format (k v rest : GoStr) (hk : GoodKey k) (hr : Next rest) :
    consumeMediaParam (formatParam k v ++ rest) = some ((written (k, v)).1, (written (k, v)).2, rest) := by
  rw [formatParam_eq k v rest hk]
  unfold consumeMediaParam
  rw [trimLeft_vis 59 _ (by decide)]
  simp only [ne_eq, not_true, if_false]
  rw [trimLeft_space, List.append_assoc, trimLeft_key hk]
  have hkt : ∀ c ∈ k, isTokenChar c = true := fun c hc => (hk.2.1 c hc).1
  have htr : ∀ (w : GoStr), w ≠ [] → (∀ c ∈ w, isTokenChar c = true) → trimLeft (w ++ rest) = w ++ rest := by
    intro w hw ht
    cases w with
    | nil => exact absurd rfl hw
    | cons c w => exact trimLeft_vis c _ (vis_of_token c (ht c (by simp)))
  have hval : ∀ (w : GoStr), w ≠ [] → (∀ c ∈ w, isTokenChar c = true) → consumeValue (trimLeft (w ++ rest)) = some (w, rest) := by
    intro w hw ht
    rw [htr w hw ht]
    cases w with
    | nil => exact absurd rfl hw
    | cons c w =>
      have hc : c ≠ 34 := by
        rintro rfl
        exact absurd (ht 34 (by simp)) (by decide)
      have := token_stop (c :: w) rest ht hr.stop
      simp only [List.cons_append] at this ⊢
      simp only [consumeValue, ne_eq, hc, not_false_iff, if_true, this, reduceCtorEq, if_false]
  by_cases hv : needsEncoding v = true
  · have e : k ++ ((if needsEncoding v = true then lit "*=utf-8''" ++ escape v else if isToken v = true then lit "=" ++ v
        else lit "=\"" ++ quoteInside v ++ lit "\"") ++ rest) = (k ++ [42]) ++ 61 :: ((lit "utf-8''" ++ escape v) ++ rest) := by
      simp [hv, lit]
    rw [e, token_stop (k ++ [42]) _ (by
      intro c hc
      rcases List.mem_append.1 hc with hc | hc
      · exact hkt c hc
      · simp only [List.mem_singleton] at hc; subst hc; decide) (by rintro c t ⟨⟩; decide)]
    have hl : lower (k ++ [42]) = k ++ [42] := lower_low _ (by
      intro c hc
      rcases List.mem_append.1 hc with hc | hc
      · exact hk.2.1.low c hc
      · simp only [List.mem_singleton] at hc; subst hc; decide)
    simp only [hl, List.append_eq_nil_iff, reduceCtorEq, and_false, if_false]
    rw [trimLeft_vis 61 _ (by decide)]
    simp only [ne_eq, not_true, if_false]
    rw [hval _ (by simp [lit]) (by
      intro c hc
      rcases List.mem_append.1 hc with hc | hc
      · exact (by decide : ∀ c ∈ lit "utf-8''", isTokenChar c = true) c hc
      · exact (escape_token v c hc).1)]
    simp [written, hv]
  · have hv' : needsEncoding v = false := by simpa using hv
    have hl : lower k = k := lower_low k hk.2.1.low
    by_cases ht : isToken v = true
    · have e : k ++ ((if needsEncoding v = true then lit "*=utf-8''" ++ escape v else if isToken v = true then lit "=" ++ v
          else lit "=\"" ++ quoteInside v ++ lit "\"") ++ rest) = k ++ 61 :: (v ++ rest) := by
        simp [hv', ht, lit]
      rw [e, token_stop k _ hkt (by rintro c t ⟨⟩; decide)]
      simp only [hl, hk.1, if_false]
      rw [trimLeft_vis 61 _ (by decide)]
      simp only [ne_eq, not_true, if_false]
      have := (isToken_iff v).1 ht
      rw [hval v this.1 this.2]
      simp [written, hv']
    · have e : k ++ ((if needsEncoding v = true then lit "*=utf-8''" ++ escape v else if isToken v = true then lit "=" ++ v
          else lit "=\"" ++ quoteInside v ++ lit "\"") ++ rest) = k ++ 61 :: 34 :: (quoteInside v ++ 34 :: rest) := by
        simp [hv', ht, lit]
      rw [e, token_stop k _ hkt (by rintro c t ⟨⟩; decide)]
      simp only [hl, hk.1, if_false]
      rw [trimLeft_vis 61 _ (by decide)]
      simp only [ne_eq, not_true, if_false]
      rw [trimLeft_vis 34 _ (by decide)]
      simp only [consumeValue, ne_eq, not_true, if_false, quoted_back v rest [] (noEnc v hv')]
      simp [written, hv']

/-- All parameters, as they are written. -/
def text (l : PMap) : GoStr := (l.map fun e => formatParam e.1 e.2).flatten

theorem next_text (l : PMap) : Next (text l) := by
  cases l with
  | nil => exact .inl rfl
  | cons e l => exact .inr ⟨_, rfl⟩

theorem text_cons (e : GoStr × GoStr) (l : PMap) : text (e :: l) = formatParam e.1 e.2 ++ text l := rfl

theorem loop_text (l : PMap) : ∀ (fuel : Nat) (ps cs : PMap), (text l).length ≤ fuel → (∀ e ∈ l, GoodKey e.1) → (l.map (·.1)).Nodup →
    (∀ e ∈ l, e.1 ∉ ps.map (·.1)) → (∀ e ∈ l, e.1 ++ [42] ∉ cs.map (·.1)) →
    loop fuel (text l) ps cs =
      some (ps ++ l.filter (fun e => !needsEncoding e.2), cs ++ (l.filter fun e => needsEncoding e.2).map written, true) := by
  induction l with
  | nil =>
    intro fuel ps cs _ _ _ _ _
    unfold loop
    simp [text, trimLeft_nil]
  | cons e l ih =>
    intro fuel ps cs hf hk hn hps hcs
    obtain ⟨k, v⟩ := e
    have hkey := hk (k, v) (by simp)
    simp only [List.map_cons, List.nodup_cons] at hn
    have hne : text ((k, v) :: l) = 59 :: (text ((k, v) :: l)).tail := rfl
    obtain ⟨f, rfl⟩ : ∃ f, fuel = f + 1 := by
      rw [hne] at hf
      exact ⟨fuel - 1, by simp only [List.length_cons] at hf; omega⟩
    have htrim : trimLeft (text ((k, v) :: l)) = text ((k, v) :: l) := by
      rw [hne]
      exact trimLeft_vis 59 _ (by decide)
    unfold loop
    rw [htrim]
    simp only
    rw [if_neg (by rw [hne]; simp), text_cons, consume_format k v _ hkey (next_text l)]
    have hlen : (text l).length ≤ f := by
      rw [text_cons] at hf
      have : 0 < (formatParam k v).length := by
        unfold formatParam
        simp [lit]
      simp only [List.length_append] at hf
      omega
    have hk' : ∀ e ∈ l, GoodKey e.1 := fun e he => hk e (by simp [he])
    have hdiff : ∀ e ∈ l, e.1 ≠ k := by
      intro e he e1
      exact hn.1 (List.mem_map.2 ⟨e, he, e1⟩)
    by_cases hv : needsEncoding v = true
    · have hw : written (k, v) = (k ++ [42], lit "utf-8''" ++ escape v) := by simp [written, hv]
      have hnew := hcs (k, v) (by simp)
      simp only [hw]
      rw [if_pos (by simp), if_neg (by simp [get_none.2 hnew]), put_new _ hnew, ih f ps _ hlen hk' hn.2 (fun e he => hps e (by simp [he])) ?_]
      · simp [hv, hw]
      · intro e he
        simp only [List.map_append, List.map_cons, List.map_nil, List.mem_append, List.mem_singleton, not_or]
        refine ⟨hcs e (by simp [he]), fun h => hdiff e he (List.append_cancel_right h)⟩
    · have hv' : needsEncoding v = false := by simpa using hv
      have hw : written (k, v) = (k, v) := by simp [written, hv']
      have hnew := hps (k, v) (by simp)
      simp only [hw]
      rw [if_neg hkey.2.2, if_neg (by simp [get_none.2 hnew]), put_new _ hnew, ih f _ cs hlen hk' hn.2 ?_ (fun e he => hcs e (by simp [he]))]
      · simp [hv']
      · intro e he
        simp only [List.map_append, List.map_cons, List.map_nil, List.mem_append, List.mem_singleton, not_or]
        exact ⟨hps e (by simp [he]), hdiff e he⟩

theorem once_nodup (l : List GoStr) (h : l.Nodup) : once l = l := by
  induction l with
  | nil => rfl
  | cons a l ih =>
    rw [List.nodup_cons] at h
    simp only [once, ih h.2]
    rw [List.filter_eq_self.2]
    intro b hb
    simp only [ne_eq, decide_eq_true_eq]
    rintro rfl
    exact h.1 hb

theorem star_base (k : GoStr) (h : 42 ∉ k) : (k ++ [42]).takeWhile (· ≠ 42) = k := by
  induction k with
  | nil => simp
  | cons c k ih =>
    simp only [List.mem_cons, not_or] at h
    have : c ≠ 42 := fun e => h.1 e.symm
    simpa [this] using ih h.2

theorem stitch_all (cs : PMap) (l : PMap) : ∀ ps : PMap, (∀ e ∈ l, get cs (e.1 ++ [42]) = some (lit "utf-8''" ++ escape e.2)) →
    (l.map (·.1)).Nodup → (∀ e ∈ l, e.1 ∉ ps.map (·.1)) → (l.map (·.1)).foldl (stitch cs) ps = ps ++ l := by
  induction l with
  | nil => intro ps _ _ _; simp
  | cons e l ih =>
    intro ps hg hn hps
    obtain ⟨k, v⟩ := e
    simp only [List.map_cons, List.nodup_cons] at hn
    have h1 : stitch cs ps k = ps ++ [(k, v)] := by
      unfold stitch
      rw [show k ++ lit "*" = k ++ [42] from rfl, hg (k, v) (by simp)]
      simp only [decode_escape]
      exact put_new v (hps (k, v) (by simp))
    simp only [List.map_cons, List.foldl_cons, h1]
    rw [ih _ (fun e he => hg e (by simp [he])) hn.2 ?_]
    · simp
    · intro e he
      simp only [List.map_append, List.map_cons, List.map_nil, List.mem_append, List.mem_singleton, not_or]
      refine ⟨hps e (by simp [he]), fun h => hn.1 (List.mem_map.2 ⟨e, he, h⟩)⟩

theorem written_keys (l : PMap) : (l.filter fun e => needsEncoding e.2).map written =
    (l.filter fun e => needsEncoding e.2).map fun e => (e.1 ++ [42], lit "utf-8''" ++ escape e.2) := by
  apply List.map_congr_left
  intro e he
  simp [written, (List.mem_filter.1 he).2]

/-- The parameters that are read from what is written. -/
theorem params_back (l : PMap) (hk : ∀ e ∈ l, GoodKey e.1) (hn : (l.map (·.1)).Nodup) :
    ∃ ps cs, loop (text l).length (text l) [] [] = some (ps, cs, true) ∧ ((bases cs).foldl (stitch cs) ps).Perm l := by
  refine ⟨_, _, loop_text l _ [] [] (Nat.le_refl _) hk hn (by simp) (by simp), ?_⟩
  simp only [List.nil_append]
  rw [written_keys]
  let q := l.filter fun e => needsEncoding e.2
  have hq : (q.map (·.1)).Nodup := List.Sublist.nodup (List.Sublist.map _ List.filter_sublist) hn
  have hb : bases (q.map fun e => (e.1 ++ [42], lit "utf-8''" ++ escape e.2)) = q.map (·.1) := by
    unfold bases
    rw [List.map_map]
    have : q.map ((fun e : GoStr × GoStr => e.1.takeWhile (· ≠ 42)) ∘ fun e => (e.1 ++ [42], lit "utf-8''" ++ escape e.2)) = q.map (·.1) :=
      List.map_congr_left fun e he => star_base e.1 (hk e (List.mem_filter.1 he).1).2.2
    rw [this, once_nodup _ hq]
  have hc : ((q.map fun e => (e.1 ++ [42], lit "utf-8''" ++ escape e.2)).map (·.1)).Nodup := by
    rw [List.map_map]
    have : q.map ((fun x : GoStr × GoStr => x.1) ∘ fun e => (e.1 ++ [42], lit "utf-8''" ++ escape e.2)) = (q.map (·.1)).map (· ++ [42]) := by
      rw [List.map_map]; rfl
    rw [this, List.Nodup, List.pairwise_map]
    exact hq.imp fun h e => h (List.append_cancel_right e)
  rw [hb, stitch_all _ q _ ?_ hq ?_]
  · refine (List.perm_append_comm).trans ?_
    exact List.filter_append_perm (fun e => needsEncoding e.2) l
  · intro e he
    exact get_some_of_mem hc (List.mem_map.2 ⟨e, he, rfl⟩)
  · intro e he hm
    obtain ⟨f, hf, h⟩ := List.mem_map.1 hm
    have hef := key_unique hn (List.mem_filter.1 hf).1 (List.mem_filter.1 he).1 h
    subst hef
    simp [(List.mem_filter.1 he).2] at hf

/-! ## The type -/

/-- A media type in lower case: a token, or two with a slash between them. -/
def GoodType (t : GoStr) : Prop := Low t ∧ ((t ≠ [] ∧ LowTok t) ∨ ∃ a b, t = a ++ 47 :: b ∧ a ≠ [] ∧ LowTok a ∧ b ≠ [] ∧ LowTok b)

theorem token_ne_slash (c : Byte) (h : isTokenChar c = true) : c ≠ 47 ∧ c ≠ 59 := by
  constructor <;> (rintro rfl; exact absurd h (by decide))

theorem goodType_of_check (t : GoStr) (h : checkType t = true) (hu : ∀ c ∈ t, ¬ (65 ≤ c ∧ c ≤ 90)) : GoodType t := by
  obtain ⟨h1, h2⟩ := consumeToken_spec t
  unfold checkType at h
  simp only at h
  split at h
  · cases h
  · rename_i hne
    have lt1 : LowTok (consumeToken t).1 := fun c hc => ⟨h1 c hc, hu c (by rw [h2]; simp [hc])⟩
    split at h
    · rename_i he
      rw [he, List.append_nil] at h2
      have : LowTok t := by rw [h2]; exact lt1
      exact ⟨this.low, .inl ⟨by rw [h2]; exact hne, this⟩⟩
    · rename_i c rest he
      split at h
      · cases h
      · rename_i hc
        have hc : c = 47 := by simpa using hc
        subst hc
        simp only [ne_eq, Bool.and_eq_true, decide_eq_true_eq] at h
        obtain ⟨g1, g2⟩ := consumeToken_spec rest
        rw [h.2, List.append_nil] at g2
        have ht : t = (consumeToken t).1 ++ 47 :: rest := by rw [he] at h2; exact h2
        have lt2 : LowTok rest := fun c hc => ⟨g1 c (by rw [← g2]; exact hc), hu c (by rw [ht]; simp [hc])⟩
        refine ⟨?_, .inr ⟨_, rest, ht, hne, lt1, by rw [g2]; exact h.1, lt2⟩⟩
        rw [ht]
        intro c hc
        rcases List.mem_append.1 hc with hc | hc
        · exact lt1.low c hc
        · rcases List.mem_cons.1 hc with rfl | hc
          · decide
          · exact lt2.low c hc

theorem takeWhile_stop (p : Byte → Bool) (a : GoStr) (c : Byte) (b : GoStr) (ha : ∀ x ∈ a, p x = true) (hc : p c = false) :
    (a ++ c :: b).takeWhile p = a ∧ (a ++ c :: b).dropWhile p = c :: b := by
  induction a with
  | nil => simp [hc]
  | cons x a ih =>
    have := ih fun y hy => ha y (by simp [hy])
    simp [ha x (by simp), this.1, this.2]

theorem takeWhile_all (p : Byte → Bool) (a : GoStr) (ha : ∀ x ∈ a, p x = true) : a.takeWhile p = a ∧ a.dropWhile p = [] := by
  induction a with
  | nil => simp
  | cons x a ih =>
    have := ih fun y hy => ha y (by simp [hy])
    simp [ha x (by simp), this.1, this.2]

theorem GoodType.format {t : GoStr} (h : GoodType t) : formatType t = t ∧ t ≠ [] := by
  obtain ⟨hl, ⟨h1, h2⟩ | ⟨a, b, rfl, ha, ha2, hb, hb2⟩⟩ := h
  · have := (takeWhile_all (· ≠ 47) t fun c hc => by simp [(token_ne_slash c (h2 c hc).1).1]).2
    refine ⟨?_, h1⟩
    unfold formatType
    rw [this]
    simp only
    rw [if_pos ((isToken_iff t).2 ⟨h1, fun c hc => (h2 c hc).1⟩), lower_low t hl]
  · have := takeWhile_stop (· ≠ 47) a 47 b (fun c hc => by simp [(token_ne_slash c (ha2 c hc).1).1]) (by decide)
    refine ⟨?_, by simp⟩
    unfold formatType
    rw [this.2]
    simp only [this.1]
    have t1 := (isToken_iff a).2 ⟨ha, fun c hc => (ha2 c hc).1⟩
    have t2 := (isToken_iff b).2 ⟨hb, fun c hc => (hb2 c hc).1⟩
    rw [t1, t2, lower_low a ha2.low, lower_low b hb2.low]
    simp [lit]

theorem GoodType.check {t : GoStr} (h : GoodType t) : checkType t = true := by
  obtain ⟨hl, ⟨h1, h2⟩ | ⟨a, b, rfl, ha, ha2, hb, hb2⟩⟩ := h
  · have := token_stop t [] (fun c hc => (h2 c hc).1) (by simp)
    rw [List.append_nil] at this
    simp [checkType, this, h1]
  · have h3 := token_stop a (47 :: b) (fun c hc => (ha2 c hc).1) (by rintro c t ⟨⟩; decide)
    have h4 := token_stop b [] (fun c hc => (hb2 c hc).1) (by simp)
    rw [List.append_nil] at h4
    simp [checkType, h3, h4, ha, hb]

theorem GoodType.noSemi {t : GoStr} (h : GoodType t) : ∀ c ∈ t, c ≠ 59 := by
  obtain ⟨hl, ⟨h1, h2⟩ | ⟨a, b, rfl, ha, ha2, hb, hb2⟩⟩ := h
  · exact fun c hc => (token_ne_slash c (h2 c hc).1).2
  · intro c hc
    rcases List.mem_append.1 hc with hc | hc
    · exact (token_ne_slash c (ha2 c hc).1).2
    · rcases List.mem_cons.1 hc with rfl | hc
      · decide
      · exact (token_ne_slash c (hb2 c hc).1).2

/-! ## What is read is in order -/

/-- The names of parameters: tokens in lower case without an asterisk, or empty; each once. -/
def GoodParams (ps : PMap) : Prop := (ps.map (·.1)).Nodup ∧ ∀ k ∈ ps.map (·.1), LowTok k ∧ 42 ∉ k

theorem GoodParams.put {ps : PMap} (h : GoodParams ps) (k v : GoStr) (hk : LowTok k ∧ 42 ∉ k) : GoodParams (put ps k v) := by
  obtain ⟨h1, h2⟩ := put_keys (k := k) (v := v) h.1
  refine ⟨h1, fun x hx => ?_⟩
  rcases h2 x hx with rfl | hx
  · exact hk
  · exact h.2 x hx

theorem consume_key {v key value rest : GoStr} (h : consumeMediaParam v = some (key, value, rest)) : LowTok key ∧ key ≠ [] := by
  unfold consumeMediaParam at h
  split at h
  · cases h
  · split at h
    · cases h
    · simp only at h
      split at h
      · cases h
      · rename_i hne
        split at h
        · cases h
        · split at h
          · cases h
          · split at h
            · cases h
            · simp only [Option.some.injEq, Prod.mk.injEq] at h
              rw [← h.1]
              exact ⟨lower_token (consumeToken_spec _).1, hne⟩

theorem loop_good : ∀ (fuel : Nat) (v : GoStr) (ps cs ps' cs' : PMap) (f : Bool), loop fuel v ps cs = some (ps', cs', f) →
    GoodParams ps → ((cs.map (·.1)).Nodup ∧ ∀ k ∈ cs.map (·.1), LowTok k) →
    GoodParams ps' ∧ ((cs'.map (·.1)).Nodup ∧ ∀ k ∈ cs'.map (·.1), LowTok k) := by
  intro fuel
  induction fuel with
  | zero =>
    intro v ps cs ps' cs' f h hp hc
    unfold loop at h
    simp only at h
    split at h
    · cases h; exact ⟨hp, hc⟩
    · cases h
  | succ fuel ih =>
    intro v ps cs ps' cs' f h hp hc
    unfold loop at h
    simp only at h
    split at h
    · cases h; exact ⟨hp, hc⟩
    · split at h
      · split at h
        · cases h; exact ⟨hp, hc⟩
        · cases h
      · rename_i key value rest hk
        have hkey := consume_key hk
        split at h
        · split at h
          · cases h
          · refine ih _ _ _ _ _ _ h hp ?_
            obtain ⟨h1, h2⟩ := put_keys (k := key) (v := value) hc.1
            refine ⟨h1, fun x hx => ?_⟩
            rcases h2 x hx with rfl | hx
            · exact hkey.1
            · exact hc.2 x hx
        · rename_i hs
          split at h
          · cases h
          · exact ih _ _ _ _ _ _ h (hp.put key value ⟨hkey.1, hs⟩) hc

theorem once_mem (l : List GoStr) : ∀ x ∈ once l, x ∈ l := by
  induction l with
  | nil => intro x hx; cases hx
  | cons a l ih =>
    intro x hx
    rcases List.mem_cons.1 hx with rfl | hx
    · simp
    · exact List.mem_cons_of_mem _ (ih x (List.mem_filter.1 hx).1)

theorem base_good (cs : PMap) (hc : ∀ k ∈ cs.map (·.1), LowTok k) : ∀ b ∈ bases cs, LowTok b ∧ 42 ∉ b := by
  intro b hb
  obtain ⟨e, he, rfl⟩ := List.mem_map.1 (once_mem _ b hb)
  refine ⟨fun c hcm => hc e.1 (List.mem_map.2 ⟨e, he, rfl⟩) c (List.takeWhile_subset _ hcm), fun hm => ?_⟩
  have := List.all_eq_true.1 (List.all_takeWhile (p := (· ≠ 42)) (l := e.1)) 42 hm
  simp at this

theorem stitch_good (cs : PMap) (bs : List GoStr) (hb : ∀ b ∈ bs, LowTok b ∧ 42 ∉ b) : ∀ ps, GoodParams ps → GoodParams (bs.foldl (stitch cs) ps) := by
  induction bs with
  | nil => intro ps h; exact h
  | cons b bs ih =>
    intro ps h
    rw [List.foldl_cons]
    apply ih fun b hb' => hb b (by simp [hb'])
    have hg := hb b (by simp)
    unfold stitch
    split
    · split
      · exact h.put _ _ hg
      · exact h
    · split
      · exact h.put _ _ hg
      · exact h

theorem parse_good {v t : GoStr} {ps : PMap} (h : parse v = some (t, ps)) : GoodType t ∧ GoodParams ps := by
  unfold parse at h
  simp only at h
  split at h
  · cases h
  · rename_i hct
    split at h
    · cases h
    · rename_i ps' cs' f hl
      simp only [Option.some.injEq, Prod.mk.injEq] at h
      obtain ⟨h1, h2⟩ := loop_good _ _ _ _ _ _ _ hl ⟨by simp, by simp⟩ ⟨by simp, by simp⟩
      constructor
      · rw [← h.1]
        exact goodType_of_check _ (by simpa using hct) fun c hc => lower_noUpper _ c (trimSpace_sub _ c hc)
      · rw [← h.2]
        split
        · exact stitch_good _ _ (base_good cs' h2.2) _ h1
        · exact h1

/-! ## Writing and reading back -/

theorem goodKeys {ps : PMap} (h : GoodParams ps) (he : ∀ e ∈ ps, e.1 ≠ []) : ∀ e ∈ ps, GoodKey e.1 := fun e hm =>
  have := h.2 e.1 (List.mem_map.2 ⟨e, hm, rfl⟩)
  ⟨he e hm, this.1, this.2⟩

theorem format_good {t : GoStr} {ps : PMap} (ht : GoodType t) (hp : GoodParams ps) (he : ∀ e ∈ ps, e.1 ≠ []) :
    format t ps = t ++ text (sort ps) := by
  unfold format
  rw [ht.format.1, if_neg ht.format.2, if_pos]
  · rfl
  · rw [List.all_eq_true]
    intro e hm
    have hm := (sort_perm ps).mem_iff.1 hm
    exact (isToken_iff _).2 ⟨he e hm, fun c hc => ((hp.2 e.1 (List.mem_map.2 ⟨e, hm, rfl⟩)).1 c hc).1⟩

theorem format_bad {t : GoStr} {ps : PMap} (he : ∃ e ∈ ps, e.1 = []) : format t ps = [] := by
  obtain ⟨e, hm, he⟩ := he
  unfold format
  split
  · rfl
  · rw [if_neg]
    intro h
    have := List.all_eq_true.1 h e ((sort_perm ps).mem_iff.2 hm)
    rw [he] at this
    simp [isToken] at this

theorem GoodParams.perm {ps qs : PMap} (h : GoodParams ps) (hp : ps.Perm qs) : GoodParams qs :=
  ⟨((hp.map (·.1)).nodup_iff).1 h.1, fun k hk => h.2 k ((hp.map (·.1)).mem_iff.2 hk)⟩

theorem parse_format {t : GoStr} {ps : PMap} (ht : GoodType t) (hp : GoodParams ps) (he : ∀ e ∈ ps, e.1 ≠ []) :
    ∃ qs, parse (format t ps) = some (t, qs) ∧ qs.Perm ps := by
  rw [format_good ht hp he]
  have hs := sort_perm ps
  have hp' := hp.perm hs.symm
  obtain ⟨ps', cs', h1, h2⟩ := params_back (sort ps) (goodKeys hp' fun e hm => he e (hs.mem_iff.1 hm)) hp'.1
  refine ⟨_, ?_, h2.trans hs⟩
  have hsplit : (t ++ text (sort ps)).takeWhile (· ≠ 59) = t ∧ (t ++ text (sort ps)).dropWhile (· ≠ 59) = text (sort ps) := by
    rcases next_text (sort ps) with hx | ⟨u, hx⟩
    · rw [hx, List.append_nil]
      exact takeWhile_all _ t fun c hc => by simp [ht.noSemi c hc]
    · rw [hx]
      exact takeWhile_stop _ t 59 u (fun c hc => by simp [ht.noSemi c hc]) (by decide)
  unfold parse
  simp only [hsplit.1, hsplit.2, h1, if_true]
  rw [lower_low t ht.1, trimSpace_vis t fun c hc => (ht.1 c hc).1, ht.check]
  rfl

end Mime
end Verif
