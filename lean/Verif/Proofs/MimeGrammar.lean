import Verif.Proofs.MimeBack
import Verif.Spec.Media

/-! # Media types: exactly what is read -/

set_option autoImplicit false

namespace Verif
namespace Mime
open Spec.Media

/-! ## White space -/

theorem find_code (codes : List GoStr) (hpf : ∀ a ∈ codes, ∀ b ∈ codes, a <+: b → a = b) (c s : GoStr) (hc : c ∈ codes) :
    codes.find? (fun x => x.isPrefixOf (c ++ s)) = some c := by
  cases hf : codes.find? (fun x => x.isPrefixOf (c ++ s)) with
  | none =>
    have := List.find?_eq_none.1 hf c hc
    simp at this
  | some d =>
    have hm := List.mem_of_find?_eq_some hf
    have hp : d <+: c ++ s := by simpa using List.find?_some hf
    have hq : c <+: c ++ s := List.prefix_append c s
    rcases List.prefix_or_prefix_of_prefix hp hq with h | h
    · rw [hpf d hm c hc h]
    · rw [hpf c hc d hm h]

theorem strip_codes (codes : List GoStr) (hne : ∀ c ∈ codes, c ≠ []) (hpf : ∀ a ∈ codes, ∀ b ∈ codes, a <+: b → a = b) (l : List GoStr)
    (hl : ∀ c ∈ l, c ∈ codes) (s : GoStr) (hs : codes.find? (fun x => x.isPrefixOf s) = none) :
    ∀ fuel, (l.flatten ++ s).length ≤ fuel → stripFront codes fuel (l.flatten ++ s) = s := by
  induction l with
  | nil =>
    intro fuel _
    cases fuel with
    | zero => rfl
    | succ f => simp [stripFront, hs]
  | cons c l ih =>
    intro fuel hf
    have hc := hl c (by simp)
    have : 0 < c.length := List.length_pos_iff.2 (hne c hc)
    simp only [List.flatten_cons, List.append_assoc, List.length_append] at hf
    cases fuel with
    | zero => omega
    | succ f =>
      simp only [List.flatten_cons, List.append_assoc, stripFront, find_code codes hpf c _ hc, List.drop_left]
      exact ih (fun d hd => hl d (by simp [hd])) f (by simp only [List.length_append]; omega)

theorem codes_prefixFree : ∀ a ∈ spaceCodes, ∀ b ∈ spaceCodes, a <+: b → a = b := by
  have : ∀ a ∈ spaceCodes, ∀ b ∈ spaceCodes, a.isPrefixOf b = true → a = b := by decide +kernel
  intro a ha b hb h
  exact this a ha b hb (List.isPrefixOf_iff_prefix.2 h)

theorem rcodes_prefixFree : ∀ a ∈ spaceCodes.map List.reverse, ∀ b ∈ spaceCodes.map List.reverse, a <+: b → a = b := by
  have : ∀ a ∈ spaceCodes.map List.reverse, ∀ b ∈ spaceCodes.map List.reverse, a.isPrefixOf b = true → a = b := by decide +kernel
  intro a ha b hb h
  exact this a ha b hb (List.isPrefixOf_iff_prefix.2 h)

/-- Nothing or a visible character comes first. -/
def Starts (s : GoStr) : Prop := ∀ c t, s = c :: t → Vis c

theorem starts_find {s : GoStr} (h : Starts s) : spaceCodes.find? (fun x => x.isPrefixOf s) = none := by
  cases s with
  | nil => decide
  | cons c t => exact codes_first c t (h c t rfl)

theorem trimLeft_spaces {a s : GoStr} (ha : Spaces a) (hs : Starts s) : trimLeft (a ++ s) = s := by
  obtain ⟨l, hl, rfl⟩ := ha
  rw [← spaces_eq] at hl
  exact strip_codes spaceCodes spaceCodes_ne codes_prefixFree l hl s (starts_find hs) _ (Nat.le_refl _)

theorem trimLeft_spec (s : GoStr) : ∃ a, Spaces a ∧ s = a ++ trimLeft s := by
  obtain ⟨⟨l, h1, h2⟩, _⟩ := stripFront_spec spaceCodes spaceCodes_ne s.length s (Nat.le_refl _)
  rw [spaces_eq] at h1
  exact ⟨l.flatten, ⟨l, h1, rfl⟩, h2⟩

theorem spaces_nil : Spaces [] := ⟨[], by simp, rfl⟩

theorem spaces_append {a b : GoStr} (ha : Spaces a) (hb : Spaces b) : Spaces (a ++ b) := by
  obtain ⟨l, hl, rfl⟩ := ha
  obtain ⟨m, hm, rfl⟩ := hb
  refine ⟨l ++ m, fun c hc => ?_, by simp⟩
  rcases List.mem_append.1 hc with h | h
  · exact hl c h
  · exact hm c h

theorem spaces_bytes {a : GoStr} (h : Spaces a) : ∀ c ∈ a, ¬ Vis c := by
  obtain ⟨l, hl, rfl⟩ := h
  rw [← spaces_eq] at hl
  have : ∀ x ∈ spaceCodes, ∀ c ∈ x, ¬ Vis c := by decide +kernel
  intro c hc
  obtain ⟨x, hx, hcx⟩ := List.mem_flatten.1 hc
  exact this x (hl x hx) c hcx

theorem trimSpace_spaces {a s b : GoStr} (ha : Spaces a) (hb : Spaces b) (hs : ∀ c ∈ s, Vis c) (hne : s ≠ []) : trimSpace (a ++ s ++ b) = s := by
  obtain ⟨c, t, rfl⟩ : ∃ c t, s = c :: t := by
    cases s with
    | nil => exact absurd rfl hne
    | cons c t => exact ⟨c, t, rfl⟩
  have h1 : stripFront spaceCodes (a ++ c :: t ++ b).length (a ++ c :: t ++ b) = c :: t ++ b := by
    have := trimLeft_spaces (s := c :: t ++ b) ha (by rintro d u ⟨⟩; exact hs c (by simp))
    rw [List.append_assoc]
    exact this
  unfold trimSpace
  simp only [h1]
  obtain ⟨l, hl, rfl⟩ := hb
  rw [← spaces_eq] at hl
  have h2 : (c :: t ++ l.flatten).reverse = (l.map List.reverse).reverse.flatten ++ (c :: t).reverse := by
    rw [List.reverse_append, reverse_flatten]
  rw [h2]
  rcases hr : (c :: t).reverse with _ | ⟨d, u⟩
  · simp at hr
  · have hd : Vis d := hs d (by rw [← List.mem_reverse, hr]; simp)
    rw [strip_codes _ (by decide) rcodes_prefixFree _ ?_ (d :: u) (codes_last d u hd) _ ?_]
    · rw [← hr, List.reverse_reverse]
    · intro x hx
      simp only [List.mem_reverse] at hx
      obtain ⟨y, hy, rfl⟩ := List.mem_map.1 hx
      exact List.mem_map.2 ⟨y, hl y hy, rfl⟩
    · rw [← hr, ← h2, List.length_reverse]
      exact Nat.le_refl _

theorem trimSpace_split (s : GoStr) : ∃ a b, Spaces a ∧ Spaces b ∧ s = a ++ trimSpace s ++ b := by
  obtain ⟨l, r, h1, h2, h3, _⟩ := trimSpace_spec s
  rw [spaces_eq] at h1 h2
  exact ⟨_, _, ⟨l, h1, rfl⟩, ⟨r, h2, rfl⟩, h3⟩

/-! ## Tokens -/

theorem tokenByte_iff (c : Byte) : TokenByte c ↔ isTokenChar c = true := by
  simp [TokenByte, isTokenChar, isTSpecial, tspecials, and_assoc]

theorem token_iff (s : GoStr) : Token s ↔ s ≠ [] ∧ ∀ c ∈ s, isTokenChar c = true := by
  simp only [Token, tokenByte_iff]

theorem lower_tok (s : GoStr) (h : ∀ c ∈ s, isTokenChar c = true) : lower s = Spec.lower s := by
  rw [lower_ascii s fun c hc => vis_ascii c (vis_of_token c (h c hc))]
  unfold Spec.lower
  apply List.map_congr_left
  intro c _
  simp [Spec.lowerByte]

/-! ## Values -/

theorem inside_quoted {s v : GoStr} (h : Inside s v) : ∀ (rest acc : GoStr), consumeQuoted (s ++ 34 :: rest) acc = some (acc ++ v, rest) := by
  induction h with
  | nil =>
    intro rest acc
    cases rest <;> simp [consumeQuoted]
  | @plain c s v h1 h2 h3 h4 _ ih =>
    intro rest acc
    obtain ⟨d, w, hw⟩ : ∃ d w, s ++ 34 :: rest = d :: w := by
      cases hx : s ++ 34 :: rest with
      | nil => simp at hx
      | cons d w => exact ⟨d, w, rfl⟩
    rw [List.cons_append, hw, consumeQuoted, if_neg h1, if_neg (fun e => h2 e.1), if_neg (by simp [h3, h4]), ← hw, ih]
    simp
  | @escaped c s v h1 _ ih =>
    intro rest acc
    have : isTSpecial c = true := by simpa [isTSpecial, tspecials] using h1
    rw [List.cons_append, List.cons_append, consumeQuoted, if_neg (by decide), if_pos ⟨rfl, this⟩, ih]
    simp
  | @backslash c s v h1 _ ih =>
    intro rest acc
    have : ¬ isTSpecial c = true := by simpa [isTSpecial, tspecials] using h1
    have := ih rest (acc ++ [92])
    rw [List.cons_append] at this
    rw [List.cons_append, List.cons_append, consumeQuoted, if_neg (by decide), if_neg (by simp_all), if_neg (by decide), this]
    simp

theorem quoted_inside : ∀ (s acc v rest : GoStr), consumeQuoted s acc = some (v, rest) → ∃ i w, s = i ++ 34 :: rest ∧ v = acc ++ w ∧ Inside i w := by
  intro s acc
  fun_induction consumeQuoted s acc with
  | case1 acc => intro v rest h; cases h
  | case2 acc => intro v rest h; cases h; exact ⟨[], [], rfl, by simp, .nil⟩
  | case3 c acc hc => intro v rest h; cases h
  | case4 d w acc => intro v rest h; cases h; exact ⟨[], [], rfl, by simp, .nil⟩
  | case5 c d w acc h1 h2 ih =>
    intro v rest h
    obtain ⟨i, x, rfl, rfl, hi⟩ := ih v rest h
    obtain ⟨rfl, hd⟩ := h2
    exact ⟨92 :: d :: i, d :: x, rfl, by simp, .escaped (by simpa [isTSpecial, tspecials] using hd) hi⟩
  | case6 c d w acc h1 h2 h3 => intro v rest h; cases h
  | case7 c d w acc h1 h2 h3 ih =>
    intro v rest h
    obtain ⟨i, x, h4, rfl, hi⟩ := ih v rest h
    by_cases hc : c = 92
    · subst hc
      have hd : ¬ isTSpecial d = true := fun e => h2 ⟨rfl, e⟩
      cases i with
      | nil =>
        simp only [List.nil_append, List.cons.injEq] at h4
        exact absurd (by rw [h4.1]; decide) hd
      | cons e i =>
        simp only [List.cons_append, List.cons.injEq] at h4
        obtain ⟨rfl, rfl⟩ := h4
        exact ⟨92 :: d :: i, 92 :: x, rfl, by simp, .backslash (by simpa [isTSpecial, tspecials] using hd) hi⟩
    · refine ⟨c :: i, c :: x, by rw [h4]; rfl, by simp, .plain h1 hc (fun e => h3 (.inl e)) (fun e => h3 (.inr e)) hi⟩

/-- What follows a value. -/
def Ends (rest : GoStr) : Prop := ∀ c t, rest = c :: t → isTokenChar c = false

theorem value_consume {s v rest : GoStr} (h : Value s v) (hr : Ends rest) : consumeValue (s ++ rest) = some (v, rest) := by
  cases h with
  | token h =>
    obtain ⟨h1, h2⟩ := (token_iff _).1 h
    obtain ⟨c, t, rfl⟩ : ∃ c t, s = c :: t := by
      cases s with
      | nil => exact absurd rfl h1
      | cons c t => exact ⟨c, t, rfl⟩
    have hc : c ≠ 34 := by
      rintro rfl
      exact absurd (h2 34 (by simp)) (by decide)
    have := token_stop (c :: t) rest h2 hr
    simp only [List.cons_append] at this ⊢
    simp only [consumeValue, ne_eq, hc, not_false_iff, if_true, this, reduceCtorEq, if_false]
  | quoted h =>
    have := inside_quoted h rest []
    simp only [lit, List.append_assoc]
    simpa [consumeValue] using this

theorem consume_value {v value rest : GoStr} (h : consumeValue v = some (value, rest)) :
    ∃ s, v = s ++ rest ∧ Value s value ∧ (∃ c t, s = c :: t ∧ Vis c) ∧ (Ends rest ∨ ∃ i, s = 34 :: i ++ [34]) := by
  unfold consumeValue at h
  split at h
  · cases h
  · rename_i c w
    split at h
    · rename_i hc
      simp only at h
      split at h
      · cases h
      · rename_i hne
        simp only [Option.some.injEq] at h
        obtain ⟨h1, h2⟩ := consumeToken_spec (c :: w)
        rw [h] at h1 h2 hne
        simp only at h1 h2 hne
        refine ⟨value, h2, .token ((token_iff _).2 ⟨hne, h1⟩), ?_, .inl ?_⟩
        · cases value with
          | nil => exact absurd rfl hne
          | cons d t => exact ⟨d, t, rfl, vis_of_token d (h1 d (by simp))⟩
        · intro d t hd
          have h3 : (consumeToken (c :: w)).2 = d :: t := by rw [h]; exact hd
          have h4 := List.head?_dropWhile_not isTokenChar (c :: w)
          unfold consumeToken at h3
          simp only at h3
          rw [h3] at h4
          simpa using h4
    · rename_i hc
      have hc : c = 34 := by simpa using hc
      subst hc
      obtain ⟨i, x, rfl, h2, h3⟩ := quoted_inside _ _ _ _ h
      simp only [List.nil_append] at h2
      subst h2
      exact ⟨34 :: i ++ [34], by simp, .quoted h3, ⟨34, _, rfl, by decide⟩, .inr ⟨i, rfl⟩⟩

/-! ## Parameters -/

theorem spaces_starts {a : GoStr} (h : Spaces a) : Ends a := by
  rintro c t rfl
  cases hc : isTokenChar c with
  | false => rfl
  | true => exact absurd (vis_of_token c hc) (spaces_bytes h c (by simp))

theorem ends_append {a b : GoStr} (ha : Ends a) (hb : Ends b) : Ends (a ++ b) := by
  rintro c t h
  cases a with
  | nil => exact hb c t h
  | cons d a =>
    simp only [List.cons_append, List.cons.injEq] at h
    exact ha c a (by rw [h.1])

theorem ends_cons {c : Byte} {s : GoStr} (h : isTokenChar c = false) : Ends (c :: s) := by
  rintro d t ⟨⟩
  exact h

theorem starts_cons {c : Byte} {s : GoStr} (h : Vis c) : Starts (c :: s) := by
  rintro d t ⟨⟩
  exact h

theorem params_ends {s : GoStr} {ps : PMap} {semi : Bool} (h : Params s ps semi) : Ends s := by
  cases h with
  | none h => exact spaces_starts h
  | semicolon h h' =>
    rw [List.append_assoc]
    exact ends_append (spaces_starts h) (ends_cons (by decide))
  | param h1 _ _ _ _ _ _ =>
    simp only [List.append_assoc]
    exact ends_append (spaces_starts h1) (ends_cons (by decide))

theorem value_starts {s v : GoStr} (h : Value s v) : ∃ c t, s = c :: t ∧ Vis c := by
  cases h with
  | token h =>
    obtain ⟨h1, h2⟩ := (token_iff _).1 h
    cases s with
    | nil => exact absurd rfl h1
    | cons c t => exact ⟨c, t, rfl, vis_of_token c (h2 c (by simp))⟩
  | quoted h => exact ⟨34, _, rfl, by decide⟩

theorem trimLeft_starts {s : GoStr} (h : Starts s) : trimLeft s = s := by
  have := trimLeft_spaces (a := []) spaces_nil h
  simpa using this

/-- One parameter is read as it should be. -/
theorem consume_param {s₁ s₂ s₃ s₄ key text value rest : GoStr} (h1 : Spaces s₁) (h2 : Spaces s₂) (h3 : Spaces s₃) (h4 : Spaces s₄)
    (hk : Token key) (hv : Value text value) (hr : Ends rest) :
    consumeMediaParam (s₁ ++ lit ";" ++ s₂ ++ key ++ s₃ ++ lit "=" ++ s₄ ++ text ++ rest) = some (Spec.lower key, value, rest) := by
  obtain ⟨k1, k2⟩ := (token_iff _).1 hk
  have e1 : trimLeft (s₁ ++ lit ";" ++ s₂ ++ key ++ s₃ ++ lit "=" ++ s₄ ++ text ++ rest) =
      59 :: (s₂ ++ (key ++ (s₃ ++ 61 :: (s₄ ++ (text ++ rest))))) := by
    have := trimLeft_spaces (s := 59 :: (s₂ ++ (key ++ (s₃ ++ 61 :: (s₄ ++ (text ++ rest)))))) h1 (starts_cons (by decide))
    rw [← this]
    simp [lit]
  have e2 : trimLeft (s₂ ++ (key ++ (s₃ ++ 61 :: (s₄ ++ (text ++ rest))))) = key ++ (s₃ ++ 61 :: (s₄ ++ (text ++ rest))) := by
    refine trimLeft_spaces h2 ?_
    cases key with
    | nil => exact absurd rfl k1
    | cons c t => exact starts_cons (vis_of_token c (k2 c (by simp)))
  have e3 := token_stop key (s₃ ++ 61 :: (s₄ ++ (text ++ rest))) k2 (ends_append (spaces_starts h3) (ends_cons (by decide)))
  have e4 : trimLeft (s₃ ++ 61 :: (s₄ ++ (text ++ rest))) = 61 :: (s₄ ++ (text ++ rest)) := trimLeft_spaces h3 (starts_cons (by decide))
  have e5 : trimLeft (s₄ ++ (text ++ rest)) = text ++ rest := by
    refine trimLeft_spaces h4 ?_
    obtain ⟨c, t, rfl, hc⟩ := value_starts hv
    exact starts_cons hc
  have e6 := value_consume hv hr
  have e7 : lower key ≠ [] := fun h => k1 (lower_eq_nil h)
  simp only [consumeMediaParam, e1, e2, e3, e4, e5, e6, ne_eq, not_true_eq_false, if_false, e7, lower_tok key k2]
  rw [lower_tok key k2] at e7
  simp only [e7, if_false]

/-- What is read as a parameter is one. -/
theorem param_consume {v key value rest : GoStr} (h : consumeMediaParam v = some (key, value, rest)) :
    ∃ s₁ s₂ k s₃ s₄ text, v = s₁ ++ lit ";" ++ s₂ ++ k ++ s₃ ++ lit "=" ++ s₄ ++ text ++ rest ∧ Spaces s₁ ∧ Spaces s₂ ∧ Spaces s₃ ∧ Spaces s₄ ∧
      Token k ∧ key = Spec.lower k ∧ Value text value := by
  unfold consumeMediaParam at h
  obtain ⟨s₁, hs1, ev⟩ := trimLeft_spec v
  split at h
  · cases h
  · rename_i c r hr
    split at h
    · cases h
    · rename_i hc
      have hc : c = 59 := by simpa using hc
      subst hc
      obtain ⟨s₂, hs2, er⟩ := trimLeft_spec r
      obtain ⟨t1, t2⟩ := consumeToken_spec (trimLeft r)
      simp only at h
      split at h
      · cases h
      · rename_i hne
        obtain ⟨s₃, hs3, et⟩ := trimLeft_spec (consumeToken (trimLeft r)).2
        split at h
        · cases h
        · rename_i c u hu
          split at h
          · cases h
          · rename_i hc
            have hc : c = 61 := by simpa using hc
            subst hc
            obtain ⟨s₄, hs4, eu⟩ := trimLeft_spec u
            split at h
            · cases h
            · rename_i val rst hval
              simp only [Option.some.injEq, Prod.mk.injEq] at h
              obtain ⟨rfl, rfl, rfl⟩ := h
              obtain ⟨text, ex, hx, _⟩ := consume_value hval
              refine ⟨s₁, s₂, (consumeToken (trimLeft r)).1, s₃, s₄, text, ?_, hs1, hs2, hs3, hs4, (token_iff _).2 ⟨?_, t1⟩, lower_tok _ t1, hx⟩
              · rw [hr] at ev
                rw [hu] at et
                have : v = s₁ ++ 59 :: (s₂ ++ ((consumeToken (trimLeft r)).1 ++ (s₃ ++ 61 :: (s₄ ++ (text ++ rst))))) := by
                  rw [← ex, ← eu, ← et, ← t2, ← er]
                  exact ev
                rw [this]
                simp [lit]
              · intro e
                rw [e] at hne
                exact hne rfl

/-- What the parameters become, given those read before. -/
def collect : PMap → PMap → PMap → Option (PMap × PMap)
  | [], ps, cs => some (ps, cs)
  | (k, v) :: raw, ps, cs =>
    if 42 ∈ k then
      if k ∈ cs.map (·.1) then none else collect raw ps (cs ++ [(k, v)])
    else
      if k ∈ ps.map (·.1) then none else collect raw (ps ++ [(k, v)]) cs

def starred (ps : PMap) : PMap := ps.filter fun e => 42 ∈ e.1
def plain (ps : PMap) : PMap := ps.filter fun e => 42 ∉ e.1

theorem collect_some (raw : PMap) : ∀ ps cs r, collect raw ps cs = some r ↔
    (Distinct raw ∧ (∀ e ∈ raw, 42 ∈ e.1 → e.1 ∉ cs.map (·.1)) ∧ (∀ e ∈ raw, 42 ∉ e.1 → e.1 ∉ ps.map (·.1))) ∧
      r = (ps ++ plain raw, cs ++ starred raw) := by
  induction raw with
  | nil => intro ps cs r; simp [collect, Distinct, plain, starred, eq_comm]
  | cons e raw ih =>
    obtain ⟨k, v⟩ := e
    intro ps cs r
    by_cases hk : 42 ∈ k
    · by_cases hm : k ∈ cs.map (·.1)
      · simp only [collect, hk, hm, if_true]
        constructor
        · intro h; cases h
        · rintro ⟨⟨_, h, _⟩, _⟩
          exact absurd hm (h (k, v) (by simp) hk)
      · simp only [collect, hk, hm, if_true, if_false, ih]
        have e1 : plain ((k, v) :: raw) = plain raw := by simp [plain, hk]
        have e2 : starred ((k, v) :: raw) = (k, v) :: starred raw := by simp [starred, hk]
        rw [e1, e2]
        simp only [Distinct, List.pairwise_cons, List.mem_cons, forall_eq_or_imp, List.map_append, List.mem_append, List.map_cons,
          List.map_nil, List.not_mem_nil, or_false, not_or, List.append_assoc, List.cons_append, List.nil_append]
        constructor
        · rintro ⟨⟨h1, h2, h3⟩, h4⟩
          refine ⟨⟨⟨fun f hf e => ?_, h1⟩, ⟨fun _ => hm, fun f hf hs => (h2 f hf hs).1⟩, fun h => absurd hk h, h3⟩, h4⟩
          exact (h2 f hf (e ▸ hk)).2 e.symm
        · rintro ⟨⟨⟨h0, h1⟩, ⟨_, h2⟩, _, h3⟩, h4⟩
          exact ⟨⟨h1, fun f hf hs => ⟨h2 f hf hs, fun e => h0 f hf e.symm⟩, h3⟩, h4⟩
    · by_cases hm : k ∈ ps.map (·.1)
      · simp only [collect, hk, hm, if_true, if_false]
        constructor
        · intro h; cases h
        · rintro ⟨⟨_, _, h⟩, _⟩
          exact absurd hm (h (k, v) (by simp) hk)
      · simp only [collect, hk, hm, if_false, ih]
        have e1 : plain ((k, v) :: raw) = (k, v) :: plain raw := by simp [plain, hk]
        have e2 : starred ((k, v) :: raw) = starred raw := by simp [starred, hk]
        rw [e1, e2]
        simp only [Distinct, List.pairwise_cons, List.mem_cons, forall_eq_or_imp, List.map_append, List.mem_append, List.map_cons,
          List.map_nil, List.not_mem_nil, or_false, not_or, List.append_assoc, List.cons_append, List.nil_append]
        constructor
        · rintro ⟨⟨h1, h2, h3⟩, h4⟩
          refine ⟨⟨⟨fun f hf e => ?_, h1⟩, ⟨fun h => absurd h hk, h2⟩, fun _ => hm, fun f hf hs => (h3 f hf hs).1⟩, h4⟩
          exact (h3 f hf (e ▸ hk)).2 e.symm
        · rintro ⟨⟨⟨h0, h1⟩, ⟨_, h2⟩, _, h3⟩, h4⟩
          exact ⟨⟨h1, h2, fun f hf hs => ⟨h3 f hf hs, fun e => h0 f hf e.symm⟩⟩, h4⟩

theorem get_isSome (m : PMap) (k : GoStr) : (get m k).isSome = true ↔ k ∈ m.map (·.1) := by
  by_cases h : k ∈ m.map (·.1)
  · cases hg : get m k with
    | none => exact absurd h (get_none.1 hg)
    | some v => simp [h]
  · simp [get_none.2 h, h]

theorem loop_nil (fuel : Nat) (ps cs : PMap) {v : GoStr} (h : trimLeft v = []) : loop fuel v ps cs = some (ps, cs, true) := by
  cases fuel <;> simp [loop, h]

theorem trimSpaces {a : GoStr} (h : Spaces a) : trimLeft a = [] := by
  have := trimLeft_spaces (s := []) h (by rintro c t ⟨⟩)
  simpa using this

theorem trimLeft_idem (s : GoStr) : trimLeft (trimLeft s) = trimLeft s := by
  obtain ⟨_, h⟩ := stripFront_spec spaceCodes spaceCodes_ne s.length s (Nat.le_refl _)
  have h1 : spaceCodes.find? (fun x => x.isPrefixOf (trimLeft s)) = none :=
    List.find?_eq_none.2 fun x hx e => h x hx (List.isPrefixOf_iff_prefix.1 e)
  have := strip_codes spaceCodes spaceCodes_ne codes_prefixFree [] (by simp) _ h1 (trimLeft s).length (Nat.le_refl _)
  exact this

theorem consume_trim (v : GoStr) : consumeMediaParam (trimLeft v) = consumeMediaParam v := by
  unfold consumeMediaParam
  rw [trimLeft_idem]

/-- Parameters are read as they should be. -/
theorem loop_params {v : GoStr} {raw : PMap} {semi : Bool} (h : Params v raw semi) : ∀ (fuel : Nat) (ps cs : PMap), v.length ≤ fuel →
    loop fuel v ps cs = (collect raw ps cs).map fun r => (r.1, r.2, !semi) := by
  induction h with
  | none h =>
    intro fuel ps cs _
    rw [loop_nil fuel ps cs (trimSpaces h)]
    rfl
  | @semicolon s s' h h' =>
    intro fuel ps cs hf
    cases fuel with
    | zero => simp [lit] at hf
    | succ f =>
      have e1 : trimLeft (s ++ lit ";" ++ s') = 59 :: s' := by
        rw [List.append_assoc]
        exact trimLeft_spaces h (starts_cons (by decide))
      have e2 : consumeMediaParam (59 :: s') = none := by
        simp only [consumeMediaParam, trimLeft_starts (s := 59 :: s') (starts_cons (by decide)), trimSpaces h']
        rfl
      have e3 : trimSpace (59 :: s') = [59] := by
        have := trimSpace_spaces (a := []) (s := [59]) spaces_nil h' (by simp; decide) (by simp)
        simpa using this
      simp only [loop, e1, e2, e3, reduceCtorEq, if_false, if_true]
      rfl
  | @param s₁ s₂ s₃ s₄ key text value rest ps₀ semi h1 h2 h3 h4 hk hv hp ih =>
    intro fuel ps cs hf
    have e1 := consume_param h1 h2 h3 h4 hk hv (params_ends hp)
    cases fuel with
    | zero => simp [lit] at hf
    | succ f =>
      have hl : rest.length ≤ f := by
        simp only [List.length_append] at hf
        have : (lit ";").length = 1 := rfl
        omega
      have e2 : trimLeft (s₁ ++ lit ";" ++ s₂ ++ key ++ s₃ ++ lit "=" ++ s₄ ++ text ++ rest) ≠ [] := by
        intro e
        rw [consumeMediaParam, e] at e1
        cases e1
      rw [← consume_trim] at e1
      rw [loop]
      simp only [e2, if_false, e1]
      by_cases hs : 42 ∈ Spec.lower key
      · by_cases hm : Spec.lower key ∈ cs.map (·.1)
        · simp only [hs, if_true, (get_isSome _ _).2 hm, collect, hm]
          rfl
        · have hg : (get cs (Spec.lower key)).isSome = false := by rw [get_none.2 hm]; rfl
          simp only [hs, if_true, hg, collect, hm, if_false, put_new value hm, ih f _ _ hl]
          simp
      · by_cases hm : Spec.lower key ∈ ps.map (·.1)
        · simp only [hs, if_true, (get_isSome _ _).2 hm, collect, hm, if_false]
          rfl
        · have hg : (get ps (Spec.lower key)).isSome = false := by rw [get_none.2 hm]; rfl
          simp only [hs, hg, collect, hm, if_false, put_new value hm, ih f _ _ hl]
          simp

theorem spaces_params {a v : GoStr} {raw : PMap} {semi : Bool} (ha : Spaces a) (h : Params v raw semi) : Params (a ++ v) raw semi := by
  cases h with
  | none h => exact .none (spaces_append ha h)
  | semicolon h h' =>
    have := Params.semicolon (spaces_append ha h) h'
    simpa only [List.append_assoc] using this
  | param h1 h2 h3 h4 hk hv hr =>
    have := Params.param (spaces_append ha h1) h2 h3 h4 hk hv hr
    simpa only [List.append_assoc] using this

/-- What is read as parameters is such. -/
theorem params_loop : ∀ (fuel : Nat) (v : GoStr) (ps cs : PMap) (r : PMap × PMap × Bool), loop fuel v ps cs = some r →
    ∃ raw, Params v raw (!r.2.2) := by
  intro fuel
  induction fuel with
  | zero =>
    intro v ps cs r h
    rw [loop] at h
    obtain ⟨a, ha, ev⟩ := trimLeft_spec v
    split at h
    · rename_i e
      rw [e, List.append_nil] at ev
      cases h
      exact ⟨[], .none (ev ▸ ha)⟩
    · cases h
  | succ f ih =>
    intro v ps cs r h
    rw [loop] at h
    obtain ⟨a, ha, ev⟩ := trimLeft_spec v
    split at h
    · rename_i e
      rw [e, List.append_nil] at ev
      cases h
      exact ⟨[], .none (ev ▸ ha)⟩
    · split at h
      · split at h
        · rename_i e
          cases h
          obtain ⟨b, c, hb, hc, e2⟩ := trimSpace_split (trimLeft v)
          rw [e] at e2
          refine ⟨[], ?_⟩
          rw [ev, e2]
          exact spaces_params ha (.semicolon hb hc)
        · cases h
      · rename_i key value rest hc
        obtain ⟨s₁, s₂, k, s₃, s₄, text, e1, h1, h2, h3, h4, hk, rfl, hv⟩ := param_consume hc
        have : ∃ raw, Params rest raw (!r.2.2) := by
          split at h
          · split at h
            · cases h
            · exact ih _ _ _ _ h
          · split at h
            · cases h
            · exact ih _ _ _ _ h
        obtain ⟨raw, hr⟩ := this
        refine ⟨(Spec.lower k, value) :: raw, ?_⟩
        · rw [ev, e1]
          exact spaces_params ha (.param h1 h2 h3 h4 hk hv hr)

theorem loop_iff (v : GoStr) (ps cs : PMap) (f : Bool) : loop v.length v [] [] = some (ps, cs, f) ↔
    ∃ raw, Params v raw (!f) ∧ Distinct raw ∧ ps = plain raw ∧ cs = starred raw := by
  constructor
  · intro h
    obtain ⟨raw, hr⟩ := params_loop _ _ _ _ _ h
    rw [loop_params hr _ _ _ (Nat.le_refl _), Option.map_eq_some_iff] at h
    obtain ⟨q, h1, h2⟩ := h
    simp only [Prod.mk.injEq] at h2
    obtain ⟨rfl, rfl, _⟩ := h2
    obtain ⟨⟨h3, _, _⟩, h4⟩ := (collect_some raw _ _ _).1 h1
    exact ⟨raw, hr, h3, by rw [h4]; rfl, by rw [h4]; rfl⟩
  · rintro ⟨raw, hr, hd, rfl, rfl⟩
    rw [loop_params hr _ _ _ (Nat.le_refl _), (collect_some raw [] [] (plain raw, starred raw)).2 ⟨⟨hd, by simp, by simp⟩, by simp⟩]
    simp

/-! ## The type -/

theorem dotted_eq : String.utf8EncodeChar (Char.ofNat 0x130) = [0xC4, 0xB0] := by decide +kernel
theorem kelvin_eq : String.utf8EncodeChar (Char.ofNat 0x212A) = [0xE2, 0x84, 0xAA] := by decide +kernel

theorem lowerByte_eq (c : Byte) : Spec.lowerByte c = if 65 ≤ c ∧ c ≤ 90 then c + 32 else c := by
  simp [Spec.lowerByte]

theorem lowers_lower (s : GoStr) : Lowers s (lower s) := by
  fun_induction lower s with
  | case1 s ih =>
    have := Lowers.dotted ih
    rw [dotted_eq] at this
    exact this
  | case2 s ih =>
    have := Lowers.kelvin ih
    rw [kelvin_eq] at this
    exact this
  | case3 c s h1 h2 ih =>
    have := Lowers.byte c ih
    rw [lowerByte_eq] at this
    exact this
  | case4 => exact .nil

theorem lowers_split {s t : GoStr} (h : Lowers s t) : ∀ x y, t = x ++ y → ∃ a b, s = a ++ b ∧ Lowers a x ∧ Lowers b y := by
  induction h with
  | nil =>
    intro x y e
    obtain ⟨rfl, rfl⟩ := List.append_eq_nil_iff.1 e.symm
    exact ⟨[], [], rfl, .nil, .nil⟩
  | @byte c s t h ih =>
    intro x y e
    cases x with
    | nil => exact ⟨[], c :: s, rfl, .nil, by simp only [List.nil_append] at e; rw [← e]; exact .byte c h⟩
    | cons d x =>
      simp only [List.cons_append, List.cons.injEq] at e
      obtain ⟨a, b, rfl, ha, hb⟩ := ih x y e.2
      exact ⟨c :: a, b, rfl, e.1 ▸ .byte c ha, hb⟩
  | @dotted s t h ih =>
    intro x y e
    cases x with
    | nil => exact ⟨[], _, rfl, .nil, by simp only [List.nil_append] at e; rw [← e]; exact .dotted h⟩
    | cons d x =>
      simp only [List.cons_append, List.cons.injEq] at e
      obtain ⟨a, b, rfl, ha, hb⟩ := ih x y e.2
      exact ⟨_ ++ a, b, (List.append_assoc ..).symm, e.1 ▸ .dotted ha, hb⟩
  | @kelvin s t h ih =>
    intro x y e
    cases x with
    | nil => exact ⟨[], _, rfl, .nil, by simp only [List.nil_append] at e; rw [← e]; exact .kelvin h⟩
    | cons d x =>
      simp only [List.cons_append, List.cons.injEq] at e
      obtain ⟨a, b, rfl, ha, hb⟩ := ih x y e.2
      exact ⟨_ ++ a, b, (List.append_assoc ..).symm, e.1 ▸ .kelvin ha, hb⟩

theorem lowerByte_notVis (c : Byte) : ¬ Vis (Spec.lowerByte c) → Spec.lowerByte c = c := by
  revert c; exact forall_byte (by decide +kernel)

theorem lowers_space {s t : GoStr} (h : Lowers s t) (ht : ∀ c ∈ t, ¬ Vis c) : s = t := by
  induction h with
  | nil => rfl
  | @byte c s t h ih =>
    rw [← ih fun d hd => ht d (by simp [hd]), lowerByte_notVis c (ht _ (by simp))]
  | dotted => exact absurd (by decide) (ht 105 (by simp))
  | kelvin => exact absurd (by decide) (ht 107 (by simp))

theorem lowerByte_vis (c : Byte) : Vis (Spec.lowerByte c) → c ≠ 0xC4 ∧ c ≠ 0xE2 := by
  revert c; exact forall_byte (by decide +kernel)

theorem lower_cons (c : Byte) (s : GoStr) (h1 : c ≠ 0xC4) (h2 : c ≠ 0xE2) : lower (c :: s) = Spec.lowerByte c :: lower s := by
  rw [lowerByte_eq, lower]
  · rintro t rfl; exact absurd rfl h1
  · rintro t rfl; exact absurd rfl h2

theorem lower_cons2 (c d : Byte) (s : GoStr) (h1 : d ≠ 0xB0) (h2 : d ≠ 0x84) : lower (c :: d :: s) = Spec.lowerByte c :: lower (d :: s) := by
  rw [lowerByte_eq, lower]
  · rintro t _ e; simp only [List.cons.injEq] at e; exact absurd e.1 h1
  · rintro t _ e; simp only [List.cons.injEq] at e; exact absurd e.1 h2

theorem lower_lowers {s t : GoStr} (h : Lowers s t) (ht : ∀ c ∈ t, Vis c) (rest : GoStr) : lower (s ++ rest) = t ++ lower rest := by
  induction h with
  | nil => rfl
  | @byte c s t h ih =>
    obtain ⟨h1, h2⟩ := lowerByte_vis c (ht _ (by simp))
    rw [List.cons_append, lower_cons c _ h1 h2, ih fun d hd => ht d (by simp [hd])]
    rfl
  | dotted h ih =>
    rw [dotted_eq]
    simp only [List.cons_append, List.nil_append, lower]
    rw [ih fun d hd => ht d (by simp [hd])]
  | kelvin h ih =>
    rw [kelvin_eq]
    simp only [List.cons_append, List.nil_append, lower]
    rw [ih fun d hd => ht d (by simp [hd])]

theorem lower_code (c : GoStr) (hc : c ∈ spaceCodes) (s : GoStr) : lower (c ++ s) = c ++ lower s := by
  have : ∀ c ∈ spaceCodes, (∃ a, c = [a] ∧ a ≠ 0xC4 ∧ a ≠ 0xE2 ∧ Spec.lowerByte a = a) ∨
      (∃ a b, c = [a, b] ∧ a ≠ 0xC4 ∧ a ≠ 0xE2 ∧ b ≠ 0xC4 ∧ b ≠ 0xE2 ∧ Spec.lowerByte a = a ∧ Spec.lowerByte b = b) ∨
      (∃ a b d, c = [a, b, d] ∧ b ≠ 0xB0 ∧ b ≠ 0x84 ∧ b ≠ 0xC4 ∧ b ≠ 0xE2 ∧ d ≠ 0xC4 ∧ d ≠ 0xE2 ∧ Spec.lowerByte a = a ∧ Spec.lowerByte b = b ∧
        Spec.lowerByte d = d) := by
    intro c hc
    simp only [spaceCodes, List.mem_cons, List.not_mem_nil, or_false] at hc
    rcases hc with h | h | h | h | h | h | h | h | h | h | h | h | h | h | h | h | h | h | h | h | h | h | h | h | h <;> subst h
    iterate 6 exact .inl ⟨_, rfl, by decide +kernel⟩
    iterate 2 exact .inr (.inl ⟨_, _, rfl, by decide +kernel⟩)
    iterate 17 exact .inr (.inr ⟨_, _, _, rfl, by decide +kernel⟩)
  rcases this c hc with ⟨a, rfl, h1, h2, h3⟩ | ⟨a, b, rfl, h1, h2, h3, h4, h5, h6⟩ | ⟨a, b, d, rfl, h1, h2, h3, h4, h5, h6, h7, h8, h9⟩
  · simp only [List.cons_append, List.nil_append]
    rw [lower_cons a _ h1 h2, h3]
  · simp only [List.cons_append, List.nil_append]
    rw [lower_cons a _ h1 h2, lower_cons b _ h3 h4, h5, h6]
  · simp only [List.cons_append, List.nil_append]
    rw [lower_cons2 a b _ h1 h2, lower_cons b _ h3 h4, lower_cons d _ h5 h6, h7, h8, h9]

theorem lower_spaces {a : GoStr} (h : Spaces a) (s : GoStr) : lower (a ++ s) = a ++ lower s := by
  obtain ⟨l, hl, rfl⟩ := h
  rw [← spaces_eq] at hl
  induction l with
  | nil => rfl
  | cons c l ih =>
    rw [List.flatten_cons, List.append_assoc, lower_code c (hl c (by simp)), ih fun d hd => hl d (by simp [hd]), List.append_assoc]

theorem slash_not_token : isTokenChar 47 = false := by decide

theorem check_iff (t : GoStr) : checkType t = true ↔ TypeName t := by
  constructor
  · intro h
    obtain ⟨h1, h2⟩ := consumeToken_spec t
    unfold checkType at h
    simp only at h
    split at h
    · cases h
    · rename_i hne
      split at h
      · rename_i e
        rw [e, List.append_nil] at h2
        rw [← h2] at h1 hne
        exact .inl ((token_iff t).2 ⟨hne, h1⟩)
      · rename_i c rest e
        split at h
        · cases h
        · rename_i hc
          have hc : c = 47 := by simpa using hc
          subst hc
          obtain ⟨h3, h4⟩ := consumeToken_spec rest
          simp only [Bool.and_eq_true, decide_eq_true_eq, ne_eq] at h
          rw [h.2, List.append_nil] at h4
          rw [← h4] at h3 h
          refine .inr ⟨_, rest, (token_iff _).2 ⟨hne, h1⟩, (token_iff _).2 ⟨h.1, h3⟩, ?_⟩
          rw [e] at h2
          rw [List.append_assoc]
          exact h2
  · rintro (h | ⟨a, b, ha, hb, rfl⟩)
    · obtain ⟨h1, h2⟩ := (token_iff _).1 h
      have := token_stop t [] h2 (by simp)
      rw [List.append_nil] at this
      simp [checkType, this, h1]
    · obtain ⟨a1, a2⟩ := (token_iff _).1 ha
      obtain ⟨b1, b2⟩ := (token_iff _).1 hb
      have e1 := token_stop a (47 :: b) a2 (ends_cons slash_not_token)
      have e2 := token_stop b [] b2 (by simp)
      rw [List.append_nil] at e2
      have e3 : a ++ lit "/" ++ b = a ++ 47 :: b := by simp [lit]
      simp [checkType, e3, e1, e2, a1, b1]

theorem typeName_vis {t : GoStr} (h : TypeName t) : t ≠ [] ∧ ∀ c ∈ t, Vis c ∧ c ≠ 59 := by
  have tok : ∀ s, Token s → ∀ c ∈ s, Vis c ∧ c ≠ 59 := fun s hs c hc =>
    have := ((token_iff _).1 hs).2 c hc
    ⟨vis_of_token c this, (token_ne_slash c this).2⟩
  rcases h with h | ⟨a, b, ha, hb, rfl⟩
  · exact ⟨h.1, tok t h⟩
  · refine ⟨by simp [lit], fun c hc => ?_⟩
    simp only [List.mem_append] at hc
    rcases hc with (hc | hc) | hc
    · exact tok a ha c hc
    · simp only [show lit "/" = [47] from rfl, List.mem_singleton] at hc
      subst hc
      decide
    · exact tok b hb c hc

theorem lowers_noSemi {s t : GoStr} (h : Lowers s t) (ht : 59 ∉ t) : 59 ∉ s := by
  induction h with
  | nil => simp
  | @byte c s t h ih =>
    simp only [List.mem_cons, not_or] at ht ⊢
    refine ⟨fun e => ht.1 ?_, ih ht.2⟩
    subst e
    decide
  | dotted h ih =>
    simp only [List.mem_cons, not_or] at ht
    rw [dotted_eq, List.mem_append, not_or]
    exact ⟨by decide, ih ht.2⟩
  | kelvin h ih =>
    simp only [List.mem_cons, not_or] at ht
    rw [kelvin_eq, List.mem_append, not_or]
    exact ⟨by decide, ih ht.2⟩

theorem spaces_noSemi {a : GoStr} (h : Spaces a) : 59 ∉ a := fun hm => spaces_bytes h 59 hm (by decide)

theorem params_cut {v : GoStr} {raw : PMap} {semi : Bool} (h : Params v raw semi) :
    ∃ a w, v = a ++ w ∧ Spaces a ∧ (w = [] ∨ ∃ u, w = 59 :: u) ∧ Params w raw semi := by
  cases h with
  | none h => exact ⟨v, [], by simp, h, .inl rfl, .none spaces_nil⟩
  | @semicolon s s' h h' =>
    exact ⟨s, lit ";" ++ s', by simp, h, .inr ⟨_, rfl⟩, .semicolon (s := []) spaces_nil h'⟩
  | @param s₁ s₂ s₃ s₄ key text value rest _ _ h1 h2 h3 h4 hk hv hr =>
    refine ⟨s₁, lit ";" ++ s₂ ++ key ++ s₃ ++ lit "=" ++ s₄ ++ text ++ rest, by simp, h1, .inr ⟨_, rfl⟩, ?_⟩
    exact .param (s₁ := []) spaces_nil h2 h3 h4 hk hv hr

theorem cut_semi (a w : GoStr) (ha : 59 ∉ a) (hw : w = [] ∨ ∃ u, w = 59 :: u) :
    (a ++ w).takeWhile (· ≠ 59) = a ∧ (a ++ w).dropWhile (· ≠ 59) = w := by
  have h : ∀ x ∈ a, decide (x ≠ 59) = true := fun x hx => by
    simp only [decide_eq_true_eq]
    rintro rfl
    exact ha hx
  rcases hw with rfl | ⟨u, rfl⟩
  · rw [List.append_nil]
    exact takeWhile_all _ a h
  · exact takeWhile_stop _ a 59 u h (by simp)

/-- What is read, before the pieces of values are put together. -/
theorem parse_iff (v t : GoStr) (ps : PMap) : parse v = some (t, ps) ↔
    ∃ raw semi, Reads v t raw semi ∧ Distinct raw ∧
      ps = if semi then plain raw else (bases (starred raw)).foldl (stitch (starred raw)) (plain raw) := by
  constructor
  · intro h
    unfold parse at h
    simp only at h
    split at h
    · cases h
    · rename_i hck
      split at h
      · cases h
      · rename_i ps₀ cs fin hl
        simp only [Option.some.injEq, Prod.mk.injEq] at h
        obtain ⟨h1, h2⟩ := h
        rw [h1] at hck
        have ht := (check_iff t).1 (by simpa using hck)
        obtain ⟨raw, hr, hd, rfl, rfl⟩ := (loop_iff _ _ _ _).1 hl
        refine ⟨raw, !fin, ?_, hd, ?_⟩
        · obtain ⟨a, b, ha, hb, e⟩ := trimSpace_split (lower (v.takeWhile (· ≠ 59)))
          rw [h1] at e
          have hlo := lowers_lower (v.takeWhile (· ≠ 59))
          rw [e] at hlo
          obtain ⟨x, y, e1, hx, hy⟩ := lowers_split hlo _ _ rfl
          obtain ⟨x1, x2, rfl, hx1, hx2⟩ := lowers_split hx _ _ rfl
          have f1 := lowers_space hx1 (spaces_bytes ha)
          have f2 := lowers_space hy (spaces_bytes hb)
          subst f1 f2
          refine ⟨x1, x2, y, v.dropWhile (· ≠ 59), ha, hb, ?_, hx2, ht, hr⟩
          rw [← e1, List.takeWhile_append_dropWhile]
        · rw [← h2]
          cases fin <;> rfl
  · rintro ⟨raw, semi, ⟨s₁, typ, s₂, rest, h1, h2, rfl, hlo, ht, hp⟩, hd, rfl⟩
    obtain ⟨a, w, rfl, ha, hw, hp'⟩ := params_cut hp
    obtain ⟨hne, hv⟩ := typeName_vis ht
    have hsemi : 59 ∉ s₁ ++ typ ++ s₂ ++ a := by
      simp only [List.mem_append, not_or]
      exact ⟨⟨⟨spaces_noSemi h1, lowers_noSemi hlo fun hm => (hv 59 hm).2 rfl⟩, spaces_noSemi h2⟩, spaces_noSemi ha⟩
    obtain ⟨e1, e2⟩ := cut_semi (s₁ ++ typ ++ s₂ ++ a) w hsemi hw
    rw [List.append_assoc _ a w] at e1 e2
    have e3 : trimSpace (lower (s₁ ++ typ ++ s₂ ++ a)) = t := by
      rw [List.append_assoc, List.append_assoc, lower_spaces h1, lower_lowers hlo fun c hc => (hv c hc).1]
      have : lower (s₂ ++ a) = s₂ ++ a := by
        have := lower_spaces (spaces_append h2 ha) []
        simpa [lower] using this
      rw [this, ← List.append_assoc]
      exact trimSpace_spaces h1 (spaces_append h2 ha) (fun c hc => (hv c hc).1) hne
    have e4 := (loop_iff w (plain raw) (starred raw) (!semi)).2 ⟨raw, by simpa using hp', hd, rfl, rfl⟩
    unfold parse
    simp only [e1, e2, e3, (check_iff t).2 ht, e4, Bool.not_true, Bool.false_eq_true, if_false]
    cases semi <;> rfl

/-- A parameter given twice is refused. -/
theorem parse_twice {v t : GoStr} {raw : PMap} {semi : Bool} (h : Reads v t raw semi) (hd : ¬ Distinct raw) : parse v = none := by
  obtain ⟨s₁, typ, s₂, rest, h1, h2, rfl, hlo, ht, hp⟩ := h
  obtain ⟨a, w, rfl, ha, hw, hp'⟩ := params_cut hp
  obtain ⟨hne, hv⟩ := typeName_vis ht
  have hsemi : 59 ∉ s₁ ++ typ ++ s₂ ++ a := by
    simp only [List.mem_append, not_or]
    exact ⟨⟨⟨spaces_noSemi h1, lowers_noSemi hlo fun hm => (hv 59 hm).2 rfl⟩, spaces_noSemi h2⟩, spaces_noSemi ha⟩
  obtain ⟨e1, e2⟩ := cut_semi (s₁ ++ typ ++ s₂ ++ a) w hsemi hw
  rw [List.append_assoc _ a w] at e1 e2
  have e4 : loop w.length w [] [] = none := by
    rw [loop_params hp' _ _ _ (Nat.le_refl _)]
    cases hc : collect raw [] [] with
    | none => rfl
    | some r => exact absurd ((collect_some raw _ _ _).1 hc).1.1 hd
  unfold parse
  simp only [e2, e4]
  split <;> rfl

end Mime
end Verif
