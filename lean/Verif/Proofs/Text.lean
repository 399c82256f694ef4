import Verif.Model.Text
import Verif.Spec.Text
import Verif.Proofs.Strconv

/-! # Lemmas about the string functions -/

set_option autoImplicit false

namespace Verif
open Spec

/-- There are 256 bytes. -/
theorem forall_byte {P : Byte → Prop} (h : ∀ n : Fin 256, P (UInt8.ofFin n)) (c : Byte) : P c := by
  have := h c.toFin
  simpa using this

/-! ## Canonical header names -/

/-- The replacement of one character of a name. -/
def canonByte (upper : Bool) (c : Byte) : Byte :=
  if upper && 97 ≤ c && c ≤ 122 then c - 32 else if !upper && 65 ≤ c && c ≤ 90 then c + 32 else c

theorem canonLoop_cons (upper : Bool) (c : Byte) (s : GoStr) :
    canonLoop upper (c :: s) = canonByte upper c :: canonLoop (canonByte upper c == 45) s := rfl

theorem canonByte_idem (upper : Bool) : ∀ c, canonByte upper (canonByte upper c) = canonByte upper c := by
  cases upper <;> exact forall_byte (by decide +kernel)

theorem canonByte_token (upper : Bool) : ∀ c, isToken (canonByte upper c) = isToken c := by
  cases upper <;> exact forall_byte (by decide +kernel)

theorem canonByte_lower (upper : Bool) : ∀ c, canonByte upper (lowerByte c) = canonByte upper c := by
  cases upper <;> exact forall_byte (by decide +kernel)

theorem lower_canonByte (upper : Bool) : ∀ c, lowerByte (canonByte upper c) = lowerByte c := by
  cases upper <;> exact forall_byte (by decide +kernel)

theorem isToken_lower : ∀ c, isToken (lowerByte c) = isToken c := forall_byte (by decide +kernel)

theorem isToken_iff : ∀ c, isToken c = true ↔ tokenChar c := by
  apply forall_byte
  unfold tokenChar
  decide +kernel

theorem canonScan_eq (s : GoStr) (t : GoStr) : ∀ (p : GoStr) (upper : Bool), s = p ++ t → p.all isToken = true →
    canonLoop true s = p ++ canonLoop upper t → canonScan s upper t = canonSlow s := by
  induction t with
  | nil =>
    intro p upper hs hp hl
    simp only [List.append_nil] at hs
    subst hs
    simp only [canonScan, canonSlow, hp, if_true]
    rw [hl]; simp [canonLoop]
  | cons c t ih =>
    intro p upper hs hp hl
    simp only [canonScan]
    by_cases h1 : isToken c = true
    · simp only [h1, Bool.not_true, Bool.false_eq_true, if_false]
      by_cases h2 : (upper && 97 ≤ c && c ≤ 122) = true
      · rw [if_pos h2]
      · rw [if_neg h2]
        by_cases h3 : (!upper && 65 ≤ c && c ≤ 90) = true
        · rw [if_pos h3]
        · rw [if_neg h3]
          have hc : canonByte upper c = c := by
            unfold canonByte; rw [if_neg h2, if_neg h3]
          apply ih (p ++ [c])
          · simp [hs]
          · simp [hp, h1]
          · rw [hl, canonLoop_cons, hc]; simp
    · have : isToken c = false := by simpa using h1
      simp only [this, Bool.not_false, if_true]
      unfold canonSlow
      rw [if_neg]
      rw [hs]; simp [this]

theorem canon_eq (s : GoStr) : canon s = if s.all isToken then canonLoop true s else s :=
  canonScan_eq s s [] true rfl rfl rfl

theorem canonLoop_token (s : GoStr) : ∀ upper, (canonLoop upper s).all isToken = s.all isToken := by
  induction s with
  | nil => intro; rfl
  | cons c s ih => intro upper; simp [canonLoop_cons, canonByte_token, ih]

theorem canonLoop_idem (s : GoStr) : ∀ upper, canonLoop upper (canonLoop upper s) = canonLoop upper s := by
  induction s with
  | nil => intro; rfl
  | cons c s ih => intro upper; simp only [canonLoop_cons, canonByte_idem, ih]

theorem canonLoop_lower (s : GoStr) : ∀ upper, canonLoop upper (lower s) = canonLoop upper s := by
  induction s with
  | nil => intro; rfl
  | cons c s ih =>
    intro upper
    have : lower (c :: s) = lowerByte c :: lower s := rfl
    simp only [this, canonLoop_cons, canonByte_lower, ih]

theorem lower_canonLoop (s : GoStr) : ∀ upper, lower (canonLoop upper s) = lower s := by
  induction s with
  | nil => intro; rfl
  | cons c s ih =>
    intro upper
    simp only [lower] at ih
    simp only [lower, canonLoop_cons, List.map_cons, lower_canonByte, ih]

theorem lower_token (s : GoStr) : (lower s).all isToken = s.all isToken := by
  induction s with
  | nil => rfl
  | cons c s ih =>
    simp only [lower] at ih
    simp only [lower, List.map_cons, List.all_cons, isToken_lower, ih]

theorem canon_idem (s : GoStr) : canon (canon s) = canon s := by
  simp only [canon_eq]
  by_cases h : s.all isToken = true
  · simp [h, canonLoop_token, canonLoop_idem]
  · simp [h]

theorem lower_canon (s : GoStr) : lower (canon s) = lower s := by
  rw [canon_eq]; split
  · exact lower_canonLoop s true
  · rfl

theorem canon_of_lower {s t : GoStr} (h : lower s = lower t) (hs : s.all isToken = true) : canon s = canon t := by
  have ht : t.all isToken = true := by rw [← lower_token, ← h, lower_token, hs]
  rw [canon_eq, canon_eq, if_pos hs, if_pos ht, ← canonLoop_lower s, h, canonLoop_lower]

theorem canon_ne_nil {s : GoStr} (h : s ≠ []) : canon s ≠ [] := by
  rw [canon_eq]
  cases s with
  | nil => exact absurd rfl h
  | cons c s => split <;> simp [canonLoop_cons]

/-! ## Trimming -/

theorem stripFront_spec (codes : List GoStr) (hc : ∀ c ∈ codes, c ≠ []) : ∀ (fuel : Nat) (s : GoStr), s.length ≤ fuel →
    (∃ l : List GoStr, (∀ c ∈ l, c ∈ codes) ∧ s = l.flatten ++ stripFront codes fuel s) ∧
    ∀ c ∈ codes, ¬ c <+: stripFront codes fuel s := by
  intro fuel
  induction fuel with
  | zero =>
    intro s h
    have : s = [] := by simpa using h
    subst this
    refine ⟨⟨[], by simp, rfl⟩, fun c h => ?_⟩
    simp only [stripFront, List.prefix_nil]
    exact hc c h
  | succ fuel ih =>
    intro s h
    simp only [stripFront]
    cases hf : codes.find? (fun c => c.isPrefixOf s) with
    | none =>
      refine ⟨⟨[], by simp, by simp⟩, ?_⟩
      intro c hm hp
      have := List.find?_eq_none.1 hf c hm
      simp at this
      exact this hp
    | some c =>
      have hm := List.mem_of_find?_eq_some hf
      have hp : c <+: s := by simpa using List.find?_some hf
      obtain ⟨t, rfl⟩ := hp
      have hne := hc c hm
      have hl : 0 < c.length := List.length_pos_iff.2 hne
      simp only [List.drop_left]
      obtain ⟨⟨l, h1, h2⟩, h3⟩ := ih t (by simp at h; omega)
      refine ⟨⟨c :: l, ?_, ?_⟩, h3⟩
      · intro x hx
        rcases List.mem_cons.1 hx with rfl | hx
        · exact hm
        · exact h1 x hx
      · rw [List.flatten_cons, List.append_assoc, ← h2]

theorem spaceCodes_ne : ∀ c ∈ spaceCodes, c ≠ [] := by decide

theorem reverse_flatten (r : List GoStr) : r.flatten.reverse = (r.map List.reverse).reverse.flatten := by
  induction r with
  | nil => rfl
  | cons a r ih => simp [ih]

/-- `strings.TrimSpace` removes spaces, and nothing else, at both ends, and leaves none there. -/
theorem trimSpace_spec (s : GoStr) :
    ∃ l r : List GoStr, (∀ c ∈ l, c ∈ spaceCodes) ∧ (∀ c ∈ r, c ∈ spaceCodes) ∧ s = l.flatten ++ trimSpace s ++ r.flatten ∧
      (∀ c ∈ spaceCodes, ¬ c <+: trimSpace s) ∧ (∀ c ∈ spaceCodes, ¬ c <:+ trimSpace s) := by
  obtain ⟨⟨l, h1, h2⟩, h3⟩ := stripFront_spec spaceCodes spaceCodes_ne s.length s (Nat.le_refl _)
  have hr : ∀ c ∈ spaceCodes.map List.reverse, c ≠ [] := by decide
  generalize ht : stripFront spaceCodes s.length s = t at h2 h3
  obtain ⟨⟨r, g1, g2⟩, g3⟩ := stripFront_spec (spaceCodes.map List.reverse) hr t.length t.reverse (by simp)
  have e : trimSpace s = (stripFront (spaceCodes.map List.reverse) t.length t.reverse).reverse := by
    simp only [trimSpace, ht]
  rw [e]
  generalize stripFront (spaceCodes.map List.reverse) t.length t.reverse = u at g2 g3
  have ht2 : t = u.reverse ++ (r.map List.reverse).reverse.flatten := by
    have := congrArg List.reverse g2
    simp only [List.reverse_reverse, List.reverse_append] at this
    rw [this, reverse_flatten]
  refine ⟨l, (r.map List.reverse).reverse, h1, ?_, ?_, ?_, ?_⟩
  · intro c hc
    simp only [List.mem_reverse, List.mem_map] at hc
    obtain ⟨d, hd, rfl⟩ := hc
    have := g1 d hd
    simp only [List.mem_map] at this
    obtain ⟨c, hc, rfl⟩ := this
    simpa using hc
  · rw [List.append_assoc, ← ht2]; exact h2
  · intro c hc hp
    apply h3 c hc
    rw [ht2]
    exact hp.trans (List.prefix_append _ _)
  · intro c hc hp
    apply g3 c.reverse (List.mem_map.2 ⟨c, hc, rfl⟩)
    rw [← List.reverse_suffix]
    simpa using hp

theorem spaces_eq : spaceCodes = Spec.spaces := by decide +kernel

theorem trimmed (s : GoStr) : Trimmed s (trimSpace s) := by
  obtain ⟨l, r, t1, t2, t3, t4, t5⟩ := trimSpace_spec s
  rw [spaces_eq] at t1 t2 t4 t5
  exact ⟨⟨l, r, t1, t2, t3⟩, fun c hc => ⟨t4 c hc, t5 c hc⟩⟩

/-! ## Base64 -/

theorem enc6_ne (n : Nat) (h : n < 64) : enc6 n ≠ 61 := by
  have : ∀ m : Fin 64, enc6 m.val ≠ 61 := by decide +kernel
  exact this ⟨n, h⟩

theorem dec6_enc6 (n : Nat) (h : n < 64) : dec6 (enc6 n) = some n := by
  have : ∀ m : Fin 64, dec6 (enc6 m.val) = some m.val := by decide +kernel
  exact this ⟨n, h⟩

theorem toUInt8_toNat (c : Byte) (n : Nat) (h : n = c.toNat) : n.toUInt8 = c := by
  subst h; simp

/-- Decoding yields what was encoded. -/
theorem unbase64_base64 (s : List Byte) : unbase64 (base64 s) = some s := by
  fun_induction base64 s with
  | case1 a b c s n ih =>
    have ha := a.toNat_lt
    have hb := b.toNat_lt
    have hc := c.toNat_lt
    have hn : n = a.toNat * 65536 + b.toNat * 256 + c.toNat := rfl
    have h1 : n / 262144 < 64 := by omega
    have h2 : n / 4096 % 64 < 64 := by omega
    have h3 : n / 64 % 64 < 64 := by omega
    have h4 : n % 64 < 64 := by omega
    rw [unbase64]
    · simp only [dec6_enc6 _ h1, dec6_enc6 _ h2, dec6_enc6 _ h3, dec6_enc6 _ h4, ih, Option.bind_eq_bind, Option.bind_some]
      rw [toUInt8_toNat a _ (by omega), toUInt8_toNat b _ (by omega), toUInt8_toNat c _ (by omega)]
    · intro h _ _; exact enc6_ne _ h3 h
    · intro h _; exact enc6_ne _ h4 h
  | case2 a b n =>
    have ha := a.toNat_lt
    have hb := b.toNat_lt
    have hn : n = a.toNat * 65536 + b.toNat * 256 := rfl
    have h1 : n / 262144 < 64 := by omega
    have h2 : n / 4096 % 64 < 64 := by omega
    have h3 : n / 64 % 64 < 64 := by omega
    rw [unbase64]
    · simp only [dec6_enc6 _ h1, dec6_enc6 _ h2, dec6_enc6 _ h3, Option.bind_eq_bind, Option.bind_some]
      rw [toUInt8_toNat a _ (by omega), toUInt8_toNat b _ (by omega)]
    · intro h; exact enc6_ne _ h3 h
  | case3 a n =>
    have ha := a.toNat_lt
    have hn : n = a.toNat * 65536 := rfl
    have h1 : n / 262144 < 64 := by omega
    have h2 : n / 4096 % 64 < 64 := by omega
    rw [unbase64]
    simp only [dec6_enc6 _ h1, dec6_enc6 _ h2, Option.bind_eq_bind, Option.bind_some]
    rw [toUInt8_toNat a _ (by omega)]
  | case4 => rfl

/-! ## Escaping -/

theorem escapeByte_cases : ∀ c, (escapeByte c, c) ∈ entities ∨ (escapeByte c = [c] ∧ c ∉ lit "&'<>\"") :=
  forall_byte (by decide +kernel)

theorem unescapes_escape (s : GoStr) : Unescapes (escapeHTML s) s := by
  induction s with
  | nil => exact .nil
  | cons c s ih =>
    have e : escapeHTML (c :: s) = escapeByte c ++ escapeHTML s := rfl
    rw [e]
    rcases escapeByte_cases c with h | ⟨h1, h2⟩
    · exact .entity h ih
    · rw [h1]; exact .plain h2 ih

theorem entities_facts : ∀ e ∈ entities, (∃ r, e.1 = 38 :: r) ∧ (∀ c ∈ e.1, c ∉ lit "'<>\"") := by
  intro e he
  simp only [entities, List.mem_cons, List.not_mem_nil, or_false] at he
  rcases he with rfl | rfl | rfl | rfl | rfl
  all_goals refine ⟨⟨_, rfl⟩, by decide⟩

/-- Escaped text contains none of the other special characters. -/
theorem Spec.Unescapes.safe {s t : GoStr} (h : Unescapes s t) : ∀ c ∈ s, c ∉ lit "'<>\"" := by
  induction h with
  | nil => simp
  | entity he _ ih =>
    intro c hc
    rcases List.mem_append.1 hc with hc | hc
    · exact (entities_facts _ he).2 c hc
    · exact ih c hc
  | @plain c s t h1 _ ih =>
    intro d hd
    rcases List.mem_cons.1 hd with rfl | hd
    · intro h; apply h1; revert h
      simp [lit]; grind
    · exact ih d hd

/-- No entity is the beginning of another. -/
theorem entities_prefix : ∀ e ∈ entities, ∀ e' ∈ entities, e.1 <+: e'.1 → e = e' := by decide +kernel

theorem prefix_or {a b x y : GoStr} (h : a ++ x = b ++ y) : a <+: b ∨ b <+: a := by
  rcases Nat.le_total a.length b.length with hl | hl
  · left; exact List.prefix_of_prefix_length_le (l₃ := b ++ y) (by rw [← h]; exact List.prefix_append _ _) (List.prefix_append _ _) hl
  · right; exact List.prefix_of_prefix_length_le (l₃ := a ++ x) (by rw [h]; exact List.prefix_append _ _) (List.prefix_append _ _) hl

/-- Escaped text stands for one text only. -/
theorem Spec.Unescapes.unique {s t : GoStr} (h : Unescapes s t) : ∀ {u : GoStr}, Unescapes s u → t = u := by
  induction h with
  | nil =>
    intro u hu
    generalize hs : ([] : GoStr) = s at hu
    cases hu with
    | nil => rfl
    | entity he _ =>
      obtain ⟨⟨r, h1⟩, -⟩ := entities_facts _ he
      simp at hs; dsimp only at h1; rw [hs.1] at h1; simp at h1
    | plain => simp at hs
  | @entity e c s t he _ ih =>
    intro u hu
    generalize hs : e ++ s = s' at hu
    obtain ⟨⟨r, h1⟩, -⟩ := entities_facts _ he
    dsimp only at h1
    cases hu with
    | nil => rw [h1] at hs; simp at hs
    | @entity e' c' s' t' he' hu' =>
      have : (e, c) = (e', c') := by
        rcases prefix_or hs with h | h
        · exact entities_prefix _ he _ he' h
        · exact (entities_prefix _ he' _ he h).symm
      obtain ⟨rfl, rfl⟩ : e = e' ∧ c = c' := by simpa using this
      have : s = s' := by simpa using hs
      subst this
      rw [ih hu']
    | plain hp _ =>
      rw [h1] at hs
      simp at hs
      exact absurd (hs.1 ▸ (by decide : (38 : Byte) ∈ lit "&'<>\"")) hp
  | @plain c s t hp _ ih =>
    intro u hu
    generalize hs : c :: s = s' at hu
    cases hu with
    | nil => simp at hs
    | entity he' hu' =>
      obtain ⟨⟨r, h1⟩, -⟩ := entities_facts _ he'
      dsimp only at h1
      rw [h1] at hs
      simp at hs
      exact absurd (hs.1 ▸ (by decide : (38 : Byte) ∈ lit "&'<>\"")) hp
    | plain _ hu' =>
      simp at hs
      obtain ⟨rfl, rfl⟩ := hs
      rw [ih hu']

end Verif
