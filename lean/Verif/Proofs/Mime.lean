import Verif.Model.Mime
import Verif.Proofs.Text

/-! # Media types: what is written can be read back -/

set_option autoImplicit false

namespace Verif
namespace Mime

/-! ## Bytes -/

/-- Printable ASCII, without the space. -/
def Vis (c : Byte) : Prop := 0x20 < c ∧ c < 0x7F

instance (c : Byte) : Decidable (Vis c) := inferInstanceAs (Decidable (_ ∧ _))

theorem vis_of_token (c : Byte) : isTokenChar c = true → Vis c := by
  revert c; exact forall_byte (by decide +kernel)

theorem lowerByte (c : Byte) : ¬ (65 ≤ (if 65 ≤ c ∧ c ≤ 90 then c + 32 else c) ∧ (if 65 ≤ c ∧ c ≤ 90 then c + 32 else c) ≤ 90) := by
  revert c; exact forall_byte (by decide +kernel)

theorem lowerByte_token (c : Byte) : isTokenChar c = true → isTokenChar (if 65 ≤ c ∧ c ≤ 90 then c + 32 else c) = true := by
  revert c; exact forall_byte (by decide +kernel)

theorem codes_first (c : Byte) (s : GoStr) (h : Vis c) : spaceCodes.find? (fun x => x.isPrefixOf (c :: s)) = none := by
  have h1 : ∀ x ∈ spaceCodes, ∃ a l, x = a :: l ∧ ¬ Vis a := by
    intro x hx
    have : ∀ x ∈ spaceCodes, ¬ Vis (x.headD 0) ∧ x ≠ [] := by decide +kernel
    obtain ⟨g1, g2⟩ := this x hx
    cases x with
    | nil => exact absurd rfl g2
    | cons a l => exact ⟨a, l, rfl, g1⟩
  rw [List.find?_eq_none]
  intro x hx
  obtain ⟨a, l, rfl, ha⟩ := h1 x hx
  have : a ≠ c := by rintro rfl; exact ha h
  simp [List.isPrefixOf, this]

theorem codes_last (c : Byte) (s : GoStr) (h : Vis c) : (spaceCodes.map List.reverse).find? (fun x => x.isPrefixOf (c :: s)) = none := by
  have h1 : ∀ x ∈ spaceCodes.map List.reverse, ∃ a l, x = a :: l ∧ ¬ Vis a := by
    intro x hx
    have : ∀ x ∈ spaceCodes.map List.reverse, ¬ Vis (x.headD 0) ∧ x ≠ [] := by decide +kernel
    obtain ⟨g1, g2⟩ := this x hx
    cases x with
    | nil => exact absurd rfl g2
    | cons a l => exact ⟨a, l, rfl, g1⟩
  rw [List.find?_eq_none]
  intro x hx
  obtain ⟨a, l, rfl, ha⟩ := h1 x hx
  have : a ≠ c := by rintro rfl; exact ha h
  simp [List.isPrefixOf, this]

theorem trimLeft_vis (c : Byte) (s : GoStr) (h : Vis c) : trimLeft (c :: s) = c :: s := by
  simp only [trimLeft, List.length_cons, stripFront, codes_first c s h]

theorem trimLeft_space (s : GoStr) : trimLeft (32 :: s) = trimLeft s := by
  simp only [trimLeft, List.length_cons, stripFront]
  have : spaceCodes.find? (fun x => x.isPrefixOf (32 :: s)) = some [32] := by
    simp [spaceCodes, List.find?, List.isPrefixOf]
  rw [this]
  rfl

theorem trimLeft_nil : trimLeft [] = [] := rfl

theorem trimLeft_length (s : GoStr) : (trimLeft s).length ≤ s.length := by
  obtain ⟨⟨l, _, h⟩, _⟩ := stripFront_spec spaceCodes spaceCodes_ne s.length s (Nat.le_refl _)
  have := congrArg List.length h
  simp only [List.length_append] at this
  unfold trimLeft
  omega

theorem trimSpace_vis (s : GoStr) (h : ∀ c ∈ s, Vis c) : trimSpace s = s := by
  cases s with
  | nil => rfl
  | cons c t =>
    have h1 := trimLeft_vis c t (h c (by simp))
    unfold trimLeft at h1
    unfold trimSpace
    simp only [h1]
    rcases hr : (c :: t).reverse with _ | ⟨d, u⟩
    · simp at hr
    · have hd : Vis d := h d (by rw [← List.mem_reverse, hr]; simp)
      simp only [List.length_cons, stripFront, codes_last d u hd]
      rw [← hr, List.reverse_reverse]

theorem trimSpace_sub (s : GoStr) (c : Byte) (h : c ∈ trimSpace s) : c ∈ s := by
  obtain ⟨l, r, _, _, h3, _⟩ := trimSpace_spec s
  rw [h3]
  simp [h]

/-! ## Lower case -/

theorem lower_noUpper (s : GoStr) : ∀ c ∈ lower s, ¬ (65 ≤ c ∧ c ≤ 90) := by
  fun_induction lower s with
  | case1 s ih => intro c hc; rcases List.mem_cons.1 hc with rfl | hc; decide; exact ih c hc
  | case2 s ih => intro c hc; rcases List.mem_cons.1 hc with rfl | hc; decide; exact ih c hc
  | case3 c s _ _ ih =>
    intro d hd
    rcases List.mem_cons.1 hd with rfl | hd
    · exact lowerByte c
    · exact ih d hd
  | case4 => intro c hc; cases hc

theorem lower_ascii (s : GoStr) (h : ∀ c ∈ s, c < 128) : lower s = s.map fun c => if 65 ≤ c ∧ c ≤ 90 then c + 32 else c := by
  fun_induction lower s with
  | case1 s ih => exact absurd (h 0xC4 (by simp)) (by decide)
  | case2 s ih => exact absurd (h 0xE2 (by simp)) (by decide)
  | case3 c s _ _ ih => rw [ih fun d hd => h d (by simp [hd])]; rfl
  | case4 => rfl

/-- In lower case. -/
def Low (s : GoStr) : Prop := ∀ c ∈ s, Vis c ∧ ¬ (65 ≤ c ∧ c ≤ 90)

theorem vis_ascii (c : Byte) (h : Vis c) : c < 128 := by
  revert c; exact forall_byte (by decide +kernel)

theorem lower_low (s : GoStr) (h : Low s) : lower s = s := by
  rw [lower_ascii s fun c hc => vis_ascii c (h c hc).1]
  rw [show s.map (fun c => if 65 ≤ c ∧ c ≤ 90 then c + 32 else c) = s.map id from
    List.map_congr_left fun c hc => by rw [if_neg (h c hc).2]; rfl]
  simp

/-- The characters of a token, none of them upper-case. -/
def LowTok (s : GoStr) : Prop := ∀ c ∈ s, isTokenChar c = true ∧ ¬ (65 ≤ c ∧ c ≤ 90)

theorem LowTok.low {s : GoStr} (h : LowTok s) : Low s := fun c hc => ⟨vis_of_token c (h c hc).1, (h c hc).2⟩

theorem lower_token {s : GoStr} (h : ∀ c ∈ s, isTokenChar c = true) : LowTok (lower s) := by
  intro c hc
  refine ⟨?_, lower_noUpper s c hc⟩
  rw [lower_ascii s fun c hc => vis_ascii c (vis_of_token c (h c hc))] at hc
  obtain ⟨d, hd, rfl⟩ := List.mem_map.1 hc
  exact lowerByte_token d (h d hd)

theorem lower_eq_nil {s : GoStr} : lower s = [] → s = [] := by
  fun_cases lower s <;> simp

/-! ## Tokens -/

theorem token_stop (a b : GoStr) (ha : ∀ c ∈ a, isTokenChar c = true) (hb : ∀ c t, b = c :: t → isTokenChar c = false) :
    consumeToken (a ++ b) = (a, b) := by
  unfold consumeToken
  induction a with
  | nil =>
    cases b with
    | nil => rfl
    | cons c t => simp [hb c t rfl]
  | cons c a ih =>
    have h1 := ih fun d hd => ha d (by simp [hd])
    simp only [Prod.mk.injEq] at h1
    simp [ha c (by simp), h1.1, h1.2]

theorem consumeToken_spec (v : GoStr) : (∀ c ∈ (consumeToken v).1, isTokenChar c = true) ∧ v = (consumeToken v).1 ++ (consumeToken v).2 := by
  refine ⟨fun c hc => ?_, (List.takeWhile_append_dropWhile).symm⟩
  have := List.all_takeWhile (p := isTokenChar) (l := v)
  exact List.all_eq_true.1 this c hc

theorem isToken_iff (s : GoStr) : isToken s = true ↔ s ≠ [] ∧ ∀ c ∈ s, isTokenChar c = true := by
  simp [isToken]

/-! ## Values -/

theorem quoted_back (v rest acc : GoStr) (h : ∀ c ∈ v, c ≠ 13 ∧ c ≠ 10) :
    consumeQuoted (quoteInside v ++ 34 :: rest) acc = some (acc ++ v, rest) := by
  induction v generalizing acc with
  | nil =>
    cases rest with
    | nil => simp [quoteInside, consumeQuoted]
    | cons d r => simp [quoteInside, consumeQuoted]
  | cons c v ih =>
    have hc := h c (by simp)
    have ih := fun acc => ih acc fun d hd => h d (by simp [hd])
    by_cases hq : c = 34 ∨ c = 92
    · simp only [quoteInside, if_pos hq, List.cons_append]
      have hts : isTSpecial c = true := by rcases hq with rfl | rfl <;> decide
      rw [consumeQuoted, if_neg (by decide), if_pos ⟨rfl, hts⟩, ih]
      simp
    · simp only [quoteInside, if_neg hq, List.cons_append]
      obtain ⟨d, w, hw⟩ : ∃ d w, quoteInside v ++ 34 :: rest = d :: w := by
        cases hx : quoteInside v ++ 34 :: rest with
        | nil => simp at hx
        | cons d w => exact ⟨d, w, rfl⟩
      rw [hw, consumeQuoted, if_neg (fun e => hq (.inl e)), if_neg (fun e => hq (.inr e.1)), if_neg (by simp [hc.1, hc.2]), ← hw, ih]
      simp

theorem hex_back (c : Byte) : unhex (upperhex (c >>> 4)) = some (c >>> 4) ∧ unhex (upperhex (c &&& 15)) = some (c &&& 15) ∧
    (((c >>> 4) <<< 4) ||| (c &&& 15)) = c ∧ isTokenChar (upperhex (c >>> 4)) = true ∧ isTokenChar (upperhex (c &&& 15)) = true ∧
    upperhex (c >>> 4) ≠ 39 ∧ upperhex (c &&& 15) ≠ 39 := by
  revert c; exact forall_byte (by decide +kernel)

theorem unescape_plain (c : Byte) (s : GoStr) (h : c ≠ 37) : unescape (c :: s) = (unescape s).map (c :: ·) := by
  rcases s with _ | ⟨a, _ | ⟨b, s⟩⟩ <;> simp [unescape, h]

theorem unescape_escape (v : GoStr) : unescape (escape v) = some v := by
  induction v with
  | nil => rfl
  | cons c v ih =>
    obtain ⟨h1, h2, h3, _⟩ := hex_back c
    unfold escape
    split
    · rw [unescape, if_pos rfl]
      simp only [h1, h2, h3, ih, Option.map_some]
    · rename_i hn
      have : c ≠ 37 := fun e => hn (by simp [e])
      rw [unescape_plain c _ this, ih]
      rfl

theorem escape_plain (c : Byte) : ¬ (c ≤ 32 ∨ 127 ≤ c ∨ c = 42 ∨ c = 39 ∨ c = 37 ∨ isTSpecial c) → isTokenChar c = true ∧ c ≠ 39 := by
  revert c; exact forall_byte (by decide +kernel)

theorem escape_token (v : GoStr) : ∀ c ∈ escape v, isTokenChar c = true ∧ c ≠ 39 := by
  induction v with
  | nil => intro c hc; cases hc
  | cons c v ih =>
    obtain ⟨_, _, _, h1, h2, h3, h4⟩ := hex_back c
    unfold escape
    split
    · intro d hd
      simp only [List.mem_cons] at hd
      rcases hd with rfl | rfl | rfl | hd
      · decide
      · exact ⟨h1, h3⟩
      · exact ⟨h2, h4⟩
      · exact ih d hd
    · rename_i hn
      intro d hd
      rcases List.mem_cons.1 hd with rfl | hd
      · exact escape_plain d hn
      · exact ih d hd

theorem decode_escape (v : GoStr) : decode2231 (lit "utf-8''" ++ escape v) = some v := by
  have h : splitQuotes (lit "utf-8''" ++ escape v) = some (lit "utf-8", escape v) := rfl
  have h2 : lower (lit "utf-8") = lit "utf-8" := by decide +kernel
  simp only [decode2231, h, h2, or_true, if_true, unescape_escape]

end Mime
end Verif
