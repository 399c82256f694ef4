import Verif.Model.Quote
import Verif.Spec.Literal

/-! # `strconv.Quote` makes literals that denote the string -/

set_option autoImplicit false

namespace Verif
open Spec

/-- A rune that can be encoded. -/
def ValidRune (r : Nat) : Prop := r < 0xD800 ∨ (0xDFFF < r ∧ r ≤ 0x10FFFF)

theorem ofToNat (b : Byte) (n : Nat) (h : n = b.toNat) : n.toUInt8 = b := by
  subst h
  simp

/-- Decoding, then encoding. -/
theorem decode_encode (s : List Byte) (hne : s ≠ []) (h : ¬ ((decodeRune s).2 = 1 ∧ (decodeRune s).1 = runeError)) :
    encodeRune (decodeRune s).1 = s.take (decodeRune s).2 ∧ 1 ≤ (decodeRune s).2 ∧ (decodeRune s).2 ≤ s.length ∧ ValidRune (decodeRune s).1 := by
  match s, hne with
  | b0 :: rest, _ =>
    have l0 := b0.toNat_lt
    revert h
    unfold decodeRune
    dsimp only
    split
    · intro _
      refine ⟨?_, by simp, by simp, by unfold ValidRune; omega⟩
      unfold encodeRune
      rw [if_pos (by omega)]
      simp
    · split
      · simp
      · cases rest with
        | nil => simp
        | cons b1 rest =>
          have l1 := b1.toNat_lt
          dsimp only
          generalize elo : (if b0.toNat = 0xE0 then 0xA0 else if b0.toNat = 0xF0 then 0x90 else 0x80) = lo
          generalize ehi : (if b0.toNat = 0xED then 0x9F else if b0.toNat = 0xF4 then 0x8F else 0xBF) = hi
          have hlo : 0x80 ≤ lo ∧ (b0.toNat = 0xE0 → 0xA0 ≤ lo) ∧ (b0.toNat = 0xF0 → 0x90 ≤ lo) := by
            subst elo
            repeat' split
            all_goals omega
          have hhi : hi ≤ 0xBF ∧ (b0.toNat = 0xED → hi ≤ 0x9F) ∧ (b0.toNat = 0xF4 → hi ≤ 0x8F) := by
            subst ehi
            repeat' split
            all_goals omega
          clear elo ehi
          split
          · simp
          · rename_i h1 h2 h3
            simp only [not_or, Nat.not_lt] at h2 h3
            split
            · rename_i h4
              intro _
              have e : b0.toNat % 32 = b0.toNat - 192 := by omega
              refine ⟨?_, by simp, by simp, by unfold ValidRune; omega⟩
              unfold encodeRune
              rw [if_neg (by omega), if_pos (by omega)]
              simp only [List.take_succ_cons, List.take_zero]
              rw [ofToNat b0 _ (by omega), ofToNat b1 _ (by omega)]
            · rename_i h4
              cases rest with
              | nil => simp
              | cons b2 rest =>
                have l2 := b2.toNat_lt
                dsimp only
                split
                · simp
                · rename_i h5
                  simp only [not_or, Nat.not_lt] at h5
                  split
                  · rename_i h6
                    intro _
                    refine ⟨?_, by simp, by simp, by unfold ValidRune; omega⟩
                    unfold encodeRune
                    rw [if_neg (by omega), if_neg (by omega), if_neg (by omega), if_pos (by omega)]
                    simp only [List.take_succ_cons, List.take_zero]
                    rw [ofToNat b0 _ (by omega), ofToNat b1 _ (by omega), ofToNat b2 _ (by omega)]
                  · rename_i h6
                    cases rest with
                    | nil => simp
                    | cons b3 rest =>
                      have l3 := b3.toNat_lt
                      dsimp only
                      split
                      · simp
                      · rename_i h7
                        simp only [not_or, Nat.not_lt] at h7
                        intro _
                        refine ⟨?_, by simp, by simp, by unfold ValidRune; omega⟩
                        unfold encodeRune
                        rw [if_neg (by omega), if_neg (by omega), if_neg (by omega), if_neg (by omega)]
                        simp only [List.take_succ_cons, List.take_zero]
                        rw [ofToNat b0 _ (by omega), ofToNat b1 _ (by omega), ofToNat b2 _ (by omega), ofToNat b3 _ (by omega)]

theorem validRune_isValidChar {r : Nat} (h : ValidRune r) : r.isValidChar := by
  unfold ValidRune at h
  unfold Nat.isValidChar
  omega

theorem encode_utf8 {r : Nat} (h : ValidRune r) : encodeRune r = String.utf8EncodeChar (Char.ofNat r) := by
  have hv := validRune_isValidChar h
  have e : (Char.ofNat r).val.toNat = r := by
    simp only [Char.ofNat, hv, dite_true, Char.ofNatAux]
    rfl
  unfold ValidRune at h
  unfold encodeRune String.utf8EncodeChar
  simp only [e]
  have cong : ∀ a b : Nat, a = b → a.toUInt8 = UInt8.ofNat b := by rintro a b rfl; rfl
  by_cases h1 : r < 0x80
  · rw [if_pos h1, if_pos (show r ≤ 127 by omega), cong _ _ rfl]
  · rw [if_neg h1, if_neg (show ¬ r ≤ 127 by omega)]
    by_cases h2 : r < 0x800
    · rw [if_pos h2, if_pos (show r ≤ 2047 by omega), cong _ _ (show 0xC0 + r / 64 = r / 64 % 32 + 192 by omega),
        cong _ _ (show 0x80 + r % 64 = r % 64 + 128 by omega)]
    · rw [if_neg h2, if_neg (show ¬ r ≤ 2047 by omega), if_neg (show ¬ (r > 0x10FFFF ∨ (0xD800 ≤ r ∧ r ≤ 0xDFFF)) by omega)]
      by_cases h3 : r < 0x10000
      · rw [if_pos h3, if_pos (show r ≤ 65535 by omega), cong _ _ (show 0xE0 + r / 4096 = r / 4096 % 16 + 224 by omega),
          cong _ _ (show 0x80 + r / 64 % 64 = r / 64 % 64 + 128 by omega), cong _ _ (show 0x80 + r % 64 = r % 64 + 128 by omega)]
      · rw [if_neg h3, if_neg (show ¬ r ≤ 65535 by omega), cong _ _ (show 0xF0 + r / 262144 = r / 262144 % 8 + 240 by omega),
          cong _ _ (show 0x80 + r / 4096 % 64 = r / 4096 % 64 + 128 by omega), cong _ _ (show 0x80 + r / 64 % 64 = r / 64 % 64 + 128 by omega),
          cong _ _ (show 0x80 + r % 64 = r % 64 + 128 by omega)]

theorem encode_no_special {r : Nat} (h : ValidRune r) (h1 : r ≠ 34) (h2 : r ≠ 92) : ∀ b ∈ encodeRune r, b ≠ 34 ∧ b ≠ 92 := by
  have big : ∀ n : Nat, 0x80 ≤ n → n < 256 → n.toUInt8 ≠ 34 ∧ n.toUInt8 ≠ 92 := by
    intro n h3 h4
    have e : n.toUInt8.toNat = n := by simp; omega
    constructor <;> intro h' <;> rw [h'] at e <;> simp at e <;> omega
  unfold ValidRune at h
  intro b hb
  unfold encodeRune at hb
  split at hb
  · have e : r.toUInt8.toNat = r := by simp; omega
    simp only [List.mem_singleton] at hb
    subst hb
    constructor <;> intro h' <;> rw [h'] at e <;> simp at e <;> omega
  · split at hb
    · simp only [List.mem_cons, List.not_mem_nil, or_false] at hb
      rcases hb with rfl | rfl <;> exact big _ (by omega) (by omega)
    · rw [if_neg (by omega)] at hb
      split at hb
      · simp only [List.mem_cons, List.not_mem_nil, or_false] at hb
        rcases hb with rfl | rfl | rfl <;> exact big _ (by omega) (by omega)
      · simp only [List.mem_cons, List.not_mem_nil, or_false] at hb
        rcases hb with rfl | rfl | rfl | rfl <;> exact big _ (by omega) (by omega)

theorem hexDigit_lowerHex : ∀ n : Nat, n < 16 → hexDigit (lowerHex n) = some n := by decide +kernel

/-- Bytes that stand for themselves. -/
theorem literalBody_plain (d : List Byte) (hd : ∀ b ∈ d, b ≠ 34 ∧ b ≠ 92) (fuel : Nat) (t : GoStr) :
    literalBody (d.length + fuel) (d ++ t) = (literalBody fuel t).map fun r => (d ++ r.1, r.2) := by
  induction d with
  | nil => simp
  | cons b d ih =>
    have hb := hd b (by simp)
    rw [show (b :: d).length + fuel = (d.length + fuel) + 1 by simp; omega]
    simp only [List.cons_append, literalBody, hb.1, hb.2, if_false]
    rw [ih fun b h => hd b (by simp [h])]
    simp [Option.map_map, Function.comp_def]

theorem hexNum_cons {n : Nat} (hn : n < 16) (k a : Nat) (t : GoStr) : hexNum (k + 1) a (lowerHex n :: t) = hexNum k (16 * a + n) t := by
  simp [hexNum, hexDigit_lowerHex n hn]

/-- What an escape is read as. -/
theorem escape_escapeRune (isPrint : Nat → Bool) {r : Nat} (h : ValidRune r) (hp : r = 34 ∨ r = 92 ∨ isPrint r = false) (t : GoStr) :
    ∃ e, escapeRune isPrint r = 92 :: e ∧ escape (e ++ t) = some (encodeRune r, t) := by
  by_cases h1 : r = 34
  · subst h1; exact ⟨[34], rfl, rfl⟩
  by_cases h2 : r = 92
  · subst h2; exact ⟨[92], rfl, rfl⟩
  have hp : isPrint r = false := by simpa [h1, h2] using hp
  have h3 : ¬ (r = 34 ∨ r = 92) := by simp [h1, h2]
  unfold escapeRune
  rw [if_neg h3, hp]
  simp only [Bool.false_eq_true, if_false]
  by_cases a1 : r = 7
  · subst a1; exact ⟨[97], rfl, rfl⟩
  by_cases a2 : r = 8
  · subst a2; exact ⟨[98], rfl, rfl⟩
  by_cases a3 : r = 12
  · subst a3; exact ⟨[102], rfl, rfl⟩
  by_cases a4 : r = 10
  · subst a4; exact ⟨[110], rfl, rfl⟩
  by_cases a5 : r = 13
  · subst a5; exact ⟨[114], rfl, rfl⟩
  by_cases a6 : r = 9
  · subst a6; exact ⟨[116], rfl, rfl⟩
  by_cases a7 : r = 11
  · subst a7; exact ⟨[118], rfl, rfl⟩
  simp only [a1, a2, a3, a4, a5, a6, a7, if_false]
  have hmax : ¬ r > 0x10FFFF := by unfold ValidRune at h; omega
  by_cases h4 : r < 32
  · rw [if_pos h4]
    refine ⟨[120, lowerHex (r / 16), lowerHex (r % 16)], rfl, ?_⟩
    simp only [List.cons_append, List.nil_append, escape, if_true]
    rw [hexNum_cons (by omega), hexNum_cons (by omega)]
    simp only [hexNum, Option.map_some]
    unfold encodeRune
    rw [if_pos (by omega), show 16 * (16 * 0 + r / 16) + r % 16 = r by omega]
  · rw [if_neg h4, if_neg hmax]
    by_cases h5 : r < 0x10000
    · rw [if_pos h5]
      refine ⟨[117, lowerHex (r / 4096 % 16), lowerHex (r / 256 % 16), lowerHex (r / 16 % 16), lowerHex (r % 16)], rfl, ?_⟩
      simp only [List.cons_append, List.nil_append, escape, show (117 : Byte) ≠ 120 by decide, if_false, if_true]
      rw [hexNum_cons (by omega), hexNum_cons (by omega), hexNum_cons (by omega), hexNum_cons (by omega)]
      simp only [hexNum, Option.bind_some]
      rw [show 16 * (16 * (16 * (16 * 0 + r / 4096 % 16) + r / 256 % 16) + r / 16 % 16) + r % 16 = r by omega,
        if_pos (validRune_isValidChar h), encode_utf8 h]
    · rw [if_neg h5]
      refine ⟨[85, lowerHex (r / 268435456 % 16), lowerHex (r / 16777216 % 16), lowerHex (r / 1048576 % 16), lowerHex (r / 65536 % 16),
        lowerHex (r / 4096 % 16), lowerHex (r / 256 % 16), lowerHex (r / 16 % 16), lowerHex (r % 16)], rfl, ?_⟩
      simp only [List.cons_append, List.nil_append, escape, show (85 : Byte) ≠ 120 by decide, show (85 : Byte) ≠ 117 by decide, if_false, if_true]
      rw [hexNum_cons (by omega), hexNum_cons (by omega), hexNum_cons (by omega), hexNum_cons (by omega),
        hexNum_cons (by omega), hexNum_cons (by omega), hexNum_cons (by omega), hexNum_cons (by omega)]
      simp only [hexNum, Option.bind_some]
      rw [show 16 * (16 * (16 * (16 * (16 * (16 * (16 * (16 * 0 + r / 268435456 % 16) + r / 16777216 % 16) + r / 1048576 % 16) + r / 65536 % 16) +
          r / 4096 % 16) + r / 256 % 16) + r / 16 % 16) + r % 16 = r by omega,
        if_pos (validRune_isValidChar h), encode_utf8 h]

theorem escapeRune_plain (isPrint : Nat → Bool) {r : Nat} (h1 : r ≠ 34) (h2 : r ≠ 92) (hp : isPrint r = true) : escapeRune isPrint r = encodeRune r := by
  unfold escapeRune
  rw [if_neg (by simp [h1, h2]), if_pos hp]

/-- One chunk of the string. -/
theorem literalBody_rune (isPrint : Nat → Bool) {r : Nat} (h : ValidRune r) (t x rest : GoStr) (fuel : Nat)
    (hl : (escapeRune isPrint r ++ t).length < fuel) (ih : ∀ fuel, t.length < fuel → literalBody fuel t = some (x, rest)) :
    literalBody fuel (escapeRune isPrint r ++ t) = some (encodeRune r ++ x, rest) := by
  by_cases hp : r = 34 ∨ r = 92 ∨ isPrint r = false
  · obtain ⟨e, h1, h2⟩ := escape_escapeRune isPrint h hp t
    rw [h1] at hl ⊢
    obtain ⟨f, rfl⟩ : ∃ f, fuel = f + 1 := ⟨fuel - 1, by omega⟩
    simp only [List.cons_append, literalBody, show (92 : Byte) ≠ 34 by decide, if_false, if_true, h2, Option.bind_some]
    rw [ih f (by simp at hl; omega)]
    rfl
  · simp only [not_or, Bool.not_eq_false] at hp
    rw [escapeRune_plain isPrint hp.1 hp.2.1 hp.2.2] at hl ⊢
    obtain ⟨f, rfl⟩ : ∃ f, fuel = (encodeRune r).length + f := ⟨fuel - (encodeRune r).length, by simp at hl; omega⟩
    rw [literalBody_plain _ (encode_no_special h hp.1 hp.2.1), ih f (by simp at hl; omega)]
    rfl

theorem literalBody_quoteLoop (isPrint : Nat → Bool) (rest : GoStr) (n : Nat) : ∀ (s : List Byte), s.length ≤ n → ∀ fuel,
    (quoteLoop isPrint n s ++ 34 :: rest).length < fuel → literalBody fuel (quoteLoop isPrint n s ++ 34 :: rest) = some (s, rest) := by
  have stop : ∀ fuel, (34 :: rest).length < fuel → literalBody fuel (34 :: rest) = some ([], rest) := by
    intro fuel hf
    obtain ⟨f, rfl⟩ : ∃ f, fuel = f + 1 := ⟨fuel - 1, by omega⟩
    simp [literalBody]
  induction n with
  | zero =>
    intro s hs fuel hf
    have : s = [] := by simpa using hs
    subst this
    exact stop fuel (by simpa [quoteLoop] using hf)
  | succ n ih =>
    intro s hs fuel hf
    cases s with
    | nil => exact stop fuel (by simpa [quoteLoop] using hf)
    | cons b0 t =>
      have hq : (if b0.toNat ≥ 0x80 then decodeRune (b0 :: t) else (b0.toNat, 1)) = decodeRune (b0 :: t) := by
        split
        · rfl
        · unfold decodeRune
          dsimp only
          rw [if_pos (by omega)]
      unfold quoteLoop at hf ⊢
      rw [hq] at hf ⊢
      dsimp only at hf ⊢
      by_cases hbad : (decodeRune (b0 :: t)).2 = 1 ∧ (decodeRune (b0 :: t)).1 = runeError
      · rw [if_pos hbad] at hf ⊢
        rw [hbad.1] at hf ⊢
        simp only [List.drop_succ_cons, List.drop_zero, List.append_assoc] at hf ⊢
        have l0 := b0.toNat_lt
        obtain ⟨f, rfl⟩ : ∃ f, fuel = f + 1 := ⟨fuel - 1, by omega⟩
        show literalBody (f + 1) (92 :: 120 :: lowerHex (b0.toNat / 16) :: lowerHex (b0.toNat % 16) :: (quoteLoop isPrint n t ++ 34 :: rest)) = _
        simp only [literalBody, show (92 : Byte) ≠ 34 by decide, if_false, if_true, escape]
        rw [hexNum_cons (by omega), hexNum_cons (by omega)]
        simp only [hexNum, Option.map_some, Option.bind_some]
        rw [ih t (by simpa using hs) f (by simp [lit] at hf; simp; omega)]
        simp only [Option.map_some, List.cons_append, List.nil_append]
        rw [ofToNat b0 _ (by omega)]
      · rw [if_neg hbad] at hf ⊢
        obtain ⟨h1, h2, h3, h4⟩ := decode_encode (b0 :: t) (by simp) hbad
        rw [List.append_assoc] at hf ⊢
        rw [literalBody_rune isPrint h4 _ ((b0 :: t).drop (decodeRune (b0 :: t)).2) rest fuel hf
          (fun f hf' => ih _ (by simp at hs ⊢; omega) f hf'), h1, List.take_append_drop]

/-- The literal that `strconv.Quote` makes denotes the string. -/
theorem literal_quote (isPrint : Nat → Bool) (s rest : GoStr) : literal (quote isPrint s ++ rest) = some (s, rest) := by
  simp only [quote, List.append_assoc, List.cons_append, List.nil_append, literal, if_true]
  exact literalBody_quoteLoop isPrint rest s.length s (Nat.le_refl _) _ (by simp)

end Verif
