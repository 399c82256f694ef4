import Verif.Model.Json
import Verif.Proofs.Quote
import Verif.Proofs.Strconv

/-! # Strings and numbers in JSON -/

set_option autoImplicit false

namespace Verif.Json
open Verif.Spec.Json

/-! ## UTF-8 -/

theorem utf8_nil : utf8 [] = [] := rfl

theorem utf8_append (s t : List Char) : utf8 (s ++ t) = utf8 s ++ utf8 t := by simp [utf8]

theorem utf8_cons (c : Char) (t : List Char) : utf8 (c :: t) = String.utf8EncodeChar c ++ utf8 t := by simp [utf8]

theorem char_valid (c : Char) : ValidRune c.toNat := by
  have := c.valid
  unfold ValidRune
  simp only [UInt32.isValidChar, Nat.isValidChar] at this
  have e : c.toNat = c.val.toNat := rfl
  omega

theorem ofNat_toNat (c : Char) : Char.ofNat c.toNat = c := by simp

theorem toNat_ofNat {n : Nat} (h : n.isValidChar) : (Char.ofNat n).toNat = n := by
  simp only [Char.ofNat, h, dite_true, Char.ofNatAux]
  rfl

theorem utf8_char (c : Char) : String.utf8EncodeChar c = encodeRune c.toNat := by rw [encode_utf8 (char_valid c), ofNat_toNat]

theorem utf8_ascii {c : Char} (h : c.toNat < 128) : String.utf8EncodeChar c = [c.toNat.toUInt8] := by
  rw [utf8_char, encodeRune, if_pos h]

/-- The character for an ASCII byte. -/
def chr (b : Byte) : Char := Char.ofNat b.toNat

theorem chr_toNat (b : Byte) : (chr b).toNat = b.toNat := by
  have := b.toNat_lt
  exact toNat_ofNat (by unfold Nat.isValidChar; omega)

theorem utf8_chr {b : Byte} (h : b.toNat < 128) : String.utf8EncodeChar (chr b) = [b] := by
  rw [utf8_ascii (by rw [chr_toNat]; exact h), chr_toNat]
  simp

theorem utf8_chrs : ∀ {t : GoStr}, (∀ b ∈ t, b.toNat < 128) → utf8 (t.map chr) = t
  | [], _ => rfl
  | b :: t, h => by
    rw [List.map_cons, utf8_cons, utf8_chr (h b (by simp)), utf8_chrs fun x hx => h x (by simp [hx])]
    rfl

/-- Encoding, then decoding. -/
theorem decode_rune {r : Nat} (h : ValidRune r) (s : GoStr) : decodeRune (encodeRune r ++ s) = (r, (encodeRune r).length) := by
  unfold ValidRune at h
  have e : ∀ n : Nat, n < 256 → n.toUInt8.toNat = n := by intro n hn; simp; omega
  unfold encodeRune
  by_cases h1 : r < 0x80
  · simp only [h1, if_true, List.cons_append, List.nil_append, decodeRune, e r (by omega), List.length_singleton]
  · rw [if_neg h1]
    by_cases h2 : r < 0x800
    · rw [if_pos h2]
      simp only [List.cons_append, List.nil_append, decodeRune]
      rw [e _ (by omega), e _ (by omega), if_neg (by omega), if_neg (by omega)]
      rw [if_neg (by (repeat' split) <;> omega), if_pos (by omega)]
      refine Prod.ext ?_ rfl
      show _ = r
      omega
    · rw [if_neg h2, if_neg (show ¬ (r > 0x10FFFF ∨ (0xD800 ≤ r ∧ r ≤ 0xDFFF)) by omega)]
      by_cases h3 : r < 0x10000
      · rw [if_pos h3]
        simp only [List.cons_append, List.nil_append, decodeRune]
        rw [e _ (by omega), e _ (by omega), e _ (by omega), if_neg (by omega), if_neg (by omega)]
        rw [if_neg (by (repeat' split) <;> omega), if_neg (by omega), if_neg (by omega), if_pos (by omega)]
        refine Prod.ext ?_ rfl
        show _ = r
        omega
      · rw [if_neg h3]
        simp only [List.cons_append, List.nil_append, decodeRune]
        rw [e _ (by omega), e _ (by omega), e _ (by omega), e _ (by omega), if_neg (by omega), if_neg (by omega)]
        rw [if_neg (by (repeat' split) <;> omega), if_neg (by omega), if_neg (by omega), if_neg (by omega), if_neg (by omega)]
        refine Prod.ext ?_ rfl
        show _ = r
        omega

theorem encodeRune_ne_nil (r : Nat) : encodeRune r ≠ [] := by
  unfold encodeRune
  repeat' split
  all_goals simp

/-- Text in UTF-8 can be read in one way only. -/
theorem utf8_inj : ∀ {s t : List Char}, utf8 s = utf8 t → s = t
  | [], [], _ => rfl
  | [], c :: t, h => by
    rw [utf8_cons, utf8_char] at h
    exact absurd (List.append_eq_nil_iff.1 h.symm).1 (encodeRune_ne_nil _)
  | c :: s, [], h => by
    rw [utf8_cons, utf8_char] at h
    exact absurd (List.append_eq_nil_iff.1 h).1 (encodeRune_ne_nil _)
  | c :: s, d :: t, h => by
    rw [utf8_cons, utf8_cons, utf8_char, utf8_char] at h
    have h1 := decode_rune (char_valid c) (utf8 s)
    rw [h, decode_rune (char_valid d)] at h1
    simp only [Prod.mk.injEq] at h1
    have hcd : c = d := by rw [← ofNat_toNat c, ← ofNat_toNat d, h1.1]
    subst hcd
    rw [utf8_inj (List.append_cancel_left h)]

/-! ## Strings -/

/-- The digit of a code unit. -/
def hexC (n : Nat) : Char := chr (lowerHex n)

theorem hex_hexC : ∀ n : Nat, n < 16 → hex (hexC n) = some n := by decide +kernel

/-- The simple escapes. -/
def simple : List (Char × Char) :=
  [('"', '"'), ('\\', '\\'), ('n', '\n'), ('r', '\r'), ('t', '\t'), ('/', '/'), ('b', Char.ofNat 8), ('f', Char.ofNat 12)]

/-- The text of a string, and its value. -/
inductive StrText : List Char → List Char → Prop
  | nil : StrText [] []
  | raw {c : Char} {q cs : List Char} : 32 ≤ c.toNat → c ≠ '"' → c ≠ '\\' → StrText q cs → StrText (c :: q) (c :: cs)
  | simple {x c : Char} {q cs : List Char} : (x, c) ∈ simple → StrText q cs → StrText ('\\' :: x :: q) (c :: cs)
  | code {n : Nat} {x y z w : Char} {q cs : List Char} : hex4 [x, y, z, w] = some (n, []) → n.isValidChar → StrText q cs →
      StrText ('\\' :: 'u' :: x :: y :: z :: w :: q) (Char.ofNat n :: cs)
  | pair {n m : Nat} {x y z w x' y' z' w' : Char} {q cs : List Char} : hex4 [x, y, z, w] = some (n, []) → 0xD800 ≤ n → n < 0xDC00 →
      hex4 [x', y', z', w'] = some (m, []) → 0xDC00 ≤ m → m < 0xE000 → StrText q cs →
      StrText ('\\' :: 'u' :: x :: y :: z :: w :: '\\' :: 'u' :: x' :: y' :: z' :: w' :: q) (Char.ofNat (0x10000 + (n - 0xD800) * 1024 + (m - 0xDC00)) :: cs)

theorem hex4_more {x y z w : Char} {n : Nat} (h : hex4 [x, y, z, w] = some (n, [])) (s : List Char) : hex4 (x :: y :: z :: w :: s) = some (n, s) := by
  simp only [hex4, bind] at h ⊢
  cases h1 : hex x <;> cases h2 : hex y <;> cases h3 : hex z <;> cases h4 : hex w <;> simp_all

theorem hex4_hexC {n : Nat} (h : n < 0x10000) : hex4 [hexC (n / 4096 % 16), hexC (n / 256 % 16), hexC (n / 16 % 16), hexC (n % 16)] = some (n, []) := by
  simp only [hex4, hex_hexC _ (Nat.mod_lt _ (by decide : 0 < 16)), bind, Option.bind_some, Option.some.injEq, Prod.mk.injEq, and_true]
  omega

theorem StrText.body {q cs : List Char} (h : StrText q cs) (rest : List Char) : ∀ fuel, q.length < fuel →
    stringBody fuel (q ++ '"' :: rest) = some (cs, rest) := by
  induction h with
  | nil => intro fuel hf; cases fuel with | zero => cases hf | succ n => simp [stringBody]
  | @raw c q cs h1 h2 h3 _ ih =>
    intro fuel hf
    cases fuel with
    | zero => simp at hf
    | succ n =>
      rw [List.cons_append, stringBody, if_neg h2, if_neg h3, if_neg (by omega), ih n (by simp at hf; omega)]
      rfl
  | @simple x c q cs h1 _ ih =>
    intro fuel hf
    cases fuel with
    | zero => simp at hf
    | succ n =>
      have he : escape (x :: (q ++ '"' :: rest)) = some (c, q ++ '"' :: rest) := by
        simp only [Json.simple, List.mem_cons, Prod.mk.injEq, List.not_mem_nil, or_false] at h1
        rcases h1 with ⟨rfl, rfl⟩ | ⟨rfl, rfl⟩ | ⟨rfl, rfl⟩ | ⟨rfl, rfl⟩ | ⟨rfl, rfl⟩ | ⟨rfl, rfl⟩ | ⟨rfl, rfl⟩ | ⟨rfl, rfl⟩ <;> simp [escape]
      rw [List.cons_append, stringBody, if_neg (by decide), if_pos rfl, List.cons_append, he]
      simp only [Option.bind_some]
      rw [ih n (by simp at hf; omega)]
      rfl
  | @code m x y z w q cs h1 h2 _ ih =>
    intro fuel hf
    cases fuel with
    | zero => simp at hf
    | succ n =>
      have he : escape ('u' :: x :: y :: z :: w :: (q ++ '"' :: rest)) = some (Char.ofNat m, q ++ '"' :: rest) := by
        simp only [escape, Char.reduceEq, or_self, if_false, if_true, codeUnits, hex4_more h1, bind, Option.bind_some]
        unfold Nat.isValidChar at h2
        rw [if_neg (by omega), if_pos h2]
      simp only [List.cons_append]
      rw [stringBody, if_neg (by decide), if_pos rfl, he]
      simp only [Option.bind_some]
      rw [ih n (by simp at hf; omega)]
      rfl
  | @pair k m x y z w x' y' z' w' q cs h1 h2 h3 h4 h5 h6 _ ih =>
    intro fuel hf
    cases fuel with
    | zero => simp at hf
    | succ n =>
      have he : escape ('u' :: x :: y :: z :: w :: '\\' :: 'u' :: x' :: y' :: z' :: w' :: (q ++ '"' :: rest)) =
          some (Char.ofNat (0x10000 + (k - 0xD800) * 1024 + (m - 0xDC00)), q ++ '"' :: rest) := by
        simp only [escape, Char.reduceEq, or_self, if_false, if_true, codeUnits, hex4_more h1, bind, Option.bind_some]
        rw [if_pos ⟨h2, h3⟩]
        simp only [hex4_more h4, Option.bind_some]
        rw [if_pos ⟨h5, h6⟩]
      simp only [List.cons_append]
      rw [stringBody, if_neg (by decide), if_pos rfl, he]
      simp only [Option.bind_some]
      rw [ih n (by simp at hf; omega)]
      rfl

/-- A string, with its quotes, as it is read. -/
theorem StrText.read {q cs : List Char} (h : StrText q cs) (rest : List Char) : Spec.Json.string (q ++ '"' :: rest) = some (cs, rest) :=
  h.body rest _ (by simp; omega)

theorem runes_utf8 : ∀ cs : List Char, Runes (utf8 cs) cs
  | [] => .nil
  | c :: cs => by rw [utf8_cons]; exact .char c (runes_utf8 cs)

/-- What the encoder makes of a string. -/
theorem stringLoop_text : ∀ (n : Nat) (s : GoStr), s.length ≤ n → ∃ q cs, Runes s cs ∧ StrText q cs ∧ stringLoop n s = utf8 q
  | 0, s, h => by
    have : s = [] := List.length_eq_zero_iff.1 (by omega)
    subst this
    exact ⟨[], [], .nil, .nil, rfl⟩
  | n + 1, [], _ => ⟨[], [], .nil, .nil, rfl⟩
  | n + 1, b :: rest, h => by
    have hl : rest.length ≤ n := by simp at h; omega
    by_cases hb : b.toNat < 0x80
    · obtain ⟨q, cs, h1, h2, h3⟩ := stringLoop_text n rest hl
      have hc : Runes (b :: rest) (chr b :: cs) := by
        have := Runes.char (chr b) h1
        rwa [utf8_chr hb] at this
      rw [stringLoop, if_pos hb]
      by_cases hs : safe b
      · rw [if_pos hs]
        have hs' : 32 ≤ b.toNat ∧ b ≠ 34 ∧ b ≠ 92 := by
          simp only [safe, ne_eq, decide_not, Bool.and_eq_true, decide_eq_true_eq, Bool.not_eq_eq_eq_not, Bool.not_true, decide_eq_false_iff_not] at hs
          exact ⟨hs.1.1, hs.1.2, hs.2⟩
        refine ⟨chr b :: q, chr b :: cs, hc, .raw (by rw [chr_toNat]; exact hs'.1) ?_ ?_ h2, ?_⟩
        · intro he; exact hs'.2.1 (by have := congrArg Char.toNat he; rw [chr_toNat] at this; exact UInt8.toNat_inj.1 this)
        · intro he; exact hs'.2.2 (by have := congrArg Char.toNat he; rw [chr_toNat] at this; exact UInt8.toNat_inj.1 this)
        · rw [utf8_cons, utf8_chr hb, h3]; rfl
      · rw [if_neg hs, escapeByte]
        have key : ∀ x : Char, (x, chr b) ∈ simple → x.toNat < 128 →
            ∃ q' cs', Runes (b :: rest) cs' ∧ StrText q' cs' ∧ [92, x.toNat.toUInt8] ++ stringLoop n rest = utf8 q' := by
          intro x hx hx'
          refine ⟨'\\' :: x :: q, chr b :: cs, hc, .simple hx h2, ?_⟩
          rw [utf8_cons, utf8_cons, utf8_ascii hx', utf8_ascii (by decide), h3]
          rfl
        by_cases h4 : b = 92 ∨ b = 34
        · rw [if_pos h4]
          rcases h4 with rfl | rfl
          · exact key '\\' (by decide) (by decide)
          · exact key '"' (by decide) (by decide)
        · rw [if_neg h4]
          by_cases h5 : b = 10
          · rw [if_pos h5]; subst h5; exact key 'n' (by decide) (by decide)
          · rw [if_neg h5]
            by_cases h6 : b = 13
            · rw [if_pos h6]; subst h6; exact key 'r' (by decide) (by decide)
            · rw [if_neg h6]
              by_cases h7 : b = 9
              · rw [if_pos h7]; subst h7; exact key 't' (by decide) (by decide)
              · rw [if_neg h7]
                refine ⟨_, _, hc, .code (n := b.toNat) (hex4_hexC (by omega)) (by unfold Nat.isValidChar; omega) h2, ?_⟩
                have hx : ∀ k : Nat, k < 16 → String.utf8EncodeChar (hexC k) = [lowerHex k] := by
                  intro k hk
                  refine utf8_chr ?_
                  have : ∀ k : Nat, k < 16 → (lowerHex k).toNat < 128 := by decide +kernel
                  exact this k hk
                rw [show b.toNat / 4096 % 16 = 0 by omega, show b.toNat / 256 % 16 = 0 by omega]
                simp only [utf8_cons, hx _ (Nat.mod_lt _ (by decide : 0 < 16)), hx 0 (by decide)]
                rw [h3, show b.toNat / 16 % 16 = b.toNat / 16 by omega]
                rfl
    · rw [stringLoop, if_neg hb]
      dsimp only
      by_cases hbad : (decodeRune (b :: rest)).1 = runeError ∧ (decodeRune (b :: rest)).2 = 1
      · rw [if_pos hbad, hbad.2]
        obtain ⟨q, cs, h1, h2, h3⟩ := stringLoop_text n rest hl
        have hbr : ∀ c s', b :: rest ≠ String.utf8EncodeChar c ++ s' := by
          intro c s' he
          rw [utf8_char] at he
          have h4 := decode_rune (char_valid c) s'
          rw [← he] at h4
          have h5 : (encodeRune c.toNat).length = 1 := by rw [← hbad.2, h4]
          have h6 : c.toNat < 128 := by
            have hv := char_valid c
            unfold ValidRune at hv
            rcases Nat.lt_or_ge c.toNat 128 with h | h
            · exact h
            · exfalso
              unfold encodeRune at h5
              revert h5
              repeat' split
              all_goals simp
              all_goals omega
          rw [encodeRune, if_pos h6] at he
          simp only [List.cons_append, List.nil_append, List.cons.injEq] at he
          rw [he.1] at hb
          simp at hb
          omega
        refine ⟨_, _, .broken b hbr h1, .code (n := 0xFFFD) (hex4_hexC (by decide)) (by decide) h2, ?_⟩
        simp only [List.drop_succ_cons, List.drop_zero, utf8_cons, h3]
        rfl
      · rw [if_neg hbad]
        obtain ⟨he, h1, h2, hv⟩ := decode_encode (b :: rest) (by simp) fun hx => hbad ⟨hx.2, hx.1⟩
        obtain ⟨q, cs, h3, h4, h5⟩ := stringLoop_text n ((b :: rest).drop (decodeRune (b :: rest)).2) (by simp at h ⊢; omega)
        have hsplit : b :: rest = String.utf8EncodeChar (Char.ofNat (decodeRune (b :: rest)).1) ++ (b :: rest).drop (decodeRune (b :: rest)).2 := by
          rw [← encode_utf8 hv, he, List.take_append_drop]
        have hc : Runes (b :: rest) (Char.ofNat (decodeRune (b :: rest)).1 :: cs) := by
          have := Runes.char (Char.ofNat (decodeRune (b :: rest)).1) h3
          rwa [← hsplit] at this
        have hbig : 128 ≤ (decodeRune (b :: rest)).1 := by
          rcases Nat.lt_or_ge (decodeRune (b :: rest)).1 128 with hlt | hge
          · exfalso
            rw [encodeRune, if_pos hlt] at he
            have : (b :: rest).take (decodeRune (b :: rest)).2 = [(decodeRune (b :: rest)).1.toUInt8] := he.symm
            match hk : (decodeRune (b :: rest)).2, h1 with
            | k + 1, _ =>
              rw [hk, List.take_succ_cons] at this
              simp only [List.cons.injEq] at this
              apply hb
              rw [this.1]
              simp
              omega
          · exact hge
        by_cases hls : (decodeRune (b :: rest)).1 = 0x2028 ∨ (decodeRune (b :: rest)).1 = 0x2029
        · rw [if_pos hls]
          refine ⟨_, _, hc, .code (n := (decodeRune (b :: rest)).1) (hex4_hexC (by omega)) (validRune_isValidChar hv) h4, ?_⟩
          rw [h5]
          rcases hls with e | e <;> rw [e] <;> simp only [utf8_cons] <;> rfl
        · rw [if_neg hls]
          have ht := toNat_ofNat (validRune_isValidChar hv)
          refine ⟨Char.ofNat (decodeRune (b :: rest)).1 :: q, _, hc, .raw (by rw [ht]; omega) ?_ ?_ h4, ?_⟩
          · intro e; rw [e] at ht; rw [← ht] at hbig; exact absurd hbig (by decide)
          · intro e; rw [e] at ht; rw [← ht] at hbig; exact absurd hbig (by decide)
          · rw [utf8_cons, h5, ← encode_utf8 hv, he]

/-- What the encoder makes of a string. -/
theorem string_text (s : GoStr) : ∃ q cs, Runes s cs ∧ StrText q cs ∧ string s = [34] ++ utf8 q ++ [34] := by
  obtain ⟨q, cs, h1, h2, h3⟩ := stringLoop_text s.length s (Nat.le_refl _)
  exact ⟨q, cs, h1, h2, by rw [string, h3]⟩

/-- Names of fields. -/
theorem fieldName_text {k : GoStr} (h : FieldName k) : ∃ q, Runes k q ∧ StrText q q ∧ k = utf8 q := by
  obtain ⟨cs, rfl, h⟩ := h
  refine ⟨cs, runes_utf8 cs, ?_, rfl⟩
  induction cs with
  | nil => exact .nil
  | cons c cs ih => exact .raw (h c (by simp)).1 (h c (by simp)).2.1 (h c (by simp)).2.2 (ih fun d hd => h d (by simp [hd]))

end Verif.Json
