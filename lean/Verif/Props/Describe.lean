import Verif.Model.Errors
import Verif.Model.Builder
import Verif.Spec.Describe
import Verif.Proofs.Strconv

/-! # C51: descriptions of Responses and errors can be read back -/

set_option autoImplicit false

namespace Verif
open Spec

theorem natValue_zeros (k : Nat) (s : GoStr) : natValue (List.replicate k 48 ++ s) = natValue s := by
  induction k with
  | zero => rfl
  | succ k ih =>
    rw [← ih]
    simp [natValue, List.replicate_succ]

theorem decimal_zeros (k : Nat) (fuel n : Nat) (h : n < fuel) : decimal (List.replicate k 48 ++ digits fuel n) = some (n : Int) := by
  have hv : natValue (List.replicate k 48 ++ digits fuel n) = some n := by rw [natValue_zeros, natValue_digits _ _ h]
  obtain ⟨b, s, h1, h2, h3⟩ := digits_head fuel n h
  rcases hl : List.replicate k 48 ++ digits fuel n with _ | ⟨c, t⟩
  · simp [h1] at hl
  · have hc : c ≠ 45 := by
      cases k with
      | zero => simp [h1] at hl; rintro rfl; simp [hl.1] at h2
      | succ k => simp [List.replicate_succ] at hl; rw [← hl.1]; decide
    rw [hl] at hv
    have : decimal (c :: t) = (natValue (c :: t)).map fun n => (n : Int) := by
      unfold decimal
      split
      · rename_i h; simp at h
      · rename_i h; simp at h; exact absurd h.1 hc
      · rfl
    rw [this, hv]; rfl

/-- `%03d` is a numeral of its argument. -/
theorem decimal_fmt03d (i : Int) : decimal (fmt03d i) = some i := by
  unfold fmt03d
  by_cases hi : i < 0
  · rw [if_pos hi]
    have hv := natValue_zeros (2 - (digits (i.natAbs + 1) i.natAbs).length) (digits (i.natAbs + 1) i.natAbs)
    rw [natValue_digits _ _ (by omega)] at hv
    simp only [decimal]
    rw [if_neg (by simp [digits_ne_nil _ _ (show i.natAbs < i.natAbs + 1 by omega)]), hv]
    simp; omega
  · rw [if_neg hi]
    have e : itoa i = digits (i.natAbs + 1) i.natAbs := by simp [itoa, hi]
    rw [e, decimal_zeros _ _ _ (by omega)]
    simp; omega

theorem digits_bytes (fuel n : Nat) : ∀ b ∈ digits fuel n, 48 ≤ b.toNat ∧ b.toNat ≤ 57 := by
  induction fuel generalizing n with
  | zero => simp [digits]
  | succ fuel ih =>
    unfold digits
    split
    · rename_i h
      intro b hb
      simp only [List.mem_singleton] at hb
      subst hb
      rw [toUInt8_digit n h]; omega
    · intro b hb
      rcases List.mem_append.1 hb with hb | hb
      · exact ih _ b hb
      · simp only [List.mem_singleton] at hb
        subst hb
        rw [toUInt8_digit _ (by omega)]; omega

theorem digits_length (fuel k n : Nat) (h : n < 10 ^ k) (hk : 0 < k) : (digits fuel n).length ≤ k := by
  induction fuel generalizing n k with
  | zero => simp [digits]
  | succ fuel ih =>
    unfold digits
    split
    · simp; omega
    · rename_i h10
      rcases k with _ | _ | k
      · omega
      · simp at h; omega
      · have := ih (k + 1) (n / 10) (by rw [Nat.pow_succ] at h; omega) (by omega)
        simp; omega

theorem digits_no_blank (fuel n : Nat) : ∀ b ∈ digits fuel n, b ≠ 32 := by
  intro b hb h
  have := digits_bytes fuel n b hb
  rw [h] at this
  simp at this

theorem itoa_no_blank (i : Int) : ∀ b ∈ itoa i, b ≠ 32 := by
  unfold itoa
  split
  · intro b hb
    rcases List.mem_cons.1 hb with rfl | hb
    · decide
    · exact digits_no_blank _ _ b hb
  · exact digits_no_blank _ _

theorem fmt03d_no_blank (i : Int) : ∀ b ∈ fmt03d i, b ≠ 32 := by
  unfold fmt03d
  split
  · intro b hb
    rcases List.mem_cons.1 hb with rfl | hb
    · decide
    · rcases List.mem_append.1 hb with hb | hb
      · simp at hb; rw [hb.2]; decide
      · exact digits_no_blank _ _ b hb
  · intro b hb
    rcases List.mem_append.1 hb with hb | hb
    · simp at hb; rw [hb.2]; decide
    · exact itoa_no_blank _ b hb

theorem word_append (a s : GoStr) (ha : ∀ b ∈ a, b ≠ 32) : word (a ++ 32 :: s) = (a, 32 :: s) := by
  induction a with
  | nil => simp [word]
  | cons c a ih =>
    have hc : c ≠ 32 := ha c (by simp)
    have := ih fun b hb => ha b (by simp [hb])
    simp only [word, Prod.mk.injEq] at this
    simp only [word, List.cons_append, List.takeWhile_cons, List.dropWhile_cons, hc, ne_eq, not_false_eq_true, decide_true, if_true]
    exact Prod.ext (congrArg (c :: ·) this.1) this.2

theorem afterPrefix_append (p s : GoStr) : afterPrefix p (p ++ s) = some s := by
  simp [afterPrefix, List.isPrefixOf_iff_prefix]

/-- **C51.** `Response.String` can be read back: it says the status code, and the length of the body or that it is unknown. -/
theorem C51_response (code n : Int) : readDescription (respString code n) = some (code, if 0 ≤ n then some n else none) := by
  unfold respString
  have e1 : ∀ s, lit " - " ++ s = (32 :: (lit "- " ++ s) : GoStr) := fun s => rfl
  by_cases hn : n ≥ 0
  · rw [if_pos hn, if_pos hn]
    simp only [readDescription, List.append_assoc, afterPrefix_append, Option.bind_eq_bind, Option.bind_some]
    rw [e1, word_append _ _ (fmt03d_no_blank code)]
    simp only [decimal_fmt03d, Option.bind_some]
    rw [← e1, afterPrefix_append]
    simp only [Option.bind_some]
    have e2 : lit " bytes]" = (32 :: lit "bytes]" : GoStr) := rfl
    have hne : itoa n ++ lit " bytes]" ≠ lit "unknown length]" := by
      obtain ⟨b, s, h1, h2, h3⟩ := digits_head (n.natAbs + 1) n.natAbs (by omega)
      have : itoa n = b :: s := by simp [itoa, show ¬ n < 0 by omega, h1]
      rw [this]
      intro h
      have e4 : lit "unknown length]" = 117 :: lit "nknown length]" := by decide
      rw [e4] at h
      have : b = 117 := (List.cons.inj h).1
      rw [this] at h3
      simp at h3
    rw [if_neg hne, e2, word_append _ _ (itoa_no_blank n)]
    simp [decimal_itoa]
  · rw [if_neg hn, if_neg hn]
    have e3 : lit " - unknown length]" = lit " - " ++ lit "unknown length]" := by decide
    rw [e3]
    simp only [readDescription, List.append_assoc, afterPrefix_append, Option.bind_eq_bind, Option.bind_some]
    rw [e1, word_append _ _ (fmt03d_no_blank code)]
    simp only [decimal_fmt03d, Option.bind_some]
    rw [← e1, afterPrefix_append]
    simp

/-- **C51.** The codes that a Response may have, and all smaller ones, are written with exactly three digits. -/
theorem C51_three_digits (code : Int) (h0 : 0 ≤ code) (h1 : code ≤ 999) (n : Int) :
    ∃ d, respString code n = lit "[HTTP " ++ d ++ (if 0 ≤ n then lit " - " ++ itoa n ++ lit " bytes]" else lit " - unknown length]") ∧
      d.length = 3 ∧ (∀ b ∈ d, 48 ≤ b.toNat ∧ b.toNat ≤ 57) ∧ decimal d = some code := by
  refine ⟨fmt03d code, ?_, ?_, ?_, decimal_fmt03d code⟩
  · unfold respString
    split <;> simp
  · have hl : (itoa code).length ≤ 3 := by
      unfold itoa
      rw [if_neg (by omega)]
      exact digits_length _ 3 _ (by omega) (by omega)
    simp only [fmt03d]
    rw [if_neg (by omega)]
    simp; omega
  · intro b hb
    unfold fmt03d at hb
    rw [if_neg (by omega)] at hb
    rcases List.mem_append.1 hb with hb | hb
    · simp at hb; rw [hb.2]; decide
    · unfold itoa at hb
      rw [if_neg (by omega)] at hb
      exact digits_bytes _ _ b hb

example : respString 404 17 = lit "[HTTP 404 - 17 bytes]" := by decide +kernel
example : respString 200 (-1) = lit "[HTTP 200 - unknown length]" := by decide +kernel
example : respString 7 0 = lit "[HTTP 007 - 0 bytes]" := by decide +kernel
example : readDescription (lit "[HTTP 404 - 17 bytes]") = some (404, some 17) := by decide +kernel
example : readDescription (lit "[HTTP 404 - bytes]") = none := by decide +kernel

/-! ## Errors -/

/-- The errors made by package body, and its wrappings of such errors. -/
inductive Spec.MadeHere : Err → Prop
  | unknownWhence (w : Int) : MadeHere (.unknownWhence w)
  | negStart (o : Int) : MadeHere (.negStart o)
  | negComputed (o : Int) : MadeHere (.negComputed o)
  | negReadAt (o : Int) : MadeHere (.negReadAt o)
  | viaStat {e : Err} : MadeHere e → MadeHere (.viaStat e)
  | viaSeek {e : Err} : MadeHere e → MadeHere (.viaSeek e)
  | viaRewind {e : Err} : MadeHere e → MadeHere (.viaRewind e)

/-- Strings that differ at some place. -/
theorem ne_of_at {a b s t : GoStr} (k : Nat) (ha : k < a.length) (hb : k < b.length) (h : a[k]? ≠ b[k]?) : a ++ s ≠ b ++ t := by
  intro he
  apply h
  have := congrArg (fun l => l[k]?) he
  simpa [List.getElem?_append_left ha, List.getElem?_append_left hb] using this

/-- **C51.** No two different errors made by package body have the same text. -/
theorem C51_errors (other : Err → GoStr) (e₁ e₂ : Err) (h₁ : MadeHere e₁) (h₂ : MadeHere e₂)
    (h : errorMsg other e₁ = errorMsg other e₂) : e₁ = e₂ := by
  induction h₁ generalizing e₂ with
  | unknownWhence w =>
    cases h₂ with
    | unknownWhence w' => simp only [errorMsg, List.append_cancel_left_eq] at h; rw [itoa_inj h]
    | negStart o => simp only [errorMsg, List.append_assoc] at h; exact absurd h (ne_of_at 12 (by decide) (by decide) (by decide))
    | negComputed o => simp only [errorMsg, List.append_assoc] at h; exact absurd h (ne_of_at 12 (by decide) (by decide) (by decide))
    | negReadAt o => simp only [errorMsg, List.append_assoc] at h; exact absurd h (ne_of_at 0 (by decide) (by decide) (by decide))
    | viaStat _ => simp only [errorMsg, List.append_assoc] at h; exact absurd h (ne_of_at 0 (by decide) (by decide) (by decide))
    | viaSeek _ => simp only [errorMsg, List.append_assoc] at h; exact absurd h (ne_of_at 0 (by decide) (by decide) (by decide))
    | viaRewind _ => simp only [errorMsg, List.append_assoc] at h; exact absurd h (ne_of_at 0 (by decide) (by decide) (by decide))
  | negStart o =>
    cases h₂ with
    | negStart o' => simp only [errorMsg, List.append_cancel_left_eq, List.append_cancel_right_eq] at h; rw [itoa_inj h]
    | unknownWhence w => simp only [errorMsg, List.append_assoc] at h; exact absurd h (ne_of_at 12 (by decide) (by decide) (by decide))
    | negComputed o => simp only [errorMsg, List.append_assoc] at h; exact absurd h (ne_of_at 12 (by decide) (by decide) (by decide))
    | negReadAt o => simp only [errorMsg, List.append_assoc] at h; exact absurd h (ne_of_at 0 (by decide) (by decide) (by decide))
    | viaStat _ => simp only [errorMsg, List.append_assoc] at h; exact absurd h (ne_of_at 0 (by decide) (by decide) (by decide))
    | viaSeek _ => simp only [errorMsg, List.append_assoc] at h; exact absurd h (ne_of_at 0 (by decide) (by decide) (by decide))
    | viaRewind _ => simp only [errorMsg, List.append_assoc] at h; exact absurd h (ne_of_at 0 (by decide) (by decide) (by decide))
  | negComputed o =>
    cases h₂ with
    | negComputed o' => simp only [errorMsg, List.append_cancel_left_eq, List.append_cancel_right_eq] at h; rw [itoa_inj h]
    | unknownWhence w => simp only [errorMsg, List.append_assoc] at h; exact absurd h (ne_of_at 12 (by decide) (by decide) (by decide))
    | negStart o => simp only [errorMsg, List.append_assoc] at h; exact absurd h (ne_of_at 12 (by decide) (by decide) (by decide))
    | negReadAt o => simp only [errorMsg, List.append_assoc] at h; exact absurd h (ne_of_at 0 (by decide) (by decide) (by decide))
    | viaStat _ => simp only [errorMsg, List.append_assoc] at h; exact absurd h (ne_of_at 0 (by decide) (by decide) (by decide))
    | viaSeek _ => simp only [errorMsg, List.append_assoc] at h; exact absurd h (ne_of_at 0 (by decide) (by decide) (by decide))
    | viaRewind _ => simp only [errorMsg, List.append_assoc] at h; exact absurd h (ne_of_at 0 (by decide) (by decide) (by decide))
  | negReadAt o =>
    cases h₂ with
    | negReadAt o' => simp only [errorMsg, List.append_cancel_left_eq, List.append_cancel_right_eq] at h; rw [itoa_inj h]
    | unknownWhence w => simp only [errorMsg, List.append_assoc] at h; exact absurd h (ne_of_at 0 (by decide) (by decide) (by decide))
    | negStart o => simp only [errorMsg, List.append_assoc] at h; exact absurd h (ne_of_at 0 (by decide) (by decide) (by decide))
    | negComputed o => simp only [errorMsg, List.append_assoc] at h; exact absurd h (ne_of_at 0 (by decide) (by decide) (by decide))
    | viaStat _ => simp only [errorMsg, List.append_assoc] at h; exact absurd h (ne_of_at 0 (by decide) (by decide) (by decide))
    | viaSeek _ => simp only [errorMsg, List.append_assoc] at h; exact absurd h (ne_of_at 0 (by decide) (by decide) (by decide))
    | viaRewind _ => simp only [errorMsg, List.append_assoc] at h; exact absurd h (ne_of_at 0 (by decide) (by decide) (by decide))
  | viaStat _ ih =>
    cases h₂ with
    | viaStat h' => simp only [errorMsg, List.append_cancel_left_eq] at h; rw [ih _ h' h]
    | unknownWhence w => simp only [errorMsg, List.append_assoc] at h; exact absurd h (ne_of_at 0 (by decide) (by decide) (by decide))
    | negStart o => simp only [errorMsg, List.append_assoc] at h; exact absurd h (ne_of_at 0 (by decide) (by decide) (by decide))
    | negComputed o => simp only [errorMsg, List.append_assoc] at h; exact absurd h (ne_of_at 0 (by decide) (by decide) (by decide))
    | negReadAt o => simp only [errorMsg, List.append_assoc] at h; exact absurd h (ne_of_at 0 (by decide) (by decide) (by decide))
    | viaSeek _ => simp only [errorMsg] at h; exact absurd h (ne_of_at 40 (by decide) (by decide) (by decide))
    | viaRewind _ => simp only [errorMsg] at h; exact absurd h (ne_of_at 10 (by decide) (by decide) (by decide))
  | viaSeek _ ih =>
    cases h₂ with
    | viaSeek h' => simp only [errorMsg, List.append_cancel_left_eq] at h; rw [ih _ h' h]
    | unknownWhence w => simp only [errorMsg, List.append_assoc] at h; exact absurd h (ne_of_at 0 (by decide) (by decide) (by decide))
    | negStart o => simp only [errorMsg, List.append_assoc] at h; exact absurd h (ne_of_at 0 (by decide) (by decide) (by decide))
    | negComputed o => simp only [errorMsg, List.append_assoc] at h; exact absurd h (ne_of_at 0 (by decide) (by decide) (by decide))
    | negReadAt o => simp only [errorMsg, List.append_assoc] at h; exact absurd h (ne_of_at 0 (by decide) (by decide) (by decide))
    | viaStat _ => simp only [errorMsg] at h; exact absurd h (ne_of_at 40 (by decide) (by decide) (by decide))
    | viaRewind _ => simp only [errorMsg] at h; exact absurd h (ne_of_at 10 (by decide) (by decide) (by decide))
  | viaRewind _ ih =>
    cases h₂ with
    | viaRewind h' => simp only [errorMsg, List.append_cancel_left_eq] at h; rw [ih _ h' h]
    | unknownWhence w => simp only [errorMsg, List.append_assoc] at h; exact absurd h (ne_of_at 0 (by decide) (by decide) (by decide))
    | negStart o => simp only [errorMsg, List.append_assoc] at h; exact absurd h (ne_of_at 0 (by decide) (by decide) (by decide))
    | negComputed o => simp only [errorMsg, List.append_assoc] at h; exact absurd h (ne_of_at 0 (by decide) (by decide) (by decide))
    | negReadAt o => simp only [errorMsg, List.append_assoc] at h; exact absurd h (ne_of_at 0 (by decide) (by decide) (by decide))
    | viaStat _ => simp only [errorMsg] at h; exact absurd h (ne_of_at 10 (by decide) (by decide) (by decide))
    | viaSeek _ => simp only [errorMsg] at h; exact absurd h (ne_of_at 10 (by decide) (by decide) (by decide))

/-- **C51.** Nor the same `GoString`. -/
theorem C51_goString (e₁ e₂ : Err) (s : GoStr) (h₁ : errorGoString e₁ = some s) (h₂ : errorGoString e₂ = some s) : e₁ = e₂ := by
  cases e₁ <;> simp only [errorGoString, Option.some.injEq, reduceCtorEq] at h₁ <;>
    cases e₂ <;> simp only [errorGoString, Option.some.injEq, reduceCtorEq] at h₂ <;>
    rw [← h₂] at h₁
  · simp only [List.append_cancel_left_eq, List.append_cancel_right_eq] at h₁; rw [itoa_inj h₁]
  · simp only [List.append_assoc] at h₁; exact absurd h₁ (ne_of_at 0 (by decide) (by decide) (by decide))
  · simp only [List.append_assoc] at h₁; exact absurd h₁ (ne_of_at 0 (by decide) (by decide) (by decide))
  · simp only [List.append_assoc] at h₁; exact absurd h₁ (ne_of_at 0 (by decide) (by decide) (by decide))
  · simp only [List.append_cancel_left_eq, List.append_cancel_right_eq] at h₁; rw [itoa_inj h₁]
  · simp only [List.append_assoc] at h₁; exact absurd h₁ (ne_of_at 8 (by decide) (by decide) (by decide))
  · simp only [List.append_assoc] at h₁; exact absurd h₁ (ne_of_at 0 (by decide) (by decide) (by decide))
  · simp only [List.append_assoc] at h₁; exact absurd h₁ (ne_of_at 8 (by decide) (by decide) (by decide))
  · simp only [List.append_cancel_left_eq, List.append_cancel_right_eq] at h₁; rw [itoa_inj h₁]

example : errorMsg (fun _ => []) (.viaSeek (.negComputed (-3))) =
    lit "failed to determine length of body via Seek: Seek error: computed offset -3 is negative" := by decide +kernel
example : errorGoString (.unknownWhence 42) = some (lit "UnknownWhenceSeekError{42}") := by decide +kernel

end Verif
