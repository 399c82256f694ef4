import Verif.Model.Strconv
import Verif.Spec.Decimal

/-! # `strconv.Itoa` produces the numeral of its argument -/

set_option autoImplicit false

namespace Verif
open Spec

theorem digits_ne_nil (fuel n : Nat) (h : n < fuel) : digits fuel n ≠ [] := by
  cases fuel with
  | zero => omega
  | succ fuel => unfold digits; split <;> simp

theorem toUInt8_digit (d : Nat) (h : d < 10) : ((48 + d).toUInt8).toNat = 48 + d := by
  simp; omega

theorem natValue_digits (fuel n : Nat) (h : n < fuel) : natValue (digits fuel n) = some n := by
  induction fuel generalizing n with
  | zero => omega
  | succ fuel ih =>
    unfold digits
    by_cases hn : n < 10
    · rw [if_pos hn]
      simp only [natValue, List.foldl_cons, List.foldl_nil, Option.bind_some, toUInt8_digit n hn]
      rw [if_pos (by omega)]
      congr 1; omega
    · rw [if_neg hn]
      have := ih (n / 10) (by omega)
      simp only [natValue] at this
      simp only [natValue, List.foldl_append, this, List.foldl_cons, List.foldl_nil, Option.bind_some,
        toUInt8_digit (n % 10) (by omega)]
      rw [if_pos (by omega)]
      congr 1; omega

theorem digits_head (fuel n : Nat) (h : n < fuel) : ∃ b s, digits fuel n = b :: s ∧ 48 ≤ b.toNat ∧ b.toNat ≤ 57 := by
  induction fuel generalizing n with
  | zero => omega
  | succ fuel ih =>
    unfold digits
    by_cases hn : n < 10
    · rw [if_pos hn]
      exact ⟨_, [], rfl, by rw [toUInt8_digit n hn]; omega, by rw [toUInt8_digit n hn]; omega⟩
    · rw [if_neg hn]
      obtain ⟨b, s, h1, h2⟩ := ih (n / 10) (by omega)
      exact ⟨b, s ++ [(48 + n % 10).toUInt8], by rw [h1]; rfl, h2⟩

/-- `strconv.Itoa(i)` is a numeral of `i`. -/
theorem decimal_itoa (i : Int) : decimal (itoa i) = some i := by
  unfold itoa
  by_cases hi : i < 0
  · rw [if_pos hi]
    simp only [decimal]
    rw [if_neg (digits_ne_nil _ _ (by omega)), natValue_digits _ _ (by omega)]
    simp; omega
  · rw [if_neg hi]
    obtain ⟨b, s, h1, h2, h3⟩ := digits_head (i.natAbs + 1) i.natAbs (by omega)
    have hv := natValue_digits (i.natAbs + 1) i.natAbs (by omega)
    rw [h1] at hv ⊢
    have hb : b ≠ 45 := by rintro rfl; simp at h2
    have : decimal (b :: s) = (natValue (b :: s)).map fun n => (n : Int) := by
      unfold decimal
      split
      · rename_i h; simp at h
      · rename_i h; simp at h; exact absurd h.1 hb
      · rfl
    rw [this, hv]
    simp; omega

theorem itoa_inj {i j : Int} (h : itoa i = itoa j) : i = j := by
  have := decimal_itoa i
  rw [h, decimal_itoa j] at this
  simpa using this.symm

example : itoa 404 = lit "404" := by decide
example : itoa (-17) = lit "-17" := by decide
example : itoa 0 = lit "0" := by decide

end Verif
