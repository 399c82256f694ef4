import Verif.Props.JsonFloat

/-!
# C82: every `float64` has such digits

A finite `float64` is `n * 2^k` with `n` below `2^53` and `k` from `-1074` to `971`; its digits can be written out in full, and of all digits that are read as the
number there are some of which there are the fewest.
-/

set_option autoImplicit false

namespace Verif
open Spec.Json Json

theorem ten_lt {j k : Int} (h : j ≤ k) : (10 : Rat) ^ j ≤ (10 : Rat) ^ k := by
  have h1 := one_le_ten (show 0 ≤ k - j by omega)
  have h2 : (10 : Rat) ^ k = (10 : Rat) ^ (k - j) * (10 : Rat) ^ j := by
    rw [← Rat.zpow_add (by decide)]
    congr 1
    omega
  have h3 := Rat.mul_le_mul_of_nonneg_right h1 (Rat.le_of_lt (ten_pos j))
  rw [Rat.one_mul, ← h2] at h3
  exact h3

theorem digits_short : ∀ (fuel n k : Nat), n < fuel → n < 10 ^ (k + 1) → (digits fuel n).length ≤ k + 1
  | 0, n, k, h, _ => by omega
  | fuel + 1, n, k, h, h' => by
    rw [digits]
    split
    · simp
    · cases k with
      | zero => omega
      | succ k =>
        have := digits_short fuel (n / 10) k (by omega) (by rw [Nat.pow_succ] at h'; omega)
        simp only [List.length_append, List.length_singleton]
        omega

/-- Every natural number times a power of ten has digits. -/
theorem digits_exist (neg : Bool) (v : Rat) {n : Nat} (p : Int) (hn : n ≠ 0) :
    ∃ x : Flt, x.neg = neg ∧ x.abs = v ∧ x.value = (n : Rat) * (10 : Rat) ^ p ∧ (∀ b ∈ x.digits, 48 ≤ b.toNat ∧ b.toNat ≤ 57) ∧
      x.digits.head? ≠ some 48 ∧ x.digits ≠ [] ∧ ∀ k, n < 10 ^ (k + 1) → x.digits.length ≤ k + 1 := by
  obtain ⟨⟨⟨h1, h2⟩, -⟩, h3, h4⟩ := digits_part (n + 1) n (by omega)
  refine ⟨{ neg := neg, abs := v, digits := digits (n + 1) n, dp := p + (digits (n + 1) n).length }, rfl, rfl, ?_, ?_, h4 hn, h1, fun k hk => digits_short _ _ _ (by omega) hk⟩
  · rw [value_eq]
    dsimp only
    rw [dec, h3]
    congr 2
    omega
  · intro b hb
    exact (digit_iff b).1 (h2 b hb)

/-- A dyadic number is a decimal one. -/
theorem two_is_ten (k : Int) : ∃ (c : Nat) (p : Int), c ≠ 0 ∧ (2 : Rat) ^ k = (c : Rat) * (10 : Rat) ^ p := by
  by_cases h : 0 ≤ k
  · obtain ⟨j, rfl⟩ := Int.eq_ofNat_of_zero_le h
    refine ⟨2 ^ j, 0, by exact Nat.ne_of_gt (Nat.pow_pos (by omega)), ?_⟩
    rw [Rat.zpow_natCast, Rat.natCast_pow, Rat.zpow_zero, Rat.mul_one]
    rfl
  · obtain ⟨j, hj⟩ := Int.eq_ofNat_of_zero_le (show 0 ≤ -k by omega)
    have hk : k = -(j : Int) := by omega
    subst hk
    refine ⟨5 ^ j, -(j : Int), by exact Nat.ne_of_gt (Nat.pow_pos (by omega)), ?_⟩
    have e : (10 : Rat) ^ j = (2 : Rat) ^ j * (5 : Rat) ^ j := by
      have : ((10 ^ j : Nat) : Rat) = ((2 ^ j * 5 ^ j : Nat) : Rat) := by rw [← Nat.mul_pow]
      rw [Rat.natCast_mul, Rat.natCast_pow, Rat.natCast_pow, Rat.natCast_pow] at this
      exact this
    have h2 : (2 : Rat) ^ j ≠ 0 := Rat.ne_of_gt (Rat.pow_pos (by decide))
    have h5 : (5 : Rat) ^ j ≠ 0 := Rat.ne_of_gt (Rat.pow_pos (by decide))
    rw [Rat.zpow_neg, Rat.zpow_neg, Rat.zpow_natCast, Rat.zpow_natCast, e, Rat.natCast_pow]
    show _ = (5 : Rat) ^ j * _
    generalize (2 : Rat) ^ j = a at *
    generalize (5 : Rat) ^ j = b at *
    grind

/-! ## Seventeen digits are enough -/

theorem roundEven_eq {q : Rat} {n : Int} (h1 : (n : Rat) - 1 / 2 < q) (h2 : q < n + 1 / 2) : roundEven q = n := by
  have h := roundEven_near q
  have a : ((n - 1 : Int) : Rat) < roundEven q := by
    rw [Rat.intCast_sub]
    have : ((1 : Int) : Rat) = 1 := rfl
    grind
  have b : (roundEven q : Rat) < ((n + 1 : Int) : Rat) := by
    rw [Rat.intCast_add]
    have : ((1 : Int) : Rat) = 1 := rfl
    grind
  have := Rat.intCast_lt_intCast.1 a
  have := Rat.intCast_lt_intCast.1 b
  omega

/-- What is nearer to a `float64` than `2^-54` of it is rounded to it. -/
theorem f64_close {v y : Rat} (hv : 0 < v) (he : f64 v = v) (h1 : v - v / 2 ^ 54 < y) (h2 : y < v + v / 2 ^ 54) : f64 y = v := by
  have hs := ilog2_spec hv
  have hn : ∃ n : Int, v = n * (2 : Rat) ^ (ilog2 v - 52) := by
    refine ⟨roundEven (v / (2 : Rat) ^ (ilog2 v - 52)), ?_⟩
    conv => lhs; rw [← he]
    rw [f64, if_neg (Rat.ne_of_gt hv)]
  obtain ⟨n, hn⟩ := hn
  generalize ilog2 v = e at *
  have p := two_zpow_pos (e - 53)
  have e52 : (2 : Rat) ^ (e - 52) = 2 * (2 : Rat) ^ (e - 53) := by rw [← two_zpow_succ]; congr 1; omega
  have e0 : (2 : Rat) ^ e = 2 ^ 53 * (2 : Rat) ^ (e - 53) := by
    have : (2 : Rat) ^ 53 = (2 : Rat) ^ (53 : Int) := by decide +kernel
    rw [this, ← Rat.zpow_add (by decide)]; congr 1; omega
  have e1 : (2 : Rat) ^ (e + 1) = 2 ^ 54 * (2 : Rat) ^ (e - 53) := by
    have : (2 : Rat) ^ 54 = (2 : Rat) ^ (54 : Int) := by decide +kernel
    rw [this, ← Rat.zpow_add (by decide)]; congr 1; omega
  have em : (2 : Rat) ^ (e - 1) = 2 ^ 52 * (2 : Rat) ^ (e - 53) := by
    have : (2 : Rat) ^ 52 = (2 : Rat) ^ (52 : Int) := by decide +kernel
    rw [this, ← Rat.zpow_add (by decide)]; congr 1; omega
  rw [e52] at hn
  generalize hu : (2 : Rat) ^ (e - 53) = u at *
  have lo : (2 ^ 52 : Int) ≤ n := by
    have : ((2 ^ 52 : Int) : Rat) * (2 * u) ≤ (n : Rat) * (2 * u) := by
      rw [← hn, show ((2 ^ 52 : Int) : Rat) = 2 ^ 52 by decide +kernel]
      grind
    exact Rat.intCast_le_intCast.1 (Rat.le_of_mul_le_mul_right this (by grind))
  have hi : n + 1 ≤ (2 ^ 53 : Int) := by
    have : (n : Rat) * (2 * u) < ((2 ^ 53 : Int) : Rat) * (2 * u) := by
      rw [← hn, show ((2 ^ 53 : Int) : Rat) = 2 ^ 53 by decide +kernel]
      grind
    exact Rat.intCast_lt_intCast.1 (Rat.lt_of_mul_lt_mul_right this (by grind))
  have hi' : (n : Rat) + 1 ≤ 2 ^ 53 := by
    have := Rat.intCast_le_intCast.2 hi
    rw [Rat.intCast_add, show ((2 ^ 53 : Int) : Rat) = 2 ^ 53 by decide +kernel] at this
    exact this
  have hiu := Rat.mul_le_mul_of_nonneg_right hi' (show 0 ≤ 2 * u by grind)
  have ylt : y < (2 : Rat) ^ (e + 1) := by
    rw [e1]
    grind
  by_cases hy : (2 : Rat) ^ e ≤ y
  · have hl := ilog2_unique hy ylt
    have y0 : y ≠ 0 := by have := two_zpow_pos e; grind
    rw [f64, if_neg y0]
    simp only
    rw [hl, e52]
    have : roundEven (y / (2 * u)) = n := by
      have hq : y = (y / (2 * u)) * (2 * u) := by grind
      generalize y / (2 * u) = q at hq ⊢
      apply roundEven_eq
      · refine Rat.lt_of_mul_lt_mul_right (c := 2 * u) ?_ (by grind)
        grind
      · refine Rat.lt_of_mul_lt_mul_right (c := 2 * u) ?_ (by grind)
        grind
    rw [this, hn]
  · have hn' : n = 2 ^ 52 := by
      false_or_by_contra
      have : ((2 ^ 52 + 1 : Int) : Rat) ≤ n := Rat.intCast_le_intCast.2 (by omega)
      rw [show ((2 ^ 52 + 1 : Int) : Rat) = 2 ^ 52 + 1 by decide +kernel] at this
      have := Rat.mul_le_mul_of_nonneg_right this (show 0 ≤ 2 * u by grind)
      grind
    rw [hn', show ((2 ^ 52 : Int) : Rat) = 2 ^ 52 by decide +kernel] at hn
    have hl : ilog2 y = e - 1 := by
      apply ilog2_unique
      · rw [em]; grind
      · rw [show e - 1 + 1 = e by omega]; grind
    have y0 : y ≠ 0 := by grind
    rw [f64, if_neg y0]
    simp only
    rw [hl, show e - 1 - 52 = e - 53 by omega, hu]
    have : roundEven (y / u) = (2 ^ 53 : Int) := by
      have hq : y = (y / u) * u := by grind
      generalize y / u = q at hq ⊢
      apply roundEven_eq
      · refine Rat.lt_of_mul_lt_mul_right (c := u) ?_ (by grind)
        rw [show ((2 ^ 53 : Int) : Rat) = 2 ^ 53 by decide +kernel]
        grind
      · refine Rat.lt_of_mul_lt_mul_right (c := u) ?_ (by grind)
        rw [show ((2 ^ 53 : Int) : Rat) = 2 ^ 53 by decide +kernel]
        grind
    rw [this, hn, show ((2 ^ 53 : Int) : Rat) = 2 ^ 53 by decide +kernel]
    grind

/-- Any number with digits is near to one with 17 digits. -/
theorem seventeen {v : Rat} {dp : Int} (h1 : (10 : Rat) ^ (dp - 1) ≤ v) (h2 : v < (10 : Rat) ^ dp) :
    ∃ (n : Nat) (p : Int), n ≠ 0 ∧ n < 10 ^ 17 ∧ v - v / (2 * 10 ^ 16) ≤ n * (10 : Rat) ^ p ∧ n * (10 : Rat) ^ p ≤ v + v / (2 * 10 ^ 16) := by
  have p := ten_pos (dp - 17)
  have e1 : (10 : Rat) ^ (dp - 1) = 10 ^ 16 * (10 : Rat) ^ (dp - 17) := by
    rw [ten_add]; congr 1; omega
  have e2 : (10 : Rat) ^ dp = 10 ^ 17 * (10 : Rat) ^ (dp - 17) := by
    rw [ten_add]; congr 1; omega
  have e3 : (10 : Rat) ^ (dp - 16) = 10 * (10 : Rat) ^ (dp - 17) := by
    have := ten_add 1 (dp - 17)
    rw [show ((1 : Nat) : Int) + (dp - 17) = dp - 16 by omega] at this
    rw [← this]
    grind
  generalize hu : (10 : Rat) ^ (dp - 17) = u at *
  have hq : v = (v / u) * u := by grind
  have hr := roundEven_near (v / u)
  generalize hd : roundEven (v / u) = d at hr
  have lo : (10 ^ 16 : Int) ≤ d := by
    rw [← hd]
    apply le_roundEven
    rw [show ((10 ^ 16 : Int) : Rat) = 10 ^ 16 by decide +kernel]
    refine Rat.le_of_mul_le_mul_right (c := u) ?_ p
    grind
  have hi : d ≤ (10 ^ 17 : Int) := by
    rw [← hd]
    apply roundEven_le
    rw [show ((10 ^ 17 : Int) : Rat) = 10 ^ 17 by decide +kernel]
    refine Rat.le_of_mul_le_mul_right (c := u) ?_ p
    grind
  have a1 := Rat.mul_le_mul_of_nonneg_right hr.1 (Rat.le_of_lt p)
  have a2 := Rat.mul_le_mul_of_nonneg_right hr.2 (Rat.le_of_lt p)
  have b1 : v - v / (2 * 10 ^ 16) ≤ d * u := by grind
  have b2 : d * u ≤ v + v / (2 * 10 ^ 16) := by grind
  by_cases he : d = 10 ^ 17
  · refine ⟨10 ^ 16, dp - 16, by decide, by decide, ?_⟩
    have : ((10 ^ 16 : Nat) : Rat) * (10 : Rat) ^ (dp - 16) = d * u := by
      rw [e3, he, show ((10 ^ 16 : Nat) : Rat) = 10 ^ 16 by decide +kernel, show ((10 ^ 17 : Int) : Rat) = 10 ^ 17 by decide +kernel]
      grind
    rw [this]
    exact ⟨b1, b2⟩
  · refine ⟨d.toNat, dp - 17, by omega, by omega, ?_⟩
    have : ((d.toNat : Nat) : Rat) = d := by
      rw [← Rat.intCast_natCast]
      congr 1
      omega
    rw [this, hu]
    exact ⟨b1, b2⟩

/-- A number between the powers of ten. -/
theorem ten_log {v : Rat} (h : Float64 v) (h0 : v ≠ 0) : ∃ dp : Int, (10 : Rat) ^ (dp - 1) ≤ v ∧ v < (10 : Rat) ^ dp := by
  obtain ⟨n, k, -, -, rfl⟩ := h
  obtain ⟨c, p, hc, e⟩ := two_is_ten k
  have hn : n ≠ 0 := by
    rintro rfl
    exact h0 (Rat.zero_mul _)
  obtain ⟨x, -, -, a3, a4, a5, a6, -⟩ := digits_exist false 0 p (n := n * c) (Nat.mul_ne_zero hn hc)
  have e' : ((n * c : Nat) : Rat) * (10 : Rat) ^ p = (n : Rat) * (2 : Rat) ^ k := by rw [e, Rat.natCast_mul, Rat.mul_assoc]
  have := value_between a4 a5 a6
  rw [a3, e'] at this
  exact ⟨x.dp, this⟩

theorem float64_between {v : Rat} (h : Float64 v) (h0 : v ≠ 0) : (2 : Rat) ^ (-1074 : Int) ≤ v ∧ v ≤ (2 : Rat) ^ (1024 : Int) := by
  obtain ⟨n, k, hn, hk, rfl⟩ := h
  have hn0 : n ≠ 0 := by
    rintro rfl
    exact h0 (Rat.zero_mul _)
  constructor
  · have h1 : ((1 : Nat) : Rat) ≤ (n : Rat) := Rat.natCast_le_natCast.2 (by omega)
    have h2 := Rat.mul_le_mul_of_nonneg_right h1 (Rat.le_of_lt (two_zpow_pos k))
    refine Rat.le_trans (two_zpow_mono hk.1) ?_
    rw [show ((1 : Nat) : Rat) = 1 from rfl, Rat.one_mul] at h2
    exact h2
  · have h1 : (n : Rat) ≤ ((2 ^ 53 : Nat) : Rat) := Rat.natCast_le_natCast.2 (by omega)
    have h2 := Rat.mul_le_mul_of_nonneg_right h1 (Rat.le_of_lt (two_zpow_pos k))
    have h3 : ((2 ^ 53 : Nat) : Rat) = (2 : Rat) ^ (53 : Int) := by decide +kernel
    refine Rat.le_trans h2 ?_
    rw [h3, ← Rat.zpow_add (by decide)]
    exact two_zpow_mono (by omega)

theorem float64_exact {v : Rat} (h : Float64 v) : f64 v = v := by
  obtain ⟨n, k, hn, hk, rfl⟩ := h
  exact @f64_mul_two_zpow (n : Int) k (by omega) (by omega)

/-- **C82.** Every finite `float64`, of either sign, has digits from which it is read back, and at most 17. -/
theorem C82_all (neg : Bool) {v : Rat} (h : Float64 v) : ∃ x : Flt, x.neg = neg ∧ x.abs = v ∧ Reads f64 x ∧ x.digits.length ≤ 17 := by
  by_cases h0 : v = 0
  · subst h0
    refine ⟨{ neg := neg, abs := 0, digits := [], dp := 0 }, rfl, rfl, ⟨?_, ?_, ?_, fun _ => rfl, ?_, ?_⟩, by simp⟩
    · simp
    · simp
    · simp
    · exact (by decide : (0 : Int).natAbs < 999)
    · exact (by decide +kernel : f64 (Flt.value { neg := false, abs := 0, digits := [], dp := 0 }) = 0)
  · obtain ⟨dp, d1, d2⟩ := ten_log h h0
    obtain ⟨n, p, n0, n1, n2, n3⟩ := seventeen d1 d2
    obtain ⟨x, a1, a2, a3, a4, a5, a6, a7⟩ := digits_exist neg v p n0
    have hb := value_between a4 a5 a6
    have ⟨lo, hi⟩ := float64_between h h0
    have pos : 0 < v := rat_lt_of_lt_of_le (two_zpow_pos _) lo
    rw [← a3] at n2 n3
    refine ⟨x, a1, a2, ⟨a4, a5, ?_, fun h => absurd h a6, ?_, ?_⟩, a7 16 n1⟩
    · exact ⟨fun h => absurd h a6, fun h => by rw [a2] at h; exact absurd h h0⟩
    · have u : x.dp < 999 := by
        false_or_by_contra
        have h1 := Rat.le_trans (ten_lt (show (998 : Int) ≤ x.dp - 1 by omega)) hb.1
        have h2 : x.value ≤ 2 * (2 : Rat) ^ (1024 : Int) := by grind
        exact absurd (Rat.le_trans h1 h2) (by decide +kernel)
      have l : -999 < x.dp := by
        false_or_by_contra
        have h1 := rat_lt_of_lt_of_le hb.2 (ten_lt (show x.dp ≤ -999 by omega))
        have h2 : (2 : Rat) ^ (-1074 : Int) / 2 ≤ x.value := by grind
        exact absurd (rat_lt_of_le_of_lt h2 h1) (by decide +kernel)
      omega
    · rw [a2]
      apply f64_close pos (float64_exact h)
      · grind
      · grind

/-- **C82.** So there are shortest digits, and never more than 17. -/
theorem C82_shortest (neg : Bool) {v : Rat} (h : Float64 v) :
    (∃ x : Flt, x.neg = neg ∧ x.abs = v ∧ Shortest f64 x) ∧ ∀ x : Flt, x.abs = v → Shortest f64 x → x.digits.length ≤ 17 := by
  obtain ⟨x, h1, h2, h3, h4⟩ := C82_all neg h
  constructor
  · have key : ∀ (k : Nat) (x : Flt), x.neg = neg → x.abs = v → Reads f64 x → x.digits.length ≤ k → ∃ x : Flt, x.neg = neg ∧ x.abs = v ∧ Shortest f64 x := by
      intro k
      induction k with
      | zero => exact fun x a b c d => ⟨x, a, b, c, fun y _ _ => by omega⟩
      | succ k ih =>
        intro x a b c d
        by_cases he : ∃ y : Flt, y.abs = v ∧ Reads f64 y ∧ y.digits.length < x.digits.length
        · obtain ⟨y, e1, e2, e3⟩ := he
          exact ih { y with neg := neg } rfl e1 ⟨e2.digits, e2.first, e2.zero, e2.zeroPoint, e2.range, e2.rounds⟩ (show y.digits.length ≤ k by omega)
        · exact ⟨x, a, b, c, fun y e1 e2 => Nat.le_of_not_lt fun e3 => he ⟨y, e1.trans b, e2, e3⟩⟩
    exact key _ x h1 h2 h3 (Nat.le_refl _)
  · intro y e1 e2
    exact Nat.le_trans (e2.2 x (h2.trans e1.symm) h3) h4

/-! ## Examples -/

namespace FloatExamples

/-- 0.1 + 0.2, which is not 0.3: neither of two numbers next to each other gets the digits of the other. -/
def sum : Flt := { abs := f64 (f64 (1 / 10) + f64 (2 / 10)), digits := lit "30000000000000004", dp := 0 }
def three : Flt := { abs := f64 (3 / 10), digits := lit "3", dp := 0 }

example : sum.abs = three.abs + 1 / 2 ^ 54 ∧ sum.abs = 5404319552844596 * (2 : Rat) ^ (-54 : Int) ∧ floatText f64 sum = lit "0.30000000000000004" ∧ floatText f64 three = lit "0.3" := by
  decide +kernel

theorem sum_reads : Reads f64 sum where
  digits := by decide +kernel
  first := by decide +kernel
  zero := by decide +kernel
  zeroPoint := by decide +kernel
  range := by decide
  rounds := by decide +kernel

theorem sum_float : Float64 sum.abs := ⟨5404319552844596, -54, by decide, by decide, by decide +kernel⟩

example : ∃ x : Flt, x.abs = sum.abs ∧ Shortest f64 x ∧ x.digits.length ≤ 17 := by
  obtain ⟨⟨x, -, h1, h2⟩, h3⟩ := C82_shortest false sum_float
  exact ⟨x, h1, h2, h3 x h1 h2⟩

/-- The smallest number and the largest: `5e-324` and `1.7976931348623157e+308`. -/
theorem least_float : Float64 ((2 : Rat) ^ (-1074 : Int)) := ⟨1, -1074, by decide, by decide, by decide +kernel⟩
theorem most_float : Float64 ((2 ^ 53 - 1) * (2 : Rat) ^ (971 : Int)) := ⟨2 ^ 53 - 1, 971, by decide, by decide, by decide +kernel⟩

def most : Flt := { abs := (2 ^ 53 - 1) * (2 : Rat) ^ (971 : Int), digits := lit "17976931348623157", dp := 309 }

example : floatText f64 most = lit "1.7976931348623157e+308" ∧ f64 most.value = most.abs := by decide +kernel

end FloatExamples

end Verif
