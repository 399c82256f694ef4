import Verif.Model.Float

/-! # Rounding -/

set_option autoImplicit false

namespace Verif

theorem roundEven_near (q : Rat) : q - 1 / 2 ≤ roundEven q ∧ (roundEven q : Rat) ≤ q + 1 / 2 := by
  have h1 := Rat.floor_le q
  have h2 := Rat.lt_floor_add_one q
  simp only [roundEven]
  generalize q.floor = n at *
  rw [Rat.intCast_add] at h2
  have : ((1 : Int) : Rat) = 1 := rfl
  rw [this] at h2
  split
  · grind
  · split
    · rw [Rat.intCast_add, this]; grind
    · split
      · grind
      · rw [Rat.intCast_add, this]; grind

/-- In the middle between two integers: the even one. -/
theorem roundEven_tie {q : Rat} (h : q - q.floor = 1 / 2) : roundEven q % 2 = 0 := by
  simp only [roundEven, h]
  rw [if_neg (by decide +kernel), if_neg (by decide +kernel)]
  split <;> omega

theorem roundEven_le {q : Rat} {n : Int} (h : q ≤ n) : roundEven q ≤ n := by
  have h1 := Rat.floor_le q
  have h3 : q.floor ≤ n := by
    have := Rat.floor_monotone h
    rwa [Rat.floor_intCast] at this
  simp only [roundEven]
  by_cases he : q.floor = n
  · have : ¬ (1 / 2 : Rat) ≤ q - q.floor := by rw [he]; grind
    rw [if_pos (by grind)]
    omega
  · split
    · exact h3
    · split
      · omega
      · split <;> omega

theorem le_roundEven {q : Rat} {n : Int} (h : (n : Rat) ≤ q) : n ≤ roundEven q := by
  have h3 : n ≤ q.floor := Rat.le_floor_iff.2 h
  simp only [roundEven]
  split
  · exact h3
  · split
    · omega
    · split <;> omega

theorem roundEven_mono {p q : Rat} (h : p ≤ q) : roundEven p ≤ roundEven q := by
  by_cases hf : p.floor = q.floor
  · have e : p - p.floor ≤ q - q.floor := by rw [hf]; grind
    simp only [roundEven]
    rw [hf] at e ⊢
    by_cases p1 : p - q.floor < 1 / 2
    · rw [if_pos p1]
      split
      · omega
      · split
        · omega
        · split <;> omega
    · have q1 : ¬ q - q.floor < 1 / 2 := by grind
      rw [if_neg p1, if_neg q1]
      by_cases p2 : 1 / 2 < p - q.floor
      · have q2 : 1 / 2 < q - q.floor := by grind
        rw [if_pos p2, if_pos q2]
        omega
      · rw [if_neg p2]
        split <;> split <;> (try split) <;> omega
  · have h1 := Rat.floor_monotone h
    have h2 : p.floor + 1 ≤ q.floor := by omega
    have a : roundEven p ≤ p.floor + 1 := roundEven_le (Rat.le_of_lt (Rat.lt_floor_add_one p))
    have b : q.floor ≤ roundEven q := le_roundEven (Rat.floor_le q)
    omega

theorem roundEven_int (n : Int) : roundEven n = n := Int.le_antisymm (roundEven_le Rat.le_refl) (le_roundEven Rat.le_refl)

theorem two_zpow_pos (k : Int) : 0 < (2 : Rat) ^ k := Rat.zpow_pos (by decide)

theorem two_zpow_succ (k : Int) : (2 : Rat) ^ (k + 1) = 2 * (2 : Rat) ^ k := by
  rw [Rat.zpow_add_one (by decide), Rat.mul_comm]

theorem two_zpow_mono {j k : Int} (h : j ≤ k) : (2 : Rat) ^ j ≤ (2 : Rat) ^ k := by
  obtain ⟨n, rfl⟩ := Int.le.dest h
  clear h
  induction n with
  | zero => simp
  | succ n ih =>
    rw [show (j + ((n + 1 : Nat) : Int)) = (j + n) + 1 by omega, two_zpow_succ]
    have := two_zpow_pos (j + n)
    grind

theorem two_zpow_lt_iff {j k : Int} : (2 : Rat) ^ j < (2 : Rat) ^ k ↔ j < k := by
  constructor
  · intro h
    by_cases hk : k ≤ j
    · have := two_zpow_mono hk
      grind
    · omega
  · intro h
    have := two_zpow_mono (show j + 1 ≤ k by omega)
    rw [two_zpow_succ] at this
    have := two_zpow_pos j
    grind

theorem ilog2_spec {x : Rat} (hx : 0 < x) : (2 : Rat) ^ ilog2 x ≤ x ∧ x < (2 : Rat) ^ (ilog2 x + 1) := by
  have hn : 0 < x.num := by
    rw [Rat.lt_iff] at hx
    simpa using hx
  obtain ⟨n, hn'⟩ := Int.eq_ofNat_of_zero_le (Int.le_of_lt hn)
  have hn0 : n ≠ 0 := by omega
  have hd0 := x.den_nz
  have hxe : x * x.den = n := by
    have h1 : x = (x.num : Rat) / x.den := by rw [← Rat.mkRat_eq_div, Rat.mkRat_self]
    have h2 : ((x.den : Nat) : Rat) ≠ 0 := by
      have : (0 : Rat) < x.den := Rat.natCast_pos.2 (by omega)
      exact Rat.ne_of_gt this
    have h3 : x * x.den = x.num := by
      conv => lhs; lhs; rw [h1]
      rw [Rat.div_mul_cancel h2]
    rw [h3, hn']
    rfl
  have ha1 : (2 : Rat) ^ (n.log2 : Int) ≤ n := by
    rw [Rat.zpow_natCast]
    have := Nat.log2_self_le hn0
    have := Rat.natCast_le_natCast.2 this
    simpa [Rat.natCast_pow] using this
  have ha2 : (n : Rat) < (2 : Rat) ^ ((n.log2 : Int) + 1) := by
    have h1 := @Nat.lt_log2_self n
    have := Rat.natCast_lt_natCast.2 h1
    rw [show ((n.log2 : Int) + 1) = ((n.log2 + 1 : Nat) : Int) by omega, Rat.zpow_natCast]
    simpa [Rat.natCast_pow] using this
  have hb1 : (2 : Rat) ^ (x.den.log2 : Int) ≤ x.den := by
    rw [Rat.zpow_natCast]
    have := Rat.natCast_le_natCast.2 (Nat.log2_self_le hd0)
    simpa [Rat.natCast_pow] using this
  have hb2 : (x.den : Rat) < (2 : Rat) ^ ((x.den.log2 : Int) + 1) := by
    have := Rat.natCast_lt_natCast.2 (@Nat.lt_log2_self x.den)
    rw [show ((x.den.log2 : Int) + 1) = ((x.den.log2 + 1 : Nat) : Int) by omega, Rat.zpow_natCast]
    simpa [Rat.natCast_pow] using this
  have hlt : x < (2 : Rat) ^ ((n.log2 : Int) - x.den.log2 + 1) := by
    have e : (2 : Rat) ^ ((n.log2 : Int) + 1) = (2 : Rat) ^ ((n.log2 : Int) - x.den.log2 + 1) * (2 : Rat) ^ (x.den.log2 : Int) := by
      rw [← Rat.zpow_add (by decide)]
      congr 1
      omega
    have h1 := Rat.mul_le_mul_of_nonneg_left hb1 (Rat.le_of_lt hx)
    rw [hxe] at h1
    have h2 : x * (2 : Rat) ^ (x.den.log2 : Int) < (2 : Rat) ^ ((n.log2 : Int) - x.den.log2 + 1) * (2 : Rat) ^ (x.den.log2 : Int) := by
      rw [← e]; grind
    exact Rat.lt_of_mul_lt_mul_right h2 (Rat.le_of_lt (two_zpow_pos _))
  have hge : (2 : Rat) ^ ((n.log2 : Int) - x.den.log2 - 1) ≤ x := by
    have e : (2 : Rat) ^ (n.log2 : Int) = (2 : Rat) ^ ((n.log2 : Int) - x.den.log2 - 1) * (2 : Rat) ^ ((x.den.log2 : Int) + 1) := by
      rw [← Rat.zpow_add (by decide)]
      congr 1
      omega
    have h1 := Rat.mul_le_mul_of_nonneg_left (Rat.le_of_lt hb2) (Rat.le_of_lt hx)
    rw [hxe] at h1
    have h2 : (2 : Rat) ^ ((n.log2 : Int) - x.den.log2 - 1) * (2 : Rat) ^ ((x.den.log2 : Int) + 1) ≤ x * (2 : Rat) ^ ((x.den.log2 : Int) + 1) := by
      rw [← e]; grind
    exact Rat.le_of_mul_le_mul_right h2 (two_zpow_pos _)
  have hnn : x.num.toNat = n := by omega
  simp only [ilog2, hnn]
  by_cases hc : (2 : Rat) ^ ((n.log2 : Int) - x.den.log2) ≤ x
  · rw [if_pos hc]
    exact ⟨hc, hlt⟩
  · rw [if_neg hc]
    refine ⟨hge, ?_⟩
    rw [show ((n.log2 : Int) - x.den.log2 - 1 + 1) = (n.log2 : Int) - x.den.log2 by omega]
    grind

theorem rat_le_of_eq {a b : Rat} (h : a = b) : a ≤ b := h ▸ Rat.le_refl

theorem rat_lt_of_lt_of_le {a b c : Rat} (h : a < b) (h' : b ≤ c) : a < c := by grind

theorem rat_lt_of_le_of_lt {a b c : Rat} (h : a ≤ b) (h' : b < c) : a < c := by grind

theorem ilog2_unique {x : Rat} {e : Int} (h1 : (2 : Rat) ^ e ≤ x) (h2 : x < (2 : Rat) ^ (e + 1)) : ilog2 x = e := by
  have hx : 0 < x := rat_lt_of_lt_of_le (two_zpow_pos e) h1
  obtain ⟨h3, h4⟩ := ilog2_spec hx
  have a := two_zpow_lt_iff.1 (rat_lt_of_le_of_lt h1 h4)
  have b := two_zpow_lt_iff.1 (rat_lt_of_le_of_lt h3 h2)
  omega

theorem ilog2_mono {x y : Rat} (hx : 0 < x) (h : x ≤ y) : ilog2 x ≤ ilog2 y := by
  have a := (ilog2_spec hx).1
  have b := (ilog2_spec (rat_lt_of_lt_of_le hx h)).2
  have := two_zpow_lt_iff.1 (rat_lt_of_le_of_lt (Rat.le_trans a h) b)
  omega

theorem f64_zero : f64 0 = 0 := rfl

/-- `x` scaled to a mantissa between `2^52` and `2^53`. -/
theorem f64_scale {x : Rat} (hx : 0 < x) :
    ∃ m : Rat, x = m * (2 : Rat) ^ (ilog2 x - 52) ∧ ((2 ^ 52 : Int) : Rat) ≤ m ∧ m < ((2 ^ 53 : Int) : Rat)
      ∧ f64 x = roundEven m * (2 : Rat) ^ (ilog2 x - 52) := by
  obtain ⟨h1, h2⟩ := ilog2_spec hx
  have hp := two_zpow_pos (ilog2 x - 52)
  have hne : (2 : Rat) ^ (ilog2 x - 52) ≠ 0 := Rat.ne_of_gt hp
  have hm : x / (2 : Rat) ^ (ilog2 x - 52) * (2 : Rat) ^ (ilog2 x - 52) = x := Rat.div_mul_cancel hne
  refine ⟨x / (2 : Rat) ^ (ilog2 x - 52), hm.symm, ?_, ?_, ?_⟩
  · refine Rat.le_of_mul_le_mul_right ?_ hp
    rw [hm]
    have : ((2 ^ 52 : Int) : Rat) = (2 : Rat) ^ (52 : Int) := by decide +kernel
    rw [this, ← Rat.zpow_add (by decide)]
    rwa [show (52 + (ilog2 x - 52)) = ilog2 x by omega]
  · refine Rat.lt_of_mul_lt_mul_right ?_ (Rat.le_of_lt hp)
    rw [hm]
    have : ((2 ^ 53 : Int) : Rat) = (2 : Rat) ^ (53 : Int) := by decide +kernel
    rw [this, ← Rat.zpow_add (by decide)]
    rwa [show (53 + (ilog2 x - 52)) = ilog2 x + 1 by omega]
  · rw [f64, if_neg (Rat.ne_of_gt hx)]

/-- `x > 0` whose last bit is not below the last place is a `float64`. -/
theorem f64_exact {x : Rat} (hx : 0 < x) {n : Int} {j : Int} (hn : x = n * (2 : Rat) ^ j) (hj : ilog2 x - 52 ≤ j) : f64 x = x := by
  obtain ⟨m, h1, _, _, h4⟩ := f64_scale hx
  have hp := two_zpow_pos (ilog2 x - 52)
  obtain ⟨t, ht⟩ := Int.le.dest hj
  have : m = ((n * 2 ^ t : Int) : Rat) := by
    have e : m * (2 : Rat) ^ (ilog2 x - 52) = ((n * 2 ^ t : Int) : Rat) * (2 : Rat) ^ (ilog2 x - 52) := by
      rw [← h1, Rat.intCast_mul, Rat.intCast_pow, Rat.mul_assoc]
      have : (((2 : Int) : Rat)) ^ t = (2 : Rat) ^ (t : Int) := by rw [Rat.zpow_natCast]; rfl
      rw [this, ← Rat.zpow_add (by decide), show ((t : Int) + (ilog2 x - 52)) = j by omega]
      exact hn
    have h5 := Rat.le_of_mul_le_mul_right (rat_le_of_eq e) hp
    have h6 := Rat.le_of_mul_le_mul_right (rat_le_of_eq e.symm) hp
    exact Rat.le_antisymm h5 h6
  rw [h4, this, roundEven_int, ← this, ← h1]

/-- A number with at most 53 significant bits is a `float64`. -/
theorem f64_mul_two_zpow {n : Int} {k : Int} (h0 : 0 ≤ n) (h : n ≤ 2 ^ 53) : f64 (n * (2 : Rat) ^ k) = n * (2 : Rat) ^ k := by
  by_cases hz : n = 0
  · subst hz
    rw [show ((0 : Int) : Rat) = 0 from rfl, Rat.zero_mul]
    rfl
  · have hp := two_zpow_pos k
    have hnp : (0 : Rat) < n := Rat.intCast_pos.2 (by omega)
    have hx : 0 < (n : Rat) * (2 : Rat) ^ k := Rat.mul_pos hnp hp
    by_cases he : n = 2 ^ 53
    · have e : (n : Rat) * (2 : Rat) ^ k = (1 : Int) * (2 : Rat) ^ (k + 53) := by
        have : ((2 ^ 53 : Int) : Rat) = (2 : Rat) ^ (53 : Int) := by decide +kernel
        rw [he, this, ← Rat.zpow_add (by decide), show ((1 : Int) : Rat) = 1 from rfl, Rat.one_mul, Int.add_comm]
      have hl : ilog2 ((n : Rat) * (2 : Rat) ^ k) = k + 53 := by
        have hp' := two_zpow_pos (k + 53)
        refine ilog2_unique ?_ ?_
        · rw [e, show ((1 : Int) : Rat) = 1 from rfl, Rat.one_mul]
          exact Rat.le_refl
        · rw [e, show ((1 : Int) : Rat) = 1 from rfl, Rat.one_mul, two_zpow_succ]
          grind
      exact f64_exact hx e (by rw [hl]; omega)
    · refine f64_exact hx rfl ?_
      have h1 := (ilog2_spec hx).1
      have h2 : (n : Rat) < ((2 ^ 53 : Int) : Rat) := Rat.intCast_lt_intCast.2 (by omega)
      have h3 : (n : Rat) * (2 : Rat) ^ k < (2 : Rat) ^ (k + 53) := by
        have : ((2 ^ 53 : Int) : Rat) = (2 : Rat) ^ (53 : Int) := by decide +kernel
        rw [Int.add_comm, Rat.zpow_add (by decide), ← this]
        exact Rat.mul_lt_mul_of_pos_right h2 hp
      have := two_zpow_lt_iff.1 (rat_lt_of_le_of_lt h1 h3)
      omega

theorem f64_nat {n : Nat} (h : n ≤ 2 ^ 53) : f64 n = n := by
  have := @f64_mul_two_zpow n 0 (by omega) (by omega)
  rw [Rat.zpow_zero, Rat.mul_one] at this
  exact this

theorem f64_two_zpow_le {x : Rat} (hx : 0 < x) : (2 : Rat) ^ ilog2 x ≤ f64 x := by
  obtain ⟨m, _, h2, _, h4⟩ := f64_scale hx
  have h5 := Rat.intCast_le_intCast.2 (le_roundEven h2)
  have h6 := Rat.mul_le_mul_of_nonneg_right h5 (Rat.le_of_lt (two_zpow_pos (ilog2 x - 52)))
  rw [h4]
  have : ((2 ^ 52 : Int) : Rat) = (2 : Rat) ^ (52 : Int) := by decide +kernel
  rw [this, ← Rat.zpow_add (by decide), show (52 + (ilog2 x - 52)) = ilog2 x by omega] at h6
  exact h6

theorem f64_le_two_zpow {x : Rat} (hx : 0 < x) : f64 x ≤ (2 : Rat) ^ (ilog2 x + 1) := by
  obtain ⟨m, _, _, h3, h4⟩ := f64_scale hx
  have h5 := Rat.intCast_le_intCast.2 (roundEven_le (Rat.le_of_lt h3))
  have h6 := Rat.mul_le_mul_of_nonneg_right h5 (Rat.le_of_lt (two_zpow_pos (ilog2 x - 52)))
  rw [h4]
  have : ((2 ^ 53 : Int) : Rat) = (2 : Rat) ^ (53 : Int) := by decide +kernel
  rw [this, ← Rat.zpow_add (by decide), show (53 + (ilog2 x - 52)) = ilog2 x + 1 by omega] at h6
  exact h6

theorem f64_pos {x : Rat} (hx : 0 < x) : 0 < f64 x := rat_lt_of_lt_of_le (two_zpow_pos _) (f64_two_zpow_le hx)

theorem f64_nonneg {x : Rat} (hx : 0 ≤ x) : 0 ≤ f64 x := by
  by_cases h : x = 0
  · subst h
    exact Rat.le_refl
  · exact Rat.le_of_lt (f64_pos (by grind))

theorem f64_mono {x y : Rat} (hx : 0 ≤ x) (h : x ≤ y) : f64 x ≤ f64 y := by
  by_cases h0 : x = 0
  · subst h0
    rw [f64_zero]
    exact f64_nonneg h
  · have hx' : 0 < x := by grind
    have hy : 0 < y := rat_lt_of_lt_of_le hx' h
    by_cases he : ilog2 x = ilog2 y
    · obtain ⟨m, h1, _, _, h4⟩ := f64_scale hx'
      obtain ⟨m', h1', _, _, h4'⟩ := f64_scale hy
      rw [h4, h4', he]
      rw [he] at h1
      have hp := two_zpow_pos (ilog2 y - 52)
      have hm : m ≤ m' := by
        refine Rat.le_of_mul_le_mul_right ?_ hp
        rw [← h1, ← h1']
        exact h
      exact Rat.mul_le_mul_of_nonneg_right (Rat.intCast_le_intCast.2 (roundEven_mono hm)) (Rat.le_of_lt hp)
    · have := ilog2_mono hx' h
      exact Rat.le_trans (f64_le_two_zpow hx') (Rat.le_trans (two_zpow_mono (by omega)) (f64_two_zpow_le hy))

/-- The unit roundoff. -/
def ulp2 : Rat := 1 / 2 ^ 53

theorem f64_near {x : Rat} (hx : 0 ≤ x) : x - x * ulp2 ≤ f64 x ∧ f64 x ≤ x + x * ulp2 := by
  by_cases h0 : x = 0
  · subst h0
    rw [f64_zero, Rat.zero_mul]
    grind
  · have hx' : 0 < x := by grind
    obtain ⟨m, h1, h2, _, h4⟩ := f64_scale hx'
    obtain ⟨a, b⟩ := roundEven_near m
    have hp := two_zpow_pos (ilog2 x - 52)
    have c : (1 / 2 : Rat) ≤ m * ulp2 := by
      have := Rat.mul_le_mul_of_nonneg_right h2 (show 0 ≤ ulp2 by decide +kernel)
      rwa [show ((2 ^ 52 : Int) : Rat) * ulp2 = 1 / 2 by decide +kernel] at this
    have a' : m - m * ulp2 ≤ roundEven m := by grind
    have b' : (roundEven m : Rat) ≤ m + m * ulp2 := by grind
    have a2 := Rat.mul_le_mul_of_nonneg_right a' (Rat.le_of_lt hp)
    have b2 := Rat.mul_le_mul_of_nonneg_right b' (Rat.le_of_lt hp)
    rw [h4]
    generalize (roundEven m : Rat) * (2 : Rat) ^ (ilog2 x - 52) = r at *
    generalize (2 : Rat) ^ (ilog2 x - 52) = p at *
    subst h1
    constructor
    · grind
    · grind

theorem f64_idem {x : Rat} (hx : 0 ≤ x) : f64 (f64 x) = f64 x := by
  by_cases h0 : x = 0
  · subst h0; rfl
  · have hx' : 0 < x := by grind
    obtain ⟨m, _, h2, h3, h4⟩ := f64_scale hx'
    rw [h4]
    exact f64_mul_two_zpow (Int.le_trans (by decide) (le_roundEven h2)) (roundEven_le (Rat.le_of_lt h3))

/-- No `float64` is nearer. -/
theorem f64_nearest {x : Rat} (hx : 0 ≤ x) {n k : Int} (h0 : 0 ≤ n) (h : n ≤ 2 ^ 53) :
    let y := (n : Rat) * (2 : Rat) ^ k
    (f64 x - x ≤ y - x ∨ f64 x - x ≤ x - y) ∧ (x - f64 x ≤ y - x ∨ x - f64 x ≤ x - y) := by
  intro y
  have hy : f64 y = y := f64_mul_two_zpow h0 h
  have hy0 : 0 ≤ y := Rat.mul_nonneg (Rat.intCast_nonneg.2 h0) (Rat.le_of_lt (two_zpow_pos k))
  by_cases hz : x = 0
  · subst hz
    rw [f64_zero]
    grind
  · have hx' : 0 < x := by grind
    obtain ⟨m, h1, h2, h3, h4⟩ := f64_scale hx'
    obtain ⟨a, b⟩ := roundEven_near m
    have hp := two_zpow_pos (ilog2 x - 52)
    have hr := le_roundEven h2
    -- a `float64` is a multiple of the last place of `x`, or small
    have hm : (∃ i : Int, y = i * (2 : Rat) ^ (ilog2 x - 52)) ∨ y ≤ ((2 ^ 52 : Int) : Rat) * (2 : Rat) ^ (ilog2 x - 52) := by
      by_cases hk : ilog2 x - 52 ≤ k
      · obtain ⟨t, ht⟩ := Int.le.dest hk
        refine .inl ⟨n * 2 ^ t, ?_⟩
        rw [Rat.intCast_mul, Rat.intCast_pow, Rat.mul_assoc]
        have : (((2 : Int) : Rat)) ^ t = (2 : Rat) ^ (t : Int) := by rw [Rat.zpow_natCast]; rfl
        rw [this, ← Rat.zpow_add (by decide), show ((t : Int) + (ilog2 x - 52)) = k by omega]
      · right
        have e1 := Rat.mul_le_mul_of_nonneg_right (Rat.intCast_le_intCast.2 h) (Rat.le_of_lt (two_zpow_pos k))
        have e2 := two_zpow_mono (show k + 1 ≤ ilog2 x - 52 by omega)
        rw [two_zpow_succ] at e2
        rw [show ((2 ^ 53 : Int) : Rat) = ((2 ^ 52 : Int) : Rat) * 2 by decide +kernel] at e1
        have e3 := Rat.mul_le_mul_of_nonneg_left e2 (show (0 : Rat) ≤ ((2 ^ 52 : Int) : Rat) by decide +kernel)
        refine Rat.le_trans e1 ?_
        rw [Rat.mul_assoc]
        exact e3
    rw [h4]
    generalize (2 : Rat) ^ (ilog2 x - 52) = p at *
    have a2 := Rat.mul_le_mul_of_nonneg_right a (Rat.le_of_lt hp)
    have b2 := Rat.mul_le_mul_of_nonneg_right b (Rat.le_of_lt hp)
    have up : ∀ i : Int, (roundEven m < i → (roundEven m : Rat) * p + p ≤ i * p) ∧ (i < roundEven m → (i : Rat) * p + p ≤ roundEven m * p) := by
      intro i
      constructor
      · intro hi
        have := Rat.mul_le_mul_of_nonneg_right (Rat.intCast_le_intCast.2 (show roundEven m + 1 ≤ i by omega)) (Rat.le_of_lt hp)
        rw [Rat.intCast_add, show ((1 : Int) : Rat) = 1 from rfl] at this
        grind
      · intro hi
        have := Rat.mul_le_mul_of_nonneg_right (Rat.intCast_le_intCast.2 (show i + 1 ≤ roundEven m by omega)) (Rat.le_of_lt hp)
        rw [Rat.intCast_add, show ((1 : Int) : Rat) = 1 from rfl] at this
        grind
    have lo := Rat.mul_le_mul_of_nonneg_right (Rat.intCast_le_intCast.2 hr) (Rat.le_of_lt hp)
    have lox := Rat.mul_le_mul_of_nonneg_right h2 (Rat.le_of_lt hp)
    rw [← h1] at lox
    have dx : (m - 1 / 2) * p = x - p / 2 ∧ (m + 1 / 2) * p = x + p / 2 := by
      rw [h1]; constructor <;> grind
    rw [dx.1] at a2
    rw [dx.2] at b2
    rcases hm with ⟨i, hi⟩ | hi
    · rcases Int.lt_trichotomy (roundEven m) i with hlt | heq | hgt
      · have := (up i).1 hlt
        rw [← hi] at this
        grind
      · subst heq
        rw [hi]
        grind
      · have := (up i).2 hgt
        rw [← hi] at this
        grind
    · by_cases he : roundEven m = 2 ^ 52
      · rw [he] at lo a2 b2 ⊢
        grind
      · have := (up (2 ^ 52)).2 (by omega)
        grind

end Verif
