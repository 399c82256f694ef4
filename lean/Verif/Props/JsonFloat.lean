import Verif.Proofs.JsonFloat
import Verif.Proofs.Float
import Verif.Props.JsonText

/-!
# C82: floating-point numbers in JSON

`FromPrettyJSON` writes a `float64` or `float32` with digits from which a reader that rounds correctly gets the number again; very small and very large numbers are
written with an exponent, all others without.  Infinities and what is not a number make it panic.
-/

set_option autoImplicit false

namespace Verif
open Spec.Json Json

theorem float_num {rnd : Rat → Rat} {x : Flt} (h : Reads rnd x) :
    ∃ (m : Nat) (e : Int), NumText (floatText rnd x) (if x.neg then -(m : Int) else m) e ∧ (m : Rat) * (10 : Rat) ^ e = x.value := by
  unfold floatText
  split
  · rename_i hc
    exact ⟨_, _, fmtE_num h.digits h.first (fun he => hc.1 (h.zero.1 he)) h.range, rfl⟩
  · exact fmtF_num h.digits h.first h.zeroPoint

/-- **C82.** What is written for a number is, as JSON, exactly the number that the digits stand for; with its sign. -/
theorem C82_exact {rnd : Rat → Rat} {x : Flt} (h : Reads rnd x) :
    ∃ m e : Int, Means (ofFloat rnd (.finite x)) (.num m e) ∧ (m : Rat) * (10 : Rat) ^ e = if x.neg then -x.value else x.value := by
  obtain ⟨m, e, h1, h2⟩ := float_num h
  refine ⟨_, e, num_means h1, ?_⟩
  cases x.neg
  · simp only [Bool.false_eq_true, if_false]
    rw [← h2]
    rfl
  · simp only [if_true]
    rw [← h2, Rat.intCast_neg, Rat.neg_mul]
    rfl

theorem float_value_ne {rnd : Rat → Rat} {x : Flt} (h : Reads rnd x) (h0 : x.abs ≠ 0) : 0 < x.value :=
  rat_lt_of_lt_of_le (ten_pos _) (value_between h.digits h.first fun he => h0 (h.zero.1 he)).1

theorem float_back {rnd : Rat → Rat} {x : Flt} (h : Reads rnd x) :
    ∃ m e : Int, NumText (floatText rnd x) m e ∧ rnd ((m.natAbs : Rat) * (10 : Rat) ^ e) = x.abs ∧ (x.abs ≠ 0 → (m < 0 ↔ x.neg = true)) := by
  obtain ⟨m, e, h1, h2⟩ := float_num h
  refine ⟨_, e, h1, ?_, ?_⟩
  · have : (if x.neg = true then -(m : Int) else m).natAbs = m := by cases x.neg <;> simp
    rw [this, h2]
    exact h.rounds
  · intro h0
    have hm : m ≠ 0 := by
      rintro rfl
      have := float_value_ne h h0
      rw [← h2] at this
      simp at this
    cases hn : x.neg
    · simp
    · simp; omega

/-- **C82.** A client that reads the Body as JSON, and rounds the number that it finds, gets the number of the value. -/
theorem C82_read {rnd : Rat → Rat} {x : Flt} (h : Reads rnd x) :
    ∃ raw, fromPrettyJSONOf (ofFloat rnd (.finite x)) = .ret (fromBytes raw) ∧ ∃ m e : Int, (∀ j, Says raw j ↔ j = .num m e) ∧
      rnd ((m.natAbs : Rat) * (10 : Rat) ^ e) = x.abs ∧ (x.abs ≠ 0 → (m < 0 ↔ x.neg = true)) := by
  obtain ⟨m, e, h1, h2, h3⟩ := float_back h
  obtain ⟨raw, a1, -, a2⟩ := C79_means (v := ofFloat rnd (.finite x)) (.number _) (.number _) (num_means h1) (by simp [ofFloat, depth])
  exact ⟨raw, a1, m, e, a2, h2, h3⟩

/-- **C82.** The bytes: the text of the number, and a line end. -/
theorem C82_served {rnd : Rat → Rat} {x : Flt} (h : Reads rnd x) :
    fromPrettyJSONOf (ofFloat rnd (.finite x)) = .ret (fromBytes (floatText rnd x ++ [13, 10])) := by
  obtain ⟨m, e, h1, -⟩ := float_num h
  obtain ⟨T, a1, a2, a3⟩ := C79_layout (v := ofFloat rnd (.finite x)) (.number _) (num_means h1) (by simp [ofFloat, depth])
  cases a1 with
  | lit t _ _ _ =>
    have hm : marshal (ofFloat rnd (.finite x)) = .ok (floatText rnd x) := by
      have hne : floatText rnd x ≠ [] := by
        obtain ⟨b, l, hb, -⟩ := h1.first
        rw [hb]; simp
      rw [ofFloat, marshal]
      simp only [if_neg hne, num_valid h1, if_true]
    rw [a2] at hm
    have ht : t = floatText rnd x := by simpa [oneLine, lay] using hm
    rw [a3, ht]
    rfl

/-- **C82.** Different numbers have different texts. -/
theorem C82_distinct {rnd : Rat → Rat} {x y : Flt} (hx : Reads rnd x) (hy : Reads rnd y) (h : floatText rnd x = floatText rnd y) :
    x.abs = y.abs ∧ (x.abs ≠ 0 → x.neg = y.neg) := by
  obtain ⟨m, e, h1, h2, h3⟩ := float_back hx
  obtain ⟨m', e', k1, k2, k3⟩ := float_back hy
  rw [← h] at k1
  have := means_unique (.number _) (num_means h1) (num_means k1)
  injection this with hm he
  subst hm he
  have ha : x.abs = y.abs := h2.symm.trans k2
  refine ⟨ha, fun h0 => ?_⟩
  have a := h3 h0
  have b := k3 (ha ▸ h0)
  rw [Bool.eq_iff_iff, ← a, ← b]

theorem fmtF_plain {x : Flt} (h : ∀ b ∈ x.digits, 48 ≤ b.toNat ∧ b.toNat ≤ 57) : Plain (fmtF x) := by
  obtain ⟨int, d, h1, h2⟩ := fmtF_parts x
  have key : ∀ b : Byte, digit b = true → b ≠ 101 ∧ b ≠ 69 := fun b hb => ⟨(digit_byte hb).2.2.2.1, (digit_byte hb).2.2.2.2⟩
  have hd : ∀ b ∈ x.digits, digit b = true := fun b hb => digit_of (h b hb)
  have all : (∀ b ∈ int, digit b = true) ∧ ∀ b ∈ d, digit b = true := by
    rcases h2 with ⟨-, rfl, rfl⟩ | ⟨-, -, rfl, rfl⟩ | ⟨-, -, rfl, rfl⟩
    · exact ⟨by simp [digit], mem_app zeros_digit hd⟩
    · exact ⟨fun b hb => hd b (List.mem_of_mem_take hb), fun b hb => hd b (List.mem_of_mem_drop hb)⟩
    · exact ⟨mem_app hd zeros_digit, by simp⟩
  rw [h1]
  refine mem_app (mem_app ?_ fun b hb => key b (all.1 b hb)) ?_
  · cases x.neg <;> simp
  · split
    · simp
    · exact mem_con (by decide) fun b hb => key b (all.2 b hb)

/-- **C82.** How a number is written: with an exponent exactly if it is below 10⁻⁶ or at least 10²¹ (as rounded), and not zero. -/
theorem C82_form {rnd : Rat → Rat} (hm : Rounding rnd) {x : Flt} (h : Reads rnd x) :
    if x.abs = 0 ∨ rnd (1 / 10 ^ 6) ≤ x.abs ∧ x.abs < rnd (10 ^ 21) then Plain (floatText rnd x) else Scientific (floatText rnd x) := by
  by_cases hc : x.abs ≠ 0 ∧ (x.abs < rnd (1 / 10 ^ 6) ∨ x.abs ≥ rnd (10 ^ 21))
  · rw [if_neg]
    · unfold floatText
      rw [if_pos hc]
      have hne : x.digits ≠ [] := fun he => hc.1 (h.zero.1 he)
      have hv := value_between h.digits h.first hne
      have hpos := float_value_ne h hc.1
      have hexp : x.dp - 1 < 0 ∨ 10 ≤ x.dp - 1 := by
        rcases hc.2 with hc | hc
        · left
          have : x.value < 1 / 10 ^ 6 := by
            rw [← Rat.not_le]
            intro hle
            have := hm.mono _ _ (by decide +kernel) hle
            rw [h.rounds] at this
            exact absurd hc (Rat.not_lt.2 this)
          have hle := rat_lt_of_le_of_lt hv.1 this
          false_or_by_contra
          have := rat_lt_of_le_of_lt (one_le_ten (show 0 ≤ x.dp - 1 by omega)) hle
          exact absurd this (by decide +kernel)
        · right
          false_or_by_contra
          have h1 := ten_le_ten (show x.dp ≤ 10 by omega)
          have h2 := hm.mono _ _ (Rat.le_of_lt hpos) (Rat.le_of_lt (rat_lt_of_lt_of_le hv.2 h1))
          rw [h.rounds] at h2
          exact absurd hm.apart (Rat.not_lt.2 (Rat.le_trans hc h2))
      cases hd : x.digits with
      | nil => exact absurd hd hne
      | cons b l =>
        obtain ⟨s, d, e1, e2, e3, e4, e5, e6⟩ := fmtE_parts hd h.range
        have hb := h.digits b (by rw [hd]; exact List.mem_cons_self)
        have hb' : b.toNat ≠ 48 := fun he => h.first (by rw [hd, List.head?_cons, show b = 48 from UInt8.toNat_inj.1 he])
        refine ⟨if x.neg then [45] else [], b, if l = [] then [] else 46 :: l, s, d, by rw [e1]; simp, ?_, ⟨by omega, hb.2⟩, ?_, ?_, e2, e3, e6 hexp⟩
        · cases x.neg <;> simp
        · by_cases hl : l = []
          · exact .inl (by simp [hl])
          · exact .inr ⟨l, hl, by simp [hl], fun c hc => h.digits c (by rw [hd]; exact List.mem_cons_of_mem _ hc)⟩
        · rcases e5 with ⟨rfl, -⟩ | ⟨rfl, -⟩ <;> simp
    · grind
  · rw [if_pos]
    · unfold floatText
      rw [if_neg hc]
      exact fmtF_plain h.digits
    · grind

/-- **C82.** A value with an infinite number in it, or with something that is not a number, makes `FromJSON` and `FromPrettyJSON` panic. -/
theorem C82_special {rnd : Rat → Rat} {v : JVal} (h : Within (ofFloat rnd .special) v) :
    (∃ e, fromPrettyJSONOf v = .panic (.error e)) ∧ ∃ e, fromJSONOf v = .panic (.error e) := by
  cases hm : marshal v with
  | ok u =>
    obtain ⟨t, ht⟩ := marshal_within h ⟨u, hm⟩
    rw [ofFloat, marshal] at ht
    cases ht
  | error e =>
    have he : ∀ b, encoder v b = .error e := fun b => by rw [encoder, encode, hm]
    exact ⟨⟨e, C25_encoder_error _ _ (he true)⟩, e, by rw [fromJSONOf, fromJSON, fromJSONImpl, he]⟩

/-! ## Examples -/

namespace FloatExamples

/-- 0.1, 1e21, -1.5e-7, -0, 2^67 -/
def tenth : Flt := { abs := f64 (1 / 10), digits := lit "1", dp := 0 }
def large : Flt := { abs := f64 (10 ^ 21), digits := lit "1", dp := 22 }
def small : Flt := { neg := true, abs := f64 (15 / 10 ^ 8), digits := lit "15", dp := -6 }
def minusZero : Flt := { neg := true, abs := 0, digits := [], dp := 0 }
def power : Flt := { abs := 2 ^ 67, digits := lit "14757395258967641", dp := 21 }

example : floatText f64 tenth = lit "0.1" ∧ floatText f64 large = lit "1e+21" ∧ floatText f64 small = lit "-1.5e-7" ∧ floatText f64 minusZero = lit "-0" ∧
    floatText f64 power = lit "147573952589676410000" := by decide +kernel

theorem f64_rounding : Rounding f64 := ⟨fun _ _ => f64_mono, by decide +kernel⟩

theorem small_reads : Reads f64 small where
  digits := by decide +kernel
  first := by decide +kernel
  zero := by decide +kernel
  zeroPoint := by decide +kernel
  range := by decide
  rounds := by decide +kernel

theorem power_reads : Reads f64 power where
  digits := by decide +kernel
  first := by decide +kernel
  zero := by decide +kernel
  zeroPoint := by decide +kernel
  range := by decide
  rounds := by decide +kernel

example : Scientific (lit "-1.5e-7") := by
  have := C82_form f64_rounding small_reads
  rw [if_neg (by decide +kernel), show floatText f64 small = lit "-1.5e-7" by decide +kernel] at this
  exact this

/-- Inside of other values. -/
example : fromPrettyJSONOf (.arr [ofFloat f64 (.finite tenth), ofFloat f64 (.finite power)]) =
    .ret (fromBytes (lit "[\r\n  0.1,\r\n  147573952589676410000\r\n]\r\n")) := by decide +kernel

example : ∃ e, fromPrettyJSONOf (.struct [(lit "ratio", ofFloat f64 .special)]) = .panic (.error e) := (C82_special (rnd := f64) (.struct List.mem_cons_self (.here _))).1

end FloatExamples

end Verif
