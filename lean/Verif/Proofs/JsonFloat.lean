import Verif.Spec.JsonFloat
import Verif.Proofs.JsonNest
import Verif.Proofs.JsonValue

/-! # The text of floating-point numbers -/

set_option autoImplicit false

namespace Verif.Json
open Verif.Spec.Json

/-! ## Decimal numbers -/

def dec (d : GoStr) : Nat := Spec.Json.decimal (d.map chr)

theorem dec_foldl (d : GoStr) : dec d = d.foldl (fun a b => 10 * a + (b.toNat - 48)) 0 := by
  unfold dec Spec.Json.decimal
  rw [List.foldl_map]
  simp only [chr_toNat]

theorem foldl_start (d : GoStr) (n : Nat) : d.foldl (fun a b => 10 * a + (b.toNat - 48)) n = n * 10 ^ d.length + dec d := by
  rw [dec_foldl]
  induction d generalizing n with
  | nil => simp
  | cons b d ih =>
    rw [List.foldl_cons, List.foldl_cons, ih, ih (10 * 0 + _), List.length_cons, Nat.pow_succ]
    simp only [Nat.mul_zero, Nat.zero_add, Nat.add_mul]
    have : 10 * n * 10 ^ d.length = n * (10 ^ d.length * 10) := by
      rw [Nat.mul_comm 10 n, Nat.mul_assoc, Nat.mul_comm 10]
    omega

theorem dec_append (a b : GoStr) : dec (a ++ b) = dec a * 10 ^ b.length + dec b := by
  rw [dec_foldl (a ++ b), List.foldl_append, ← dec_foldl a, foldl_start]

theorem dec_zeros (k : Nat) : dec (List.replicate k 48) = 0 := by
  induction k with
  | zero => rfl
  | succ k ih =>
    rw [List.replicate_succ, ← List.singleton_append, dec_append, ih, show dec [48] = 0 from rfl, Nat.zero_mul]

theorem dec_lt (d : GoStr) (h : ∀ b ∈ d, 48 ≤ b.toNat ∧ b.toNat ≤ 57) : dec d < 10 ^ d.length := by
  induction d with
  | nil => decide
  | cons b d ih =>
    have h1 := ih fun c hc => h c (List.mem_cons_of_mem _ hc)
    have h2 := h b List.mem_cons_self
    rw [← List.singleton_append, dec_append, List.length_append, List.length_singleton, Nat.pow_add]
    have : dec [b] = b.toNat - 48 := by rw [dec_foldl]; simp
    rw [this]
    have : (b.toNat - 48) * 10 ^ d.length ≤ 9 * 10 ^ d.length := Nat.mul_le_mul_right _ (by omega)
    omega

theorem dec_ge (b : Byte) (d : GoStr) (h : 49 ≤ b.toNat) : 10 ^ d.length ≤ dec (b :: d) := by
  rw [← List.singleton_append, dec_append]
  have : dec [b] = b.toNat - 48 := by rw [dec_foldl]; simp
  rw [this]
  have := Nat.mul_le_mul_right (10 ^ d.length) (show 1 ≤ b.toNat - 48 by omega)
  omega

/-! ## `%f` -/

theorem frac_small {ds : GoStr} {dp : Int} (h : dp ≤ 0) :
    (List.range (ds.length - dp).toNat).map (fun (i : Nat) => if 0 ≤ dp + i ∧ dp + i < ds.length then ds.getD (dp + i).toNat 48 else 48) =
      List.replicate dp.natAbs 48 ++ ds := by
  apply List.ext_getElem
  · simp; omega
  · intro i h1 h2
    simp only [List.getElem_map, List.getElem_range]
    simp only [List.length_map, List.length_range] at h1
    by_cases hi : i < dp.natAbs
    · rw [if_neg (by omega), List.getElem_append_left (by simpa using hi), List.getElem_replicate]
    · rw [if_pos (by omega), List.getElem_append_right (by simpa using hi)]
      rw [List.getD_eq_getElem?_getD, List.getElem?_eq_getElem (by omega), Option.getD_some]
      congr 1
      simp only [List.length_replicate]
      omega

theorem frac_mid {ds : GoStr} {dp : Int} (h : 0 < dp) (h' : dp < ds.length) :
    (List.range (ds.length - dp).toNat).map (fun (i : Nat) => if 0 ≤ dp + i ∧ dp + i < ds.length then ds.getD (dp + i).toNat 48 else 48) =
      ds.drop dp.toNat := by
  apply List.ext_getElem
  · simp; omega
  · intro i h1 h2
    simp only [List.getElem_map, List.getElem_range]
    simp only [List.length_map, List.length_range] at h1
    rw [if_pos (by omega), List.getElem_drop, List.getD_eq_getElem?_getD, List.getElem?_eq_getElem (by omega), Option.getD_some]
    congr 1
    omega

/-- The digits, without the sign: what is before the point, and what is after it. -/
theorem fmtF_parts (x : Flt) : ∃ int d, fmtF x = (if x.neg then [45] else []) ++ int ++ (if d = [] then [] else 46 :: d) ∧
    ((x.dp ≤ 0 ∧ int = [48] ∧ d = List.replicate x.dp.natAbs 48 ++ x.digits) ∨
     (0 < x.dp ∧ x.dp < x.digits.length ∧ int = x.digits.take x.dp.toNat ∧ d = x.digits.drop x.dp.toNat) ∨
     (0 < x.dp ∧ x.digits.length ≤ x.dp ∧ int = x.digits ++ List.replicate (x.dp.toNat - x.digits.length) 48 ∧ d = [])) := by
  obtain ⟨neg, abs, ds, dp⟩ := x
  dsimp only
  by_cases h0 : dp ≤ 0
  · refine ⟨[48], List.replicate dp.natAbs 48 ++ ds, ?_, .inl ⟨h0, rfl, rfl⟩⟩
    unfold fmtF
    dsimp only
    rw [if_neg (show ¬ dp > 0 by omega), frac_small h0]
    congr 1
    by_cases he : List.replicate dp.natAbs 48 ++ ds = []
    · rw [if_pos he, if_neg]
      have := congrArg List.length he
      simp only [List.length_append, List.length_replicate, List.length_nil, List.length_take, List.length_drop] at this
      omega
    · rw [if_neg he, if_pos]
      have : 0 < (List.replicate dp.natAbs 48 ++ ds).length := List.length_pos_iff.2 he
      simp at this
      omega
  · by_cases h1 : dp < ds.length
    · refine ⟨ds.take dp.toNat, ds.drop dp.toNat, ?_, .inr (.inl ⟨by omega, h1, rfl, rfl⟩)⟩
      unfold fmtF
      dsimp only
      rw [if_pos (show dp > 0 by omega), frac_mid (by omega) h1, if_pos (show (ds.length - dp).toNat > 0 by omega), if_neg (show ¬ ds.drop dp.toNat = [] from ?_), show dp.toNat - ds.length = 0 by omega]
      · simp
      · intro he
        have := congrArg List.length he
        simp at this
        omega
    · refine ⟨ds ++ List.replicate (dp.toNat - ds.length) 48, [], ?_, .inr (.inr ⟨by omega, by omega, rfl, rfl⟩)⟩
      unfold fmtF
      dsimp only
      rw [if_pos (show dp > 0 by omega), if_neg (show ¬ (ds.length - dp).toNat > 0 by omega), if_pos rfl, List.take_of_length_le (by omega)]

theorem digit_of {b : Byte} (h : 48 ≤ b.toNat ∧ b.toNat ≤ 57) : digit b = true := (Json.digit_iff b).2 h

theorem zeros_digit {k : Nat} : ∀ b ∈ List.replicate k (48 : Byte), digit b = true := by
  intro b hb
  rw [List.eq_of_mem_replicate hb]
  rfl

/-- `%f` writes a number, namely this one. -/
theorem fmtF_num {x : Flt} (h1 : ∀ b ∈ x.digits, 48 ≤ b.toNat ∧ b.toNat ≤ 57) (h2 : x.digits.head? ≠ some 48)
    (h0 : x.digits = [] → x.dp = 0) :
    ∃ (m : Nat) (e : Int), NumText (fmtF x) (if x.neg then -(m : Int) else m) e ∧ (m : Rat) * (10 : Rat) ^ e = (dec x.digits : Rat) * (10 : Rat) ^ (x.dp - x.digits.length) := by
  obtain ⟨int, d, h3, h4⟩ := fmtF_parts x
  have hd : ∀ b ∈ x.digits, digit b = true := fun b hb => digit_of (h1 b hb)
  have num : ∀ (hi : IntPart int) (hd : ∀ b ∈ d, digit b = true), NumText (fmtF x) (if x.neg then -(dec (int ++ d) : Int) else dec (int ++ d)) (-d.length) := by
    intro hi hd
    refine ⟨x.neg, int, if d = [] then [] else 46 :: d, d, [], 0, hi, ?_, .inl ⟨rfl, rfl⟩, by rw [h3]; simp, rfl, by omega⟩
    by_cases he : d = []
    · exact .inl ⟨by simp [he], he⟩
    · exact .inr ⟨⟨he, hd⟩, by simp [he]⟩
  rcases h4 with ⟨a1, rfl, rfl⟩ | ⟨a1, a2, rfl, rfl⟩ | ⟨a1, a2, rfl, rfl⟩
  · refine ⟨dec x.digits, x.dp - x.digits.length, ?_, rfl⟩
    have := num ⟨⟨by simp, by simp [digit]⟩, fun _ => rfl⟩ (by
      intro b hb
      rcases List.mem_append.1 hb with hb | hb
      · exact zeros_digit b hb
      · exact hd b hb)
    rw [dec_append, dec_append, dec_zeros, show dec [48] = 0 from rfl] at this
    simp only [List.length_append, List.length_replicate, Nat.zero_mul, Nat.zero_add] at this
    rw [show (x.dp - x.digits.length : Int) = -((x.dp.natAbs + x.digits.length : Nat) : Int) by omega]
    exact this
  · refine ⟨dec x.digits, x.dp - x.digits.length, ?_, rfl⟩
    have := num ⟨⟨by
        intro he
        have := congrArg List.length he
        simp only [List.length_append, List.length_replicate, List.length_nil, List.length_take, List.length_drop] at this
        omega, fun b hb => hd b (List.mem_of_mem_take hb)⟩, fun he => by
        rw [List.head?_take] at he
        split at he
        · cases he
        · exact absurd he h2⟩ fun b hb => hd b (List.mem_of_mem_drop hb)
    rw [List.take_append_drop, List.length_drop] at this
    rw [show (x.dp - x.digits.length : Int) = -((x.digits.length - x.dp.toNat : Nat) : Int) by omega]
    exact this
  · refine ⟨dec x.digits * 10 ^ (x.dp.toNat - x.digits.length), 0, ?_, ?_⟩
    · have hne : x.digits ≠ [] := fun h => by have := h0 h; omega
      have := num ⟨⟨by simp [hne], by
          intro b hb
          rcases List.mem_append.1 hb with hb | hb
          · exact hd b hb
          · exact zeros_digit b hb⟩, fun he => by
          revert he
          cases hx : x.digits with
          | nil => exact absurd hx hne
          | cons b l =>
            intro he
            rw [hx] at h2
            exact absurd he h2⟩ (by simp)
      rw [List.append_nil, dec_append, dec_zeros, List.length_replicate] at this
      simpa using this
    · rw [Rat.zpow_zero, Rat.mul_one, show x.dp - (x.digits.length : Int) = ((x.dp.toNat - x.digits.length : Nat) : Int) by omega, Rat.zpow_natCast, Rat.natCast_mul,
        Rat.natCast_pow]
      rfl

/-! ## `%e` -/

theorem small_digit {n : Nat} (h : n < 10) : ((n + 48).toUInt8).toNat = n + 48 := by
  show (n + 48) % 256 = _
  omega

theorem expDigits_ok {n : Nat} (h : n < 1000) :
    expDigits n ≠ [] ∧ (∀ b ∈ expDigits n, 48 ≤ b.toNat ∧ b.toNat ≤ 57) ∧ dec (expDigits n) = n ∧ (10 ≤ n → (expDigits n).head? ≠ some 48) := by
  have hz : ((48 : Byte)).toNat = 48 := rfl
  have ne : ∀ {k : Nat}, k < 10 → 0 < k → (k + 48).toUInt8 ≠ 48 := fun hk h0 he => by
    have := congrArg UInt8.toNat he
    rw [small_digit hk, hz] at this
    omega
  unfold expDigits
  by_cases h1 : n < 10
  · rw [if_pos h1]
    refine ⟨by simp, ?_, ?_, by omega⟩
    · intro b hb
      simp only [List.mem_cons, List.not_mem_nil, or_false] at hb
      rcases hb with rfl | rfl
      · decide
      · rw [small_digit h1]; omega
    · rw [dec_foldl]
      simp only [List.foldl_cons, List.foldl_nil, small_digit h1, hz]
      omega
  · rw [if_neg h1]
    by_cases h2 : n < 100
    · rw [if_pos h2]
      have a1 := small_digit (show n / 10 < 10 by omega)
      have a2 := small_digit (show n % 10 < 10 by omega)
      refine ⟨by simp, ?_, ?_, fun _ => ?_⟩
      · intro b hb
        simp only [List.mem_cons, List.not_mem_nil, or_false] at hb
        rcases hb with rfl | rfl
        · rw [a1]; omega
        · rw [a2]; omega
      · rw [dec_foldl]
        simp only [List.foldl_cons, List.foldl_nil, a1, a2]
        omega
      · rw [List.head?_cons]
        intro he
        exact ne (show n / 10 < 10 by omega) (by omega) (Option.some.inj he)
    · rw [if_neg h2]
      have a1 := small_digit (show n / 100 < 10 by omega)
      have a2 := small_digit (show n / 10 % 10 < 10 by omega)
      have a3 := small_digit (show n % 10 < 10 by omega)
      refine ⟨by simp, ?_, ?_, fun _ => ?_⟩
      · intro b hb
        simp only [List.mem_cons, List.not_mem_nil, or_false] at hb
        rcases hb with rfl | rfl | rfl
        · rw [a1]; omega
        · rw [a2]; omega
        · rw [a3]; omega
      · rw [dec_foldl]
        simp only [List.foldl_cons, List.foldl_nil, a1, a2, a3]
        omega
      · rw [List.head?_cons]
        intro he
        exact ne (show n / 100 < 10 by omega) (by omega) (Option.some.inj he)

theorem cleanExp_last (a : GoStr) (w x y z : Byte) :
    cleanExp (a ++ [w, x, y, z]) = if w = 101 ∧ x = 45 ∧ y = 48 then a ++ [w, x, z] else a ++ [w, x, y, z] := by
  have g : ∀ k, k < 4 → (a ++ [w, x, y, z]).getD ((a ++ [w, x, y, z]).length - (4 - k)) 0 = [w, x, y, z].getD k 0 := by
    intro k hk
    rw [List.length_append, show a.length + [w, x, y, z].length - (4 - k) = a.length + k by simp; omega]
    rw [List.getD_eq_getElem?_getD, List.getElem?_append_right (by omega), List.getD_eq_getElem?_getD]
    congr 2
    omega
  unfold cleanExp
  have g0 := g 0 (by omega)
  have g1 := g 1 (by omega)
  have g2 := g 2 (by omega)
  have g3 := g 3 (by omega)
  simp only [List.getD_cons_zero, List.getD_cons_succ, Nat.sub_zero, show 4 - 1 = 3 from rfl, show 4 - 2 = 2 from rfl, show 4 - 3 = 1 from rfl] at g0 g1 g2 g3
  dsimp only
  rw [g0, g1, g2, g3]
  have hl : (a ++ [w, x, y, z]).length ≥ 4 := by simp
  by_cases hc : w = 101 ∧ x = 45 ∧ y = 48
  · rw [if_pos ⟨hl, hc⟩, if_pos hc]
    rw [show (a ++ [w, x, y, z]).length - 2 = a.length + 2 by simp, List.take_length_add_append]
    simp
  · rw [if_neg fun h => hc h.2, if_neg hc]

/-- The exponent as it is written after the cleaning. -/
theorem clean_exp (a : GoStr) (s : Byte) {n : Nat} (hn : n < 1000) (hs : s = 43 ∨ s = 45) :
    ∃ d, cleanExp (a ++ 101 :: s :: expDigits n) = a ++ 101 :: s :: d ∧ d ≠ [] ∧ (∀ b ∈ d, 48 ≤ b.toNat ∧ b.toNat ≤ 57) ∧ dec d = n ∧
      (s = 45 ∧ n ≠ 0 ∨ 10 ≤ n → d.head? ≠ some 48) := by
  obtain ⟨h1, h2, h3, h4⟩ := expDigits_ok hn
  by_cases c1 : n < 10
  · have he : expDigits n = [48, (n + 48).toUInt8] := by unfold expDigits; rw [if_pos c1]
    rw [he] at h1 h2 h3
    rw [he, cleanExp_last]
    rcases hs with rfl | rfl
    · rw [if_neg (by decide)]
      exact ⟨_, rfl, h1, h2, h3, by rintro (⟨h, -⟩ | h); cases h; omega⟩
    · rw [if_pos ⟨rfl, rfl, rfl⟩]
      refine ⟨[(n + 48).toUInt8], by simp, by simp, fun b hb => h2 b (List.mem_cons_of_mem _ hb), ?_, ?_⟩
      · rwa [show [48, (n + 48).toUInt8] = [48] ++ [(n + 48).toUInt8] from rfl, dec_append, show dec [48] = 0 from rfl, Nat.zero_mul, Nat.zero_add] at h3
      · rintro h he
        have := congrArg UInt8.toNat (Option.some.inj he)
        rw [small_digit c1] at this
        have hz : ((48 : Byte)).toNat = 48 := rfl
        omega
  · have key : cleanExp (a ++ 101 :: s :: expDigits n) = a ++ 101 :: s :: expDigits n := by
      by_cases c2 : n < 100
      · have he : expDigits n = [(n / 10 + 48).toUInt8, (n % 10 + 48).toUInt8] := by unfold expDigits; rw [if_neg c1, if_pos c2]
        rw [he, cleanExp_last, if_neg]
        rintro ⟨-, -, h⟩
        rw [he, h] at h4
        exact h4 (by omega) rfl
      · have he : expDigits n = [(n / 100 + 48).toUInt8, (n / 10 % 10 + 48).toUInt8, (n % 10 + 48).toUInt8] := by unfold expDigits; rw [if_neg c1, if_neg c2]
        rw [he, show a ++ 101 :: s :: [(n / 100 + 48).toUInt8, (n / 10 % 10 + 48).toUInt8, (n % 10 + 48).toUInt8] =
          (a ++ [101]) ++ [s, (n / 100 + 48).toUInt8, (n / 10 % 10 + 48).toUInt8, (n % 10 + 48).toUInt8] by simp, cleanExp_last, if_neg]
        rintro ⟨h, -⟩
        rcases hs with rfl | rfl <;> cases h
    exact ⟨_, key, h1, h2, h3, fun _ => h4 (by omega)⟩

/-- What `%e` and the cleaning make of a number that is not zero. -/
theorem fmtE_parts {x : Flt} {b : Byte} {l : GoStr} (hd : x.digits = b :: l) (hr : x.dp.natAbs < 999) :
    ∃ s d, cleanExp (fmtE x) = (if x.neg then [45] else []) ++ [b] ++ (if l = [] then [] else 46 :: l) ++ 101 :: s :: d ∧
      d ≠ [] ∧ (∀ b ∈ d, 48 ≤ b.toNat ∧ b.toNat ≤ 57) ∧ dec d = (x.dp - 1).natAbs ∧
      (s = 45 ∧ x.dp - 1 < 0 ∨ s = 43 ∧ 0 ≤ x.dp - 1) ∧ (x.dp - 1 < 0 ∨ 10 ≤ x.dp - 1 → d.head? ≠ some 48) := by
  have he : fmtE x = ((if x.neg then [45] else []) ++ [b] ++ (if l = [] then [] else 46 :: l)) ++
      101 :: (if x.dp - 1 < 0 then 45 else 43) :: expDigits (x.dp - 1).natAbs := by
    unfold fmtE
    rw [hd]
    cases l <;> simp
  obtain ⟨d, h1, h2, h3, h4, h5⟩ := clean_exp ((if x.neg then [45] else []) ++ [b] ++ (if l = [] then [] else 46 :: l)) (if x.dp - 1 < 0 then 45 else 43)
    (n := (x.dp - 1).natAbs) (by omega) (by by_cases h : x.dp - 1 < 0 <;> simp [h])
  refine ⟨_, d, by rw [he, h1], h2, h3, h4, ?_, ?_⟩
  · by_cases h : x.dp - 1 < 0
    · exact .inl ⟨if_pos h, h⟩
    · exact .inr ⟨if_neg h, by omega⟩
  · rintro (h | h)
    · exact h5 (.inl ⟨if_pos h, by omega⟩)
    · exact h5 (.inr (by omega))

theorem fmtE_num {x : Flt} (h1 : ∀ b ∈ x.digits, 48 ≤ b.toNat ∧ b.toNat ≤ 57) (h2 : x.digits.head? ≠ some 48) (h0 : x.digits ≠ []) (hr : x.dp.natAbs < 999) :
    NumText (cleanExp (fmtE x)) (if x.neg then -(dec x.digits : Int) else dec x.digits) (x.dp - x.digits.length) := by
  cases hd : x.digits with
  | nil => exact absurd hd h0
  | cons b l =>
    obtain ⟨s, d, e1, e2, e3, e4, e5, -⟩ := fmtE_parts hd hr
    rw [hd] at h1 h2
    refine ⟨x.neg, [b], if l = [] then [] else 46 :: l, l, 101 :: s :: d, x.dp - 1, ⟨⟨by simp, ?_⟩, ?_⟩, ?_, ?_, by rw [e1], rfl, ?_⟩
    · intro c hc
      rw [List.mem_singleton.1 hc]
      exact digit_of (h1 b List.mem_cons_self)
    · intro h
      exact absurd h h2
    · by_cases hl : l = []
      · exact .inl ⟨by simp [hl], hl⟩
      · exact .inr ⟨⟨hl, fun c hc => digit_of (h1 c (List.mem_cons_of_mem _ hc))⟩, by simp [hl]⟩
    · refine .inr ⟨101, [s], d, .inl rfl, ⟨e2, fun c hc => digit_of (e3 c hc)⟩, rfl, ?_⟩
      unfold dec at e4
      rw [e4]
      rcases e5 with ⟨rfl, h⟩ | ⟨rfl, h⟩
      · exact .inr ⟨rfl, by omega⟩
      · exact .inl ⟨.inr rfl, by omega⟩
    · simp only [List.length_cons]
      omega

/-! ## Values and powers of ten -/

theorem ten_pos (k : Int) : 0 < (10 : Rat) ^ k := Rat.zpow_pos (by decide)

theorem one_le_ten {k : Int} (h : 0 ≤ k) : 1 ≤ (10 : Rat) ^ k := by
  obtain ⟨n, rfl⟩ := Int.eq_ofNat_of_zero_le h
  rw [Rat.zpow_natCast]
  have : ((1 : Nat) : Rat) ≤ ((10 ^ n : Nat) : Rat) := Rat.natCast_le_natCast.2 (Nat.one_le_pow _ _ (by omega))
  rwa [Rat.natCast_pow] at this

theorem ten_le_ten {k : Int} (h : k ≤ 10) : (10 : Rat) ^ k ≤ 10 ^ 10 := by
  have h1 := one_le_ten (show 0 ≤ 10 - k by omega)
  have h2 : (10 : Rat) ^ (10 : Int) = (10 : Rat) ^ (10 - k) * (10 : Rat) ^ k := by
    rw [← Rat.zpow_add (by decide)]
    congr 1
    omega
  have h3 := Rat.mul_le_mul_of_nonneg_right h1 (Rat.le_of_lt (ten_pos k))
  rw [Rat.one_mul, ← h2] at h3
  exact h3

theorem value_eq (x : Flt) : x.value = (dec x.digits : Rat) * (10 : Rat) ^ (x.dp - x.digits.length) := rfl

theorem ten_add (n : Nat) (k : Int) : (10 : Rat) ^ n * (10 : Rat) ^ k = (10 : Rat) ^ ((n : Int) + k) := by
  rw [Rat.zpow_add (by decide), Rat.zpow_natCast]

/-- The value is between two powers of ten, if the first digit is not zero. -/
theorem value_between {x : Flt} (h1 : ∀ b ∈ x.digits, 48 ≤ b.toNat ∧ b.toNat ≤ 57) (h2 : x.digits.head? ≠ some 48) (h0 : x.digits ≠ []) :
    (10 : Rat) ^ (x.dp - 1) ≤ x.value ∧ x.value < (10 : Rat) ^ x.dp := by
  have hlt := dec_lt _ h1
  cases hd : x.digits with
  | nil => exact absurd hd h0
  | cons b l =>
    rw [hd] at h1 h2
    have hb : 49 ≤ b.toNat := by
      have := (h1 b List.mem_cons_self).1
      have hne : b.toNat ≠ 48 := fun he => h2 (by rw [List.head?_cons, show b = 48 from UInt8.toNat_inj.1 he])
      omega
    have hge := dec_ge b l hb
    rw [← hd] at hge
    rw [value_eq]
    have p := ten_pos (x.dp - x.digits.length)
    have hl : x.digits.length = l.length + 1 := by rw [hd]; rfl
    constructor
    · rw [show x.dp - 1 = (l.length : Int) + (x.dp - x.digits.length) by omega, ← ten_add]
      refine Rat.mul_le_mul_of_nonneg_right ?_ (Rat.le_of_lt p)
      have : ((10 ^ l.length : Nat) : Rat) ≤ (dec x.digits : Rat) := Rat.natCast_le_natCast.2 hge
      rwa [Rat.natCast_pow] at this
    · have e : (10 : Rat) ^ x.dp = (10 : Rat) ^ x.digits.length * (10 : Rat) ^ (x.dp - x.digits.length) := by
        rw [ten_add]
        congr 1
        omega
      rw [e]
      refine Rat.mul_lt_mul_of_pos_right ?_ p
      have : (dec x.digits : Rat) < ((10 ^ x.digits.length : Nat) : Rat) := Rat.natCast_lt_natCast.2 hlt
      rwa [Rat.natCast_pow] at this

end Verif.Json
