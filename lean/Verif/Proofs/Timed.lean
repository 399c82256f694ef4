import Verif.Proofs.Float
import Verif.Proofs.Scrape
import Verif.Spec.Timed

/-! # Sums of rounded numbers -/

set_option autoImplicit false

namespace Verif
open Spec

/-- `x` is `t` after at most `m` roundings. -/
def Between (m : Nat) (t x : Rat) : Prop := (1 - ulp2) ^ m * t ≤ x ∧ x ≤ (1 + ulp2) ^ m * t

theorem ulp2_small : 0 < ulp2 ∧ ulp2 < 1 := by decide +kernel

theorem Between.refl (t : Rat) : Between 0 t t := by
  simp only [Between, Rat.pow_zero, Rat.one_mul]
  exact ⟨Rat.le_refl, Rat.le_refl⟩

theorem lo_pow_pos (m : Nat) : 0 < (1 - ulp2) ^ m := Rat.pow_pos (by decide +kernel)
theorem hi_pow_pos (m : Nat) : 0 < (1 + ulp2) ^ m := Rat.pow_pos (by decide +kernel)

theorem Between.nonneg {m : Nat} {t x : Rat} (h : Between m t x) (ht : 0 ≤ t) : 0 ≤ x :=
  Rat.le_trans (Rat.mul_nonneg (Rat.le_of_lt (lo_pow_pos m)) ht) h.1

theorem Between.round {m : Nat} {t x : Rat} (h : Between m t x) (ht : 0 ≤ t) : Between (m + 1) t (f64 x) := by
  obtain ⟨h1, h2⟩ := h
  have hx := Between.nonneg ⟨h1, h2⟩ ht
  obtain ⟨a, b⟩ := f64_near hx
  have c1 : 0 ≤ 1 - ulp2 := by decide +kernel
  have c2 : 0 ≤ 1 + ulp2 := by decide +kernel
  constructor
  · have := Rat.mul_le_mul_of_nonneg_right h1 c1
    rw [Rat.pow_succ]
    grind
  · have := Rat.mul_le_mul_of_nonneg_right h2 c2
    rw [Rat.pow_succ]
    grind

theorem Between.add {m : Nat} {s t x y : Rat} (h : Between m s x) (h' : Between m t y) : Between m (s + t) (x + y) := by
  obtain ⟨a, b⟩ := h
  obtain ⟨a', b'⟩ := h'
  simp only [Between, Rat.mul_add]
  grind

theorem Between.succ {m : Nat} {t x : Rat} (h : Between m t x) (ht : 0 ≤ t) : Between (m + 1) t x := by
  obtain ⟨h1, h2⟩ := h
  obtain ⟨u1, u2⟩ := ulp2_small
  have p1 := Rat.mul_nonneg (Rat.le_of_lt (lo_pow_pos m)) ht
  have p2 := Rat.mul_nonneg (Rat.le_of_lt (hi_pow_pos m)) ht
  have q1 := Rat.mul_nonneg p1 (Rat.le_of_lt u1)
  have q2 := Rat.mul_nonneg p2 (Rat.le_of_lt u1)
  simp only [Between, Rat.pow_succ]
  constructor
  · grind
  · grind

theorem Between.mono {m n : Nat} {t x : Rat} (h : Between m t x) (ht : 0 ≤ t) (hmn : m ≤ n) : Between n t x := by
  obtain ⟨k, rfl⟩ := Nat.le.dest hmn
  clear hmn
  induction k with
  | zero => exact h
  | succ k ih => exact ih.succ ht

theorem Between.mul {m : Nat} {t x c : Rat} (h : Between m t x) (hc : 0 ≤ c) : Between m (t * c) (x * c) := by
  obtain ⟨a, b⟩ := h
  have a' := Rat.mul_le_mul_of_nonneg_right a hc
  have b' := Rat.mul_le_mul_of_nonneg_right b hc
  simp only [Between, ← Rat.mul_assoc]
  exact ⟨a', b'⟩

theorem lo_pow_ge (m : Nat) : 1 - m * ulp2 ≤ (1 - ulp2) ^ m := by
  induction m with
  | zero => rw [Rat.pow_zero, show ((0 : Nat) : Rat) = 0 from rfl, Rat.zero_mul]; decide +kernel
  | succ m ih =>
    obtain ⟨u1, u2⟩ := ulp2_small
    have h1 := Rat.mul_le_mul_of_nonneg_right ih (show 0 ≤ 1 - ulp2 by decide +kernel)
    have h2 : (0 : Rat) ≤ m * ulp2 * ulp2 :=
      Rat.mul_nonneg (Rat.mul_nonneg (Rat.natCast_nonneg) (Rat.le_of_lt u1)) (Rat.le_of_lt u1)
    rw [Rat.pow_succ, Rat.natCast_add, show ((1 : Nat) : Rat) = 1 from rfl]
    grind

theorem hi_pow_mul (m : Nat) : (1 + ulp2) ^ m * (1 - m * ulp2) ≤ 1 := by
  induction m with
  | zero => rw [Rat.pow_zero, show ((0 : Nat) : Rat) = 0 from rfl, Rat.zero_mul]; decide +kernel
  | succ m ih =>
    obtain ⟨u1, u2⟩ := ulp2_small
    have hp := hi_pow_pos m
    have h1 : (0 : Rat) ≤ (1 + ulp2) ^ m * (m * ulp2 * ulp2) :=
      Rat.mul_nonneg (Rat.le_of_lt hp) (Rat.mul_nonneg (Rat.mul_nonneg Rat.natCast_nonneg (Rat.le_of_lt u1)) (Rat.le_of_lt u1))
    have h2 : (0 : Rat) ≤ (1 + ulp2) ^ m * (ulp2 * ulp2) :=
      Rat.mul_nonneg (Rat.le_of_lt hp) (Rat.mul_nonneg (Rat.le_of_lt u1) (Rat.le_of_lt u1))
    rw [Rat.pow_succ, Rat.natCast_add, show ((1 : Nat) : Rat) = 1 from rfl]
    grind

theorem hi_pow_le {m : Nat} (h : m ≤ 2 ^ 52) : (1 + ulp2) ^ m ≤ 1 + 2 * (m * ulp2) := by
  have h1 := hi_pow_mul m
  have h2 : (m : Rat) * ulp2 ≤ 1 / 2 := by
    have := Rat.mul_le_mul_of_nonneg_right (Rat.natCast_le_natCast.2 h) (Rat.le_of_lt ulp2_small.1)
    rwa [show ((2 ^ 52 : Nat) : Rat) * ulp2 = 1 / 2 by decide +kernel] at this
  have h0 : (0 : Rat) ≤ m * ulp2 := Rat.mul_nonneg Rat.natCast_nonneg (Rat.le_of_lt ulp2_small.1)
  generalize (m : Rat) * ulp2 = y at *
  generalize (1 + ulp2) ^ m = p at *
  -- `p (1 - y) ≤ 1 ≤ (1 + 2 y) (1 - y)`
  have h3 : 0 ≤ y * (1 / 2 - y) := Rat.mul_nonneg h0 (by grind)
  have h4 : p * (1 - y) ≤ (1 + 2 * y) * (1 - y) := by grind
  exact Rat.le_of_mul_le_mul_right h4 (by grind)

theorem Between.close {m : Nat} {t x : Rat} (h : Between m t x) (ht : 0 ≤ t) (hm : m ≤ 2 ^ 52) : Close m t x := by
  obtain ⟨a, b⟩ := h
  have e : (m : Rat) / 2 ^ 52 = 2 * (m * ulp2) := by
    rw [Rat.div_def, show ((2 : Rat) ^ 52)⁻¹ = 2 * ulp2 by decide +kernel]
    grind
  have h0 : (0 : Rat) ≤ m * ulp2 := Rat.mul_nonneg Rat.natCast_nonneg (Rat.le_of_lt ulp2_small.1)
  have c := Rat.mul_le_mul_of_nonneg_right (lo_pow_ge m) ht
  have d := Rat.mul_le_mul_of_nonneg_right (hi_pow_le hm) ht
  have g := Rat.mul_nonneg h0 ht
  simp only [Close, e]
  constructor
  · grind
  · grind

/-! ## The time of a request in seconds -/

theorem f64_billion : f64 1000000000 = 1000000000 := by decide +kernel

theorem seconds_between (d : Nat) : Between 2 ((d : Rat) / 10 ^ 9) (seconds d) := by
  have h1 : Between 1 (d : Rat) (f64 d) := (Between.refl _).round Rat.natCast_nonneg
  have h2 := h1.mul (show (0 : Rat) ≤ ((10 : Rat) ^ 9)⁻¹ by decide +kernel)
  rw [seconds, f64_billion, Rat.div_def, Rat.div_def]
  rw [show ((1000000000 : Rat))⁻¹ = ((10 : Rat) ^ 9)⁻¹ by decide +kernel]
  exact h2.round (Rat.mul_nonneg Rat.natCast_nonneg (by decide +kernel))

theorem seconds_nonneg (d : Nat) : 0 ≤ seconds d :=
  (seconds_between d).nonneg (by rw [Rat.div_def]; exact Rat.mul_nonneg Rat.natCast_nonneg (by decide +kernel))

theorem div_mono {a b c : Rat} (h : a ≤ b) (hc : 0 ≤ c⁻¹) : a / c ≤ b / c := by
  rw [Rat.div_def, Rat.div_def]
  exact Rat.mul_le_mul_of_nonneg_right h hc

theorem seconds_mono {d d' : Nat} (h : d ≤ d') : seconds d ≤ seconds d' := by
  have h1 := f64_mono (@Rat.natCast_nonneg d) (Rat.natCast_le_natCast.2 h)
  have hb : (0 : Rat) ≤ (f64 1000000000)⁻¹ := by decide +kernel
  refine f64_mono ?_ (div_mono h1 hb)
  rw [Rat.div_def]
  exact Rat.mul_nonneg (f64_nonneg Rat.natCast_nonneg) hb

/-- A bound in whole milliseconds separates the times exactly. -/
theorem seconds_le_iff {ms : Nat} {j : Nat} (h : latencyMs[j]? = some ms) :
    ∃ b, latencyBuckets[j]? = some b ∧ ∀ d : Nat, seconds d ≤ b ↔ d ≤ ms * 10 ^ 6 := by
  have key : ∀ p ∈ latencyMs.zip latencyBuckets, seconds (p.1 * 10 ^ 6) ≤ p.2 ∧ p.2 < seconds (p.1 * 10 ^ 6 + 1) := by decide +kernel
  have hl : latencyBuckets.length = latencyMs.length := by decide +kernel
  have hj : j < latencyMs.length := (List.getElem?_eq_some_iff.1 h).1
  refine ⟨latencyBuckets[j]'(by omega), List.getElem?_eq_getElem (by omega), fun d => ?_⟩
  have hz : (ms, latencyBuckets[j]'(by omega)) ∈ latencyMs.zip latencyBuckets := by
    have : (latencyMs.zip latencyBuckets)[j]? = some (ms, latencyBuckets[j]'(by omega)) := by
      rw [List.getElem?_zip_eq_some]
      exact ⟨h, List.getElem?_eq_getElem (by omega)⟩
    exact List.mem_of_getElem? this
  obtain ⟨k1, k2⟩ := key _ hz
  dsimp only at k1 k2
  constructor
  · intro hd
    refine Decidable.byContradiction fun hn => ?_
    have := seconds_mono (show ms * 10 ^ 6 + 1 ≤ d by omega)
    grind
  · intro hd
    exact Rat.le_trans (seconds_mono hd) k1

/-- A bound in whole bytes separates the sizes exactly. -/
theorem bytes_le_iff {b : Int} {j : Nat} (h : byteBuckets[j]? = some b) :
    ∃ b', fByteBuckets[j]? = some b' ∧ ∀ n : Int, 0 ≤ n → (f64 n ≤ b' ↔ n ≤ b) := by
  have key : ∀ p ∈ byteBuckets.zip fByteBuckets, f64 p.1 ≤ p.2 ∧ p.2 < f64 ((p.1 + 1 : Int) : Rat) ∧ 0 ≤ p.1 := by decide +kernel
  have hl : fByteBuckets.length = byteBuckets.length := by decide +kernel
  have hj : j < byteBuckets.length := (List.getElem?_eq_some_iff.1 h).1
  refine ⟨fByteBuckets[j]'(by omega), List.getElem?_eq_getElem (by omega), fun n hn0 => ?_⟩
  have hz : (b, fByteBuckets[j]'(by omega)) ∈ byteBuckets.zip fByteBuckets := by
    have : (byteBuckets.zip fByteBuckets)[j]? = some (b, fByteBuckets[j]'(by omega)) := by
      rw [List.getElem?_zip_eq_some]
      exact ⟨h, List.getElem?_eq_getElem (by omega)⟩
    exact List.mem_of_getElem? this
  obtain ⟨k1, k2, k3⟩ := key _ hz
  dsimp only at k1 k2 k3
  constructor
  · intro hd
    refine Decidable.byContradiction fun hn => ?_
    have := f64_mono (Rat.intCast_nonneg.2 (show 0 ≤ b + 1 by omega)) (Rat.intCast_le_intCast.2 (show b + 1 ≤ n by omega))
    grind
  · intro hd
    exact Rat.le_trans (f64_mono (Rat.intCast_nonneg.2 hn0) (Rat.intCast_le_intCast.2 hd)) k1

/-! ## Counters -/

/-- The counter has counted `A` in whole numbers and `B` in the other part, in `n` additions. -/
structure Counted (c : FCounter) (n : Nat) (A : Nat) (B : Rat) : Prop where
  int : c.int = A % 2 ^ 64
  nonneg : 0 ≤ B
  bits : Between n B c.bits

theorem int_of_den {v : Rat} (h : v.den = 1) (h0 : 0 ≤ v) : ((v.num.toNat : Nat) : Rat) = v := by
  have e : v = (v.num : Rat) := by
    apply Rat.ext
    · rfl
    · exact h
  have hn : 0 ≤ v.num := by
    rw [e] at h0
    exact Rat.intCast_nonneg.1 h0
  have : ((v.num.toNat : Nat) : Rat) = ((v.num.toNat : Int) : Rat) := rfl
  rw [this, Int.toNat_of_nonneg hn, ← e]

theorem Counted.add {c : FCounter} {n A : Nat} {B : Rat} (h : Counted c n A B) {v : Rat} (hv : 0 ≤ v) :
    ∃ A' B', Counted (c.add v) (n + 1) A' B' ∧ (A' : Rat) + B' = A + B + v := by
  simp only [FCounter.add]
  split
  · rename_i hc
    refine ⟨A + v.num.toNat, B, ⟨?_, h.nonneg, h.bits.succ h.nonneg⟩, ?_⟩
    · show (c.int + v.num.toNat) % 2 ^ 64 = _
      rw [h.int]
      omega
    · rw [Rat.natCast_add, int_of_den hc.1 hv]
      grind
  · refine ⟨A, B + v, ⟨h.int, by have := h.nonneg; grind, ?_⟩, by grind⟩
    exact (h.bits.add ((Between.refl v).mono hv (Nat.zero_le n))).round (by have := h.nonneg; grind)

theorem counted_adds (vs : List Rat) (hv : ∀ v ∈ vs, 0 ≤ v) {c : FCounter} {n A : Nat} {B : Rat} (h : Counted c n A B) :
    ∃ A' B', Counted (vs.foldl FCounter.add c) (n + vs.length) A' B' ∧ (A' : Rat) + B' = A + B + vs.sum := by
  induction vs generalizing c n A B with
  | nil => exact ⟨A, B, h, (Rat.add_zero _).symm⟩
  | cons v vs ih =>
    obtain ⟨A1, B1, h1, e1⟩ := h.add (hv v List.mem_cons_self)
    obtain ⟨A2, B2, h2, e2⟩ := ih (fun w hw => hv w (List.mem_cons_of_mem _ hw)) h1
    refine ⟨A2, B2, ?_, ?_⟩
    · rw [List.length_cons, show n + (vs.length + 1) = n + 1 + vs.length by omega]
      exact h2
    · rw [List.sum_cons]
      grind

theorem counted_init : Counted {} 0 0 0 := ⟨rfl, Rat.le_refl, Between.refl 0⟩

theorem Counted.value {c : FCounter} {n A : Nat} {B : Rat} (h : Counted c n A B) (hA : A < 2 ^ 64) : Between (n + 2) (A + B) c.value := by
  have hA' := h.int
  rw [Nat.mod_eq_of_lt hA] at hA'
  have a : Between 1 (A : Rat) (f64 A) := (Between.refl _).round Rat.natCast_nonneg
  have hs : (0 : Rat) ≤ A + B := by have := h.nonneg; have := @Rat.natCast_nonneg A; grind
  rw [FCounter.value, hA']
  have b := (h.bits.succ h.nonneg).add (a.mono Rat.natCast_nonneg (show 1 ≤ n + 1 by omega))
  rw [Rat.add_comm B A] at b
  exact b.round hs

theorem seconds_sum (l : List Nat) : Between 2 (inSeconds l) ((l.map seconds).sum) := by
  induction l with
  | nil =>
    have : inSeconds [] = 0 := by decide +kernel
    rw [this]
    exact (Between.refl 0).mono Rat.le_refl (by omega)
  | cons d l ih =>
    have : inSeconds (d :: l) = (d : Rat) / 10 ^ 9 + inSeconds l := by
      simp only [inSeconds, List.sum_cons, Rat.natCast_add, Rat.div_def, Rat.add_mul]
    rw [this, List.map_cons, List.sum_cons]
    exact (seconds_between d).add ih

theorem inSeconds_nonneg (l : List Nat) : 0 ≤ inSeconds l := by
  rw [inSeconds, Rat.div_def]
  exact Rat.mul_nonneg Rat.natCast_nonneg (by decide +kernel)

theorem rat_pow_add (a : Rat) (m n : Nat) : a ^ (m + n) = a ^ n * a ^ m := by
  induction n with
  | zero => rw [Nat.add_zero, Rat.pow_zero, Rat.one_mul]
  | succ n ih => rw [← Nat.add_assoc, Rat.pow_succ, Rat.pow_succ, ih]; grind

theorem Between.trans {m n : Nat} {t s x : Rat} (h : Between m t s) (h' : Between n s x) : Between (m + n) t x := by
  obtain ⟨a, b⟩ := h
  obtain ⟨a', b'⟩ := h'
  have c := Rat.mul_le_mul_of_nonneg_left a (Rat.le_of_lt (lo_pow_pos n))
  have d := Rat.mul_le_mul_of_nonneg_left b (Rat.le_of_lt (hi_pow_pos n))
  simp only [Between, rat_pow_add, Rat.mul_assoc]
  exact ⟨Rat.le_trans c a', Rat.le_trans b' d⟩

theorem latency_value (l : List Nat) (hs : l.sum ≤ 2 ^ 63 * 10 ^ 9) :
    Between (l.length + 4) (inSeconds l) (((l.map seconds).foldl FCounter.add {}).value) := by
  obtain ⟨A, B, h, e⟩ := counted_adds (l.map seconds) (by simp only [List.mem_map]; rintro v ⟨d, -, rfl⟩; exact seconds_nonneg d) counted_init
  rw [show ((0 : Nat) : Rat) = 0 from rfl, Rat.zero_add, Rat.zero_add] at e
  have hsum := seconds_sum l
  have hA : A < 2 ^ 64 := by
    have h1 := hsum.2
    have h2 : inSeconds l ≤ 2 ^ 63 := by
      have := Rat.mul_le_mul_of_nonneg_right (Rat.natCast_le_natCast.2 hs) (show (0 : Rat) ≤ ((10 : Rat) ^ 9)⁻¹ by decide +kernel)
      rwa [show ((2 ^ 63 * 10 ^ 9 : Nat) : Rat) * ((10 : Rat) ^ 9)⁻¹ = 2 ^ 63 by decide +kernel] at this
    have h3 := Rat.mul_le_mul_of_nonneg_left h2 (Rat.le_of_lt (hi_pow_pos 2))
    have h4 : (1 + ulp2) ^ 2 * 2 ^ 63 < ((2 ^ 64 : Nat) : Rat) := by decide +kernel
    have h5 := h.nonneg
    exact Rat.natCast_lt_natCast.1 (by grind)
  have hv := h.value hA
  rw [e] at hv
  have := hsum.trans hv
  rw [List.length_map] at this
  rwa [show 2 + (0 + l.length + 2) = l.length + 4 by omega] at this

theorem f64_int {n : Int} (h0 : 0 ≤ n) (h : n ≤ 2 ^ 53) : f64 n = n := by
  have := @f64_mul_two_zpow n 0 h0 h
  rwa [Rat.zpow_zero, Rat.mul_one] at this

theorem add_int (c : FCounter) {n : Int} (h0 : 0 ≤ n) (h : n ≤ 2 ^ 53) : c.add (f64 n) = { c with int := (c.int + n.toNat) % 2 ^ 64 } := by
  rw [f64_int h0 h, FCounter.add, if_pos]
  · rfl
  · refine ⟨rfl, ?_⟩
    have : (n : Rat) < ((2 ^ 64 : Int) : Rat) := Rat.intCast_lt_intCast.2 (by omega)
    rwa [show ((2 ^ 64 : Int) : Rat) = 2 ^ 64 by decide +kernel] at this

theorem sum_nonneg {l : List Int} (h : ∀ n ∈ l, 0 ≤ n) : 0 ≤ l.sum := by
  induction l with
  | nil => simp
  | cons n l ih =>
    have := h n List.mem_cons_self
    have := ih fun m hm => h m (List.mem_cons_of_mem _ hm)
    simp only [List.sum_cons]; omega

theorem adds_int (l : List Int) (h0 : ∀ n ∈ l, 0 ≤ n) (k : Nat) (h : k + l.sum ≤ 2 ^ 53) :
    l.foldl (fun (c : FCounter) (n : Int) => c.add (f64 n)) ⟨0, k⟩ = ⟨0, k + l.sum.toNat⟩ := by
  induction l generalizing k with
  | nil => simp
  | cons n l ih =>
    have hn := h0 n List.mem_cons_self
    have hl := sum_nonneg fun m hm => h0 m (List.mem_cons_of_mem n hm)
    rw [List.sum_cons] at h
    rw [List.foldl_cons, add_int _ hn (by omega)]
    have : (k + n.toNat) % 2 ^ 64 = k + n.toNat := Nat.mod_eq_of_lt (by omega)
    dsimp only
    rw [this, ih (fun m hm => h0 m (List.mem_cons_of_mem n hm)) _ (by omega), List.sum_cons]
    congr 1
    omega

theorem value_int {k : Nat} (h : k ≤ 2 ^ 53) : (FCounter.value ⟨0, k⟩) = k := by
  rw [FCounter.value, f64_nat h, Rat.zero_add, f64_nat h]

theorem adds_int_value (l : List Int) (h0 : ∀ n ∈ l, 0 ≤ n) (h : l.sum ≤ exactMax) :
    (l.foldl (fun (c : FCounter) (n : Int) => c.add (f64 n)) {}).value = (l.sum : Int) := by
  have hl := sum_nonneg h0
  simp only [exactMax] at h
  rw [adds_int l h0 0 (by omega), Nat.zero_add, value_int (by omega)]
  have : ((l.sum.toNat : Nat) : Rat) = ((l.sum.toNat : Int) : Rat) := rfl
  rw [this, Int.toNat_of_nonneg hl]

/-! ## Histograms -/

theorem findIdx_congr {α β : Type} (l : List α) (l' : List β) (p : α → Bool) (q : β → Bool) (hl : l'.length = l.length)
    (h : ∀ (j : Nat) a, l[j]? = some a → ∃ b, l'[j]? = some b ∧ q b = p a) : l'.findIdx q = l.findIdx p := by
  induction l generalizing l' with
  | nil =>
    cases l' with
    | nil => rfl
    | cons => simp at hl
  | cons a l ih =>
    cases l' with
    | nil => simp at hl
    | cons b l' =>
      obtain ⟨b', hb, hq⟩ := h 0 a rfl
      simp only [List.getElem?_cons_zero, Option.some.injEq] at hb
      subst hb
      rw [List.findIdx_cons, List.findIdx_cons, hq, ih l' (by simpa using hl) fun j a' ha => by
        obtain ⟨b', hb, hq⟩ := h (j + 1) a' (by simpa using ha)
        exact ⟨b', by simpa using hb, hq⟩]

/-- The same observations, rounded and as integers. -/
theorem observes_same {ι : Type} (fb : List Rat) (ib : List Int) (val : ι → Rat) (num : ι → Int) (hl : fb.length = ib.length)
    (hsame : ∀ (j : Nat) (b : Int), ib[j]? = some b → ∃ b', fb[j]? = some b' ∧ ∀ x, val x ≤ b' ↔ num x ≤ b)
    (xs : List ι) (h : FHist) (g : Hist) (hb : h.buckets = g.buckets) (hc : h.count = g.count) :
    (xs.foldl (fun h x => h.observe fb (val x)) h).buckets = (xs.foldl (fun g x => Hist.observe ib g (num x)) g).buckets ∧
    (xs.foldl (fun h x => h.observe fb (val x)) h).count = (xs.foldl (fun g x => Hist.observe ib g (num x)) g).count := by
  induction xs generalizing h g with
  | nil => exact ⟨hb, hc⟩
  | cons x xs ih =>
    refine ih _ _ ?_ ?_
    · simp only [FHist.observe, Hist.observe, hb]
      rw [findIdx_congr ib fb (fun b => decide (num x ≤ b)) (fun b => decide (val x ≤ b)) hl fun j b hj => by
        obtain ⟨b', hb', h'⟩ := hsame j b hj
        exact ⟨b', hb', by simp [h' x]⟩]
    · simp only [FHist.observe, Hist.observe, hc]

theorem histShows_init (ib : List Int) : HistShows ib { buckets := List.replicate (ib.length + 1) 0 } [] := by
  refine ⟨by simp, rfl, rfl, ?_, ?_⟩
  · intro j b hj
    simp only [Hist.upTo, List.take_replicate, List.sum_replicate_nat]
    simp
  · simp only [Hist.upTo, List.take_replicate, List.sum_replicate_nat]
    simp

theorem histShows_foldl {ι : Type} (ib : List Int) (hib : ib.Pairwise (· ≤ ·)) (num : ι → Int) (xs : List ι) (g : Hist) (l : List Int) (h : HistShows ib g l) :
    HistShows ib (xs.foldl (fun g x => Hist.observe ib g (num x)) g) (l ++ xs.map num) := by
  induction xs generalizing g l with
  | nil => simpa using h
  | cons x xs ih =>
    have := ih _ _ (h.observe hib (num x))
    simpa using this

theorem observes_sum_between {ι : Type} (fb : List Rat) (val : ι → Rat) (hv : ∀ x, 0 ≤ val x) (xs : List ι) (h : FHist) {n : Nat} {t : Rat} (ht : 0 ≤ t)
    (hs : Between n t h.sum) : Between (n + xs.length) (t + (xs.map val).sum) (xs.foldl (fun h x => h.observe fb (val x)) h).sum := by
  induction xs generalizing h n t with
  | nil => simpa [Rat.add_zero] using hs
  | cons x xs ih =>
    have := hv x
    have h1 := (hs.add ((Between.refl (val x)).mono this (Nat.zero_le n))).round (show 0 ≤ t + val x by grind)
    have h2 := ih (h.observe fb (val x)) (show 0 ≤ t + val x by grind) h1
    rw [List.map_cons, List.sum_cons, List.length_cons, ← Rat.add_assoc, show n + (xs.length + 1) = n + 1 + xs.length by omega]
    exact h2

theorem observes_sum_int (fb : List Rat) (l : List Int) (h0 : ∀ n ∈ l, 0 ≤ n) (h : FHist) {t : Int} (ht : 0 ≤ t) (hs : h.sum = t)
    (hle : t + l.sum ≤ 2 ^ 53) : (l.foldl (fun (h : FHist) (n : Int) => h.observe fb (f64 n)) h).sum = ((t + l.sum : Int) : Rat) := by
  induction l generalizing h t with
  | nil => simpa using hs
  | cons n l ih =>
    have hn := h0 n List.mem_cons_self
    have hl := sum_nonneg fun m hm => h0 m (List.mem_cons_of_mem n hm)
    rw [List.sum_cons] at hle
    rw [List.foldl_cons, List.sum_cons, ← Int.add_assoc]
    refine ih (fun m hm => h0 m (List.mem_cons_of_mem n hm)) _ (by omega) ?_ (by omega)
    show f64 (h.sum + f64 n) = _
    rw [hs, f64_int hn (by omega), ← Rat.intCast_add, f64_int (by omega) (by omega)]

/-! ## All metrics -/

theorem FVec.get_upd (c d : GoStr) (f : FCounter → FCounter) (v : FVec) : (v.upd c f).get d = if c = d then f (v.get d) else v.get d := by
  induction v with
  | nil =>
    simp only [FVec.upd, FVec.get]
  | cons x v ih =>
    obtain ⟨c', k⟩ := x
    simp only [FVec.upd]
    split
    · rename_i h
      subst h
      simp only [FVec.get]
      split <;> rfl
    · rename_i h
      simp only [FVec.get, ih]
      by_cases h1 : c' = d
      · subst h1
        rw [if_pos rfl, if_neg (fun h' => h h'.symm), if_pos rfl]
      · rw [if_neg h1, if_neg h1]

/-- The additions to the counter of label `c`. -/
def addedFor (c : GoStr) (l : List (GoStr × Int)) : List Int := (l.filter (fun p => decide (p.1 = c))).map (·.2)

theorem addedFor_snoc (c d : GoStr) (n : Int) (l : List (GoStr × Int)) : addedFor c (l ++ [(d, n)]) = addedFor c l ++ if d = c then [n] else [] := by
  simp only [addedFor, List.filter_append, List.map_append]
  congr 1
  by_cases hc : d = c
  · rw [if_pos hc, List.filter_cons_of_pos (by simpa using hc)]; simp
  · rw [if_neg hc, List.filter_cons_of_neg (by simpa using hc)]; simp

/-- Each metric by itself. -/
structure Parts (r : FReg) (ev : List (MEv × Nat)) : Prop where
  panics : r.panics = ⟨0, panicsCounted (ev.map (·.1)) % 2 ^ 64⟩
  requests : ∀ c, r.requests.get c = ⟨0, (requestsCounted (ev.map (·.1))).count c % 2 ^ 64⟩
  latency : ∀ c, r.latency.get c = ((latencyFor c ev).map seconds).foldl FCounter.add {}
  recvBytes : ∀ c, r.recvBytes.get c = (addedFor c (recvCounted (ev.map (·.1)))).foldl (fun (k : FCounter) (n : Int) => k.add (f64 n)) {}
  sendBytes : ∀ c, r.sendBytes.get c = (addedFor c (sendCounted (ev.map (·.1)))).foldl (fun (k : FCounter) (n : Int) => k.add (f64 n)) {}
  latencyHist : r.latencyHist = (latencySeen ev).foldl (fun h d => h.observe latencyBuckets (seconds d)) { buckets := List.replicate 12 0 }
  recvHist : r.recvHist = (recvObserved (ev.map (·.1))).foldl (fun (h : FHist) (n : Int) => h.observe fByteBuckets (f64 n)) { buckets := List.replicate 7 0 }
  sendHist : r.sendHist = (sendObserved (ev.map (·.1))).foldl (fun (h : FHist) (n : Int) => h.observe fByteBuckets (f64 n)) { buckets := List.replicate 7 0 }

theorem parts_init : Parts {} [] := ⟨rfl, fun _ => rfl, fun _ => rfl, fun _ => rfl, fun _ => rfl, rfl, rfl, rfl⟩

theorem Parts.apply {r : FReg} {ev : List (MEv × Nat)} (h : Parts r ev) (e : MEv) (d : Nat) : Parts (r.apply e d) (ev ++ [(e, d)]) := by
  have app : ∀ {α β : Type} (f : α → Option β) (l : List α) (e : α), (l ++ [e]).filterMap f = l.filterMap f ++ (f e).toList := by
    intro α β f l e
    rw [List.filterMap_append]
    cases hf : f e <;> simp [hf]
  obtain ⟨h1, h2, h3, h4, h5, h6, h7, h8⟩ := h
  simp only [panicsCounted, requestsCounted, recvCounted, sendCounted, recvObserved, sendObserved, latencyFor, latencySeen]
    at h1 h2 h3 h4 h5 h6 h7 h8
  cases e <;> constructor <;>
    simp only [FReg.apply, panicsCounted, requestsCounted, recvCounted, sendCounted, recvObserved, sendObserved, latencyFor, latencySeen,
      List.map_append, List.map_cons, List.map_nil, app, Option.toList_none, Option.toList_some, List.append_nil, List.filter_append] <;>
    (first
      | assumption
      | (simp [h1, FCounter.inc]; done)
      | (intro c; rw [FVec.get_upd, h2, List.count_append, List.count_singleton]; simp only [beq_iff_eq, FCounter.inc]; split <;> simp; done)
      | (intro c; rw [FVec.get_upd, h3]; split <;> simp [List.foldl_append]; done)
      | (intro c; rw [FVec.get_upd, h4, addedFor_snoc]; split <;> simp [List.foldl_append]; done)
      | (intro c; rw [FVec.get_upd, h5, addedFor_snoc]; split <;> simp [List.foldl_append]; done)
      | (rw [h6, List.foldl_append]; rfl)
      | (rw [h7, List.foldl_append]; rfl)
      | (rw [h8, List.foldl_append]; rfl))

/-- No number of bytes is negative. -/
def PlainEv (ev : List MEv) : Prop := ∀ e ∈ ev, match e with
  | .recvBytesTotal _ n | .sendBytesTotal _ n | .recvBytesHist n | .sendBytesHist n => 0 ≤ n
  | _ => True

theorem addedFor_nonneg {c : GoStr} {l : List (GoStr × Int)} (h : ∀ p ∈ l, 0 ≤ p.2) : ∀ n ∈ addedFor c l, 0 ≤ n := by
  simp only [addedFor, List.mem_map, List.mem_filter]
  rintro n ⟨p, ⟨hp, -⟩, rfl⟩
  exact h p hp

/-- A histogram of numbers of bytes. -/
theorem fhistShows (l : List Int) (h0 : ∀ n ∈ l, 0 ≤ n) :
    FHistShows (l.foldl (fun (h : FHist) (n : Int) => h.observe fByteBuckets (f64 n)) { buckets := List.replicate 7 0 }) l := by
  have hs := histShows_foldl byteBuckets byteBuckets_sorted (fun x : { n : Int // 0 ≤ n } => x.1) (l.attachWith _ h0) _ _ (histShows_init byteBuckets)
  have he := observes_same fByteBuckets byteBuckets (fun x : { n : Int // 0 ≤ n } => f64 x.1) (fun x => x.1) (by decide +kernel)
    (fun j b hj => by
      obtain ⟨b', hb', h'⟩ := bytes_le_iff hj
      exact ⟨b', hb', fun x => h' x.1 x.2⟩) (l.attachWith _ h0) { buckets := List.replicate 7 0 } { buckets := List.replicate (byteBuckets.length + 1) 0 } rfl rfl
  have e : (l.attachWith _ h0).foldl (fun (h : FHist) (x : { n : Int // 0 ≤ n }) => h.observe fByteBuckets (f64 x.1)) { buckets := List.replicate 7 0 } =
      l.foldl (fun (h : FHist) (n : Int) => h.observe fByteBuckets (f64 n)) { buckets := List.replicate 7 0 } := by
    conv => rhs; rw [← List.attachWith_map_subtype_val h0, List.foldl_map]
  rw [e] at he
  have e2 : [] ++ (l.attachWith (fun n => 0 ≤ n) h0).map (fun x => x.1) = l := by
    rw [List.nil_append]
    exact List.attachWith_map_subtype_val h0
  rw [e2] at hs
  refine ⟨?_, ?_, ?_, ?_⟩
  · rw [he.2, hs.count]
  · intro hle
    have := observes_sum_int fByteBuckets l h0 { buckets := List.replicate 7 0 } (t := 0) (by omega) rfl (by simpa [exactMax] using hle)
    rw [this, Int.zero_add]
  · intro j b hj
    rw [FHist.upTo, he.1]
    exact hs.upTo j b hj
  · rw [FHist.upTo, he.1]
    exact hs.all

theorem Parts.displays {r : FReg} {ev : List (MEv × Nat)} (h : Parts r ev) (hp : PlainEv (ev.map (·.1))) : TDisplays r ev := by
  have lat := observes_same latencyBuckets (latencyMs.map fun ms => ((ms * 10 ^ 6 : Nat) : Int)) seconds (fun d : Nat => (d : Int)) (by decide +kernel)
    (fun j b hj => by
      rw [List.getElem?_map, Option.map_eq_some_iff] at hj
      obtain ⟨ms, hms, rfl⟩ := hj
      obtain ⟨b', hb', h'⟩ := seconds_le_iff hms
      exact ⟨b', hb', fun d => (h' d).trans (by omega)⟩) (latencySeen ev) { buckets := List.replicate 12 0 }
    { buckets := List.replicate ((latencyMs.map fun ms => ((ms * 10 ^ 6 : Nat) : Int)).length + 1) 0 } rfl rfl
  have hls := histShows_foldl (latencyMs.map fun ms => ((ms * 10 ^ 6 : Nat) : Int)) (by decide +kernel) (fun d : Nat => (d : Int)) (latencySeen ev) _ _
    (histShows_init _)
  rw [List.nil_append] at hls
  rw [← h.latencyHist] at lat
  constructor
  · intro hle
    simp only [exactMax] at hle
    rw [h.panics, Nat.mod_eq_of_lt (by omega), value_int (by omega)]
  · intro c hle
    simp only [exactMax] at hle
    rw [h.requests, Nat.mod_eq_of_lt (by omega), value_int (by omega)]
  · intro c hle
    rw [h.recvBytes]
    refine adds_int_value _ (addedFor_nonneg fun p hp' => ?_) hle
    simp only [recvCounted, List.mem_filterMap] at hp'
    obtain ⟨e, he, h'⟩ := hp'
    have := hp e he
    split at h' <;> simp at h'
    subst h'
    exact this
  · intro c hle
    rw [h.sendBytes]
    refine adds_int_value _ (addedFor_nonneg fun p hp' => ?_) hle
    simp only [sendCounted, List.mem_filterMap] at hp'
    obtain ⟨e, he, h'⟩ := hp'
    have := hp e he
    split at h' <;> simp at h'
    subst h'
    exact this
  · rw [h.recvHist]
    refine fhistShows _ fun n hn => ?_
    simp only [recvObserved, List.mem_filterMap] at hn
    obtain ⟨e, he, h'⟩ := hn
    have := hp e he
    split at h' <;> simp at h'
    subst h'
    exact this
  · rw [h.sendHist]
    refine fhistShows _ fun n hn => ?_
    simp only [sendObserved, List.mem_filterMap] at hn
    obtain ⟨e, he, h'⟩ := hn
    have := hp e he
    split at h' <;> simp at h'
    subst h'
    exact this
  · intro c hl hs
    rw [h.latency]
    exact (latency_value _ hs).close (inSeconds_nonneg _) hl
  · rw [lat.2, hls.count, List.length_map]
  · intro hl
    have := observes_sum_between latencyBuckets seconds seconds_nonneg (latencySeen ev) { buckets := List.replicate 12 0 } (n := 0) (t := 0) Rat.le_refl (Between.refl 0)
    rw [← h.latencyHist, Nat.zero_add, Rat.zero_add] at this
    have := (seconds_sum (latencySeen ev)).trans this
    rw [Nat.add_comm] at this
    exact this.close (inSeconds_nonneg _) hl
  · intro j ms hj
    rw [FHist.upTo, lat.1]
    have := hls.upTo j ((ms * 10 ^ 6 : Nat) : Int) (by rw [List.getElem?_map, hj]; rfl)
    rw [Hist.upTo] at this
    rw [this, List.countP_map]
    congr 1
    funext d
    simp only [Function.comp_apply]
    congr 1
    exact propext (by omega)
  · rw [FHist.upTo, lat.1]
    have := hls.all
    rw [Hist.upTo, List.length_map, List.length_map] at this
    exact this

/-! ## In any order -/

theorem nat_sum_perm {l l' : List Nat} (hp : l.Perm l') : l.sum = l'.sum := by
  induction hp with
  | nil => rfl
  | cons _ _ ih => simp [ih]
  | swap => simp only [List.sum_cons]; omega
  | trans _ _ h1 h2 => exact h1.trans h2

theorem Spec.FHistShows.perm {h : FHist} {l l' : List Int} (hs : FHistShows h l) (hp : l.Perm l') : FHistShows h l' :=
  ⟨hs.count.trans hp.length_eq, fun hle => by rw [← sum_perm hp] at hle ⊢; exact hs.sum hle,
    fun j b hj => (hs.upTo j b hj).trans (hp.countP_eq _), hs.all.trans hp.length_eq⟩

theorem Spec.TDisplays.perm {r : FReg} {ev ev' : List (MEv × Nat)} (h : TDisplays r ev) (hp : ev.Perm ev') : TDisplays r ev' := by
  have hm : (ev.map (·.1)).Perm (ev'.map (·.1)) := hp.map _
  have e1 : panicsCounted (ev.map (·.1)) = panicsCounted (ev'.map (·.1)) := (hm.filter _).length_eq
  have e2 : ∀ c, (requestsCounted (ev.map (·.1))).count c = (requestsCounted (ev'.map (·.1))).count c := (hm.filterMap _).count_eq
  have e3 : ∀ c, sumFor c (recvCounted (ev.map (·.1))) = sumFor c (recvCounted (ev'.map (·.1))) :=
    fun c => sum_perm (((hm.filterMap _).filter _).map _)
  have e4 : ∀ c, sumFor c (sendCounted (ev.map (·.1))) = sumFor c (sendCounted (ev'.map (·.1))) :=
    fun c => sum_perm (((hm.filterMap _).filter _).map _)
  have e5 : ∀ c, (latencyFor c ev).Perm (latencyFor c ev') := fun c => hp.filterMap _
  have e6 : (latencySeen ev).Perm (latencySeen ev') := hp.filterMap _
  have e7 : ∀ c, inSeconds (latencyFor c ev) = inSeconds (latencyFor c ev') := fun c => by rw [inSeconds, nat_sum_perm (e5 c), inSeconds]
  have e8 : inSeconds (latencySeen ev) = inSeconds (latencySeen ev') := by rw [inSeconds, nat_sum_perm e6, inSeconds]
  constructor
  · rw [← e1]; exact h.panics
  · intro c; rw [← e2]; exact h.requests c
  · intro c; rw [← e3]; exact h.recvBytes c
  · intro c; rw [← e4]; exact h.sendBytes c
  · exact h.recvHist.perm (hm.filterMap _)
  · exact h.sendHist.perm (hm.filterMap _)
  · intro c; rw [← (e5 c).length_eq, ← nat_sum_perm (e5 c), ← e7]; exact h.latency c
  · rw [← e6.length_eq]; exact h.latencyCount
  · rw [← e6.length_eq, ← e8]; exact h.latencySum
  · intro j ms hj; rw [← e6.countP_eq]; exact h.latencyUpTo j ms hj
  · rw [← e6.length_eq]; exact h.latencyAll

theorem stamped_set (l : List (List MEv × Nat)) (i : Nat) (e : MEv) (rest : List MEv) (d : Nat) (h : l[i]? = some (e :: rest, d)) :
    (stamped l).Perm ((e, d) :: stamped (l.set i (rest, d))) := by
  induction l generalizing i with
  | nil => simp at h
  | cons p l ih =>
    cases i with
    | zero =>
      simp only [List.getElem?_cons_zero, Option.some.injEq] at h
      subst h
      simp [stamped]
    | succ i =>
      have := ih i (by simpa using h)
      simp only [stamped, List.flatMap_cons, List.set_cons_succ] at this ⊢
      exact (this.append_left _).trans List.perm_middle

/-- `log` has been done. -/
structure TimedInv (s : TServer) (log : List (MEv × Nat)) : Prop where
  parts : Parts s.reg log
  split : (log ++ stamped s.todo).Perm (allSteps s.begun)

theorem timedInv_step {s : TServer} {log : List (MEv × Nat)} (h : TimedInv s log) (m : TMove) : ∃ ext, TimedInv (s.step m) (log ++ ext) := by
  cases m with
  | arrive q d =>
    refine ⟨[], ?_, ?_⟩
    · rw [List.append_nil]; exact h.parts
    · rw [List.append_nil]
      simp only [TServer.step, allSteps, stamped, List.map_append, List.flatMap_append, List.map_cons, List.map_nil, List.flatMap_cons,
        List.flatMap_nil, List.append_nil, ← List.append_assoc]
      exact h.split.append_right _
  | tick i =>
    simp only [TServer.step]
    split
    · rename_i e rest d hi
      refine ⟨[(e, d)], h.parts.apply e d, ?_⟩
      have := (stamped_set s.todo i e rest d hi).append_left log
      rw [List.append_assoc]
      exact this.symm.trans h.split
    · exact ⟨[], by rw [List.append_nil]; exact h⟩

theorem timedInv_run {s : TServer} {log : List (MEv × Nat)} (h : TimedInv s log) (ms : List TMove) : ∃ ext, TimedInv (s.run ms) (log ++ ext) := by
  induction ms generalizing s log with
  | nil => exact ⟨[], by rw [List.append_nil]; exact h⟩
  | cons m ms ih =>
    obtain ⟨x, hx⟩ := timedInv_step h m
    obtain ⟨y, hy⟩ := ih hx
    exact ⟨x ++ y, by rw [← List.append_assoc]; exact hy⟩

theorem timedInv_init : TimedInv {} [] := ⟨parts_init, List.Perm.refl _⟩

theorem tbegun_run (s : TServer) (ms : List TMove) : (s.run ms).begun = s.begun ++ tArrivals ms := by
  induction ms generalizing s with
  | nil => simp [TServer.run, tArrivals]
  | cons m ms ih =>
    show ((s.step m).run ms).begun = _
    rw [ih]
    cases m with
    | arrive q d => simp [TServer.step, tArrivals]
    | tick i =>
      simp only [TServer.step]
      split <;> simp [tArrivals]

/-! ## Values do not become smaller -/

theorem value_adds (vs : List Rat) (hv : ∀ v ∈ vs, 0 ≤ v) (c : FCounter) (hb : f64 c.bits = c.bits) (h0 : 0 ≤ c.bits)
    (hle : (c.int : Rat) + vs.sum < 2 ^ 64) : c.value ≤ (vs.foldl FCounter.add c).value := by
  induction vs generalizing c with
  | nil => exact Rat.le_refl
  | cons v vs ih =>
    have hv0 := hv v List.mem_cons_self
    have hvs : 0 ≤ vs.sum := by
      have : ∀ l : List Rat, (∀ v ∈ l, 0 ≤ v) → 0 ≤ l.sum := by
        intro l
        induction l with
        | nil => intro _; exact Rat.le_refl
        | cons a l ih =>
          intro h
          rw [List.sum_cons]
          exact Rat.add_nonneg (h a List.mem_cons_self) (ih fun b hb => h b (List.mem_cons_of_mem _ hb))
      exact this vs fun w hw => hv w (List.mem_cons_of_mem _ hw)
    rw [List.sum_cons] at hle
    have hi0 := @Rat.natCast_nonneg c.int
    have hf0 := f64_nonneg hi0
    rw [List.foldl_cons]
    by_cases hc : v.den = 1 ∧ v < 2 ^ 64
    · have e := int_of_den hc.1 hv0
      have hlt : c.int + v.num.toNat < 2 ^ 64 := by
        have : ((c.int + v.num.toNat : Nat) : Rat) < ((2 ^ 64 : Nat) : Rat) := by
          rw [Rat.natCast_add, e, show ((2 ^ 64 : Nat) : Rat) = 2 ^ 64 by decide +kernel]
          grind
        exact Rat.natCast_lt_natCast.1 this
      have ha : c.add v = ⟨c.bits, c.int + v.num.toNat⟩ := by
        rw [FCounter.add, if_pos hc, Nat.mod_eq_of_lt hlt]
      have := ih (fun w hw => hv w (List.mem_cons_of_mem _ hw)) (c.add v) (by rw [ha]; exact hb) (by rw [ha]; exact h0)
        (by rw [ha]; dsimp only; rw [Rat.natCast_add, e]; grind)
      refine Rat.le_trans ?_ this
      rw [ha]
      simp only [FCounter.value]
      have h1 := f64_mono hi0 (Rat.natCast_le_natCast.2 (show c.int ≤ c.int + v.num.toNat by omega))
      exact f64_mono (by grind) (by grind)
    · have ha : c.add v = ⟨f64 (c.bits + v), c.int⟩ := by rw [FCounter.add, if_neg hc]
      have hs0 : 0 ≤ c.bits + v := by grind
      have := ih (fun w hw => hv w (List.mem_cons_of_mem _ hw)) (c.add v) (by rw [ha]; exact f64_idem hs0) (by rw [ha]; exact f64_nonneg hs0)
        (by rw [ha]; dsimp only; grind)
      refine Rat.le_trans ?_ this
      rw [ha]
      simp only [FCounter.value]
      have h1 := f64_mono h0 (show c.bits ≤ c.bits + v by grind)
      rw [hb] at h1
      exact f64_mono (by grind) (by grind)

theorem adds_float (vs : List Rat) (hv : ∀ v ∈ vs, 0 ≤ v) (c : FCounter) (hb : f64 c.bits = c.bits) (h0 : 0 ≤ c.bits) :
    f64 (vs.foldl FCounter.add c).bits = (vs.foldl FCounter.add c).bits ∧ 0 ≤ (vs.foldl FCounter.add c).bits := by
  induction vs generalizing c with
  | nil => exact ⟨hb, h0⟩
  | cons v vs ih =>
    have hs0 : 0 ≤ c.bits + v := by have := hv v List.mem_cons_self; grind
    refine ih (fun w hw => hv w (List.mem_cons_of_mem _ hw)) _ ?_ ?_
    · rw [FCounter.add]; split
      · exact hb
      · exact f64_idem hs0
    · rw [FCounter.add]; split
      · exact h0
      · exact f64_nonneg hs0

theorem observes_float {ι : Type} (fb : List Rat) (val : ι → Rat) (hv : ∀ x, 0 ≤ val x) (xs : List ι) (h : FHist) (hb : f64 h.sum = h.sum) (h0 : 0 ≤ h.sum) :
    let h' := xs.foldl (fun h x => h.observe fb (val x)) h
    f64 h'.sum = h'.sum ∧ 0 ≤ h'.sum ∧ h.sum ≤ h'.sum := by
  induction xs generalizing h with
  | nil => exact ⟨hb, h0, Rat.le_refl⟩
  | cons x xs ih =>
    have hx := hv x
    have hs0 : 0 ≤ h.sum + val x := by grind
    obtain ⟨a, b, c⟩ := ih (h.observe fb (val x)) (f64_idem hs0) (f64_nonneg hs0)
    refine ⟨a, b, Rat.le_trans ?_ c⟩
    have h1 := f64_mono h0 (show h.sum ≤ h.sum + val x by grind)
    rw [hb] at h1
    exact h1

end Verif
