import Verif.Model.Register
import Verif.Proofs.Text

/-! # Property of the registration of the metrics: C70 -/

set_option autoImplicit false

namespace Verif

namespace Spec

/-- The names of the metrics of the package. -/
def metricNames : List GoStr :=
  [lit "http_panics_total", lit "http_requests_total", lit "http_latency_total", lit "http_recv_bytes_total", lit "http_send_bytes_total",
   lit "http_latency_seconds_hist", lit "http_recv_bytes_hist", lit "http_send_bytes_hist"]

/-- The characters of names. -/
def nameLetters : GoStr := lit "abcdefghijklmnopqrstuvwxyzABCDEFGHIJKLMNOPQRSTUVWXYZ_"
def nameDigits : GoStr := lit "0123456789"

/-- A name of a metric: letters, digits and colons, not a digit at first. -/
structure MetricName (s : GoStr) : Prop where
  some : s ≠ []
  first : ∀ b ∈ s.head?, b ∉ nameDigits
  all : ∀ b ∈ s, b ∈ nameLetters ∨ b ∈ nameDigits ∨ b = 58

/-- A name of a label: letters and digits, not a digit at first, not two underscores at first. -/
structure LabelName (s : GoStr) : Prop where
  some : s ≠ []
  first : ∀ b ∈ s.head?, b ∉ nameDigits
  plain : ∀ t, s ≠ lit "__" ++ t
  all : ∀ b ∈ s, b ∈ nameLetters ∨ b ∈ nameDigits

end Spec
open Spec

/-- The Descs of the package. -/
def ownDescs : List MDesc := metricDecls.filterMap MetricDecl.desc

theorem registerDesc_plain (reg : List MDesc) (d : MDesc) (hb : d.bad = false) (hc : d.consts = []) :
    registerDesc reg d = if d.name ∈ reg.map (·.name) then none else some (reg ++ [d]) := by
  simp only [registerDesc, hb, Bool.false_eq_true, if_false]
  by_cases h : d.name ∈ reg.map (·.name)
  · rw [if_pos h]
    obtain ⟨d', hd, hn⟩ := List.mem_map.1 h
    by_cases hc' : d'.consts = []
    · rw [if_pos]
      rw [List.any_eq_true]
      exact ⟨d', hd, by simp [MDesc.id, hn, hc, hc']⟩
    · split
      · rfl
      · rw [if_pos]
        rw [List.any_eq_true]
        exact ⟨d', hd, by simp [MDesc.dim, hn, hc, hc']⟩
  · rw [if_neg h, if_neg, if_neg]
    · rw [List.any_eq_true]
      rintro ⟨d', hd, hn⟩
      simp only [decide_eq_true_eq] at hn
      exact h (List.mem_map.2 ⟨d', hd, hn.1⟩)
    · rw [List.any_eq_true]
      rintro ⟨d', hd, hn⟩
      simp only [decide_eq_true_eq, MDesc.id, Prod.mk.injEq] at hn
      exact h (List.mem_map.2 ⟨d', hd, hn.1⟩)

theorem register_all (ds : List MDesc) (hb : ∀ d ∈ ds, d.bad = false ∧ d.consts = []) (hn : (ds.map (·.name)).Nodup) (reg : List MDesc) :
    ds.foldlM registerDesc reg = if ∃ d ∈ ds, d.name ∈ reg.map (·.name) then none else some (reg ++ ds) := by
  induction ds generalizing reg with
  | nil => simp
  | cons d ds ih =>
    obtain ⟨h1, h2⟩ := hb d List.mem_cons_self
    rw [List.map_cons, List.nodup_cons] at hn
    rw [List.foldlM_cons, registerDesc_plain reg d h1 h2]
    by_cases hc : d.name ∈ reg.map (·.name)
    · rw [if_pos hc, if_pos ⟨d, List.mem_cons_self, hc⟩]
      rfl
    · rw [if_neg hc]
      show ds.foldlM registerDesc (reg ++ [d]) = _
      rw [ih (fun d' hd => hb d' (List.mem_cons_of_mem _ hd)) hn.2]
      have : (∃ d' ∈ ds, d'.name ∈ (reg ++ [d]).map (·.name)) ↔ ∃ d' ∈ d :: ds, d'.name ∈ reg.map (·.name) := by
        constructor
        · rintro ⟨d', hd, hm⟩
          rw [List.map_append, List.mem_append, List.map_singleton, List.mem_singleton] at hm
          rcases hm with hm | hm
          · exact ⟨d', List.mem_cons_of_mem _ hd, hm⟩
          · exact absurd (hm ▸ List.mem_map_of_mem hd) hn.1
        · rintro ⟨d', hd, hm⟩
          rcases List.mem_cons.1 hd with rfl | hd
          · exact absurd hm hc
          · exact ⟨d', hd, by rw [List.map_append]; exact List.mem_append_left _ hm⟩
      simp only [this, List.append_assoc, List.singleton_append]

theorem declare_all (ms : List MetricDecl) (h : ∀ m ∈ ms, m.desc.isSome) (reg : List MDesc) :
    ms.foldlM declare reg = (ms.filterMap MetricDecl.desc).foldlM registerDesc reg := by
  induction ms generalizing reg with
  | nil => rfl
  | cons m ms ih =>
    obtain ⟨d, hd⟩ := Option.isSome_iff_exists.1 (h m List.mem_cons_self)
    rw [List.foldlM_cons, List.filterMap_cons_some hd, List.foldlM_cons]
    have : declare reg m = registerDesc reg d := by rw [declare, hd]
    rw [this]
    cases hr : registerDesc reg d with
    | none => rfl
    | some reg' => exact ih (fun m' hm => h m' (List.mem_cons_of_mem _ hm)) reg'

/-- **C70.** The initialisation of the package panics exactly if a metric with one of its eight names has been registered before, whatever its labels and help
text are; else the eight metrics are added. -/
theorem C70_init (reg : List MDesc) :
    packageInit reg = if ∃ n ∈ metricNames, n ∈ reg.map (·.name) then none else some (reg ++ ownDescs) := by
  rw [packageInit, declare_all _ (by decide +kernel), register_all _ (by decide +kernel) (by decide +kernel)]
  have e : (metricDecls.filterMap MetricDecl.desc).map (·.name) = metricNames := by decide +kernel
  have : (∃ d ∈ metricDecls.filterMap MetricDecl.desc, d.name ∈ reg.map (·.name)) ↔ ∃ n ∈ metricNames, n ∈ reg.map (·.name) := by
    rw [← e]
    simp only [List.mem_map]
    constructor
    · rintro ⟨d, hd, hm⟩
      exact ⟨d.name, ⟨d, hd, rfl⟩, hm⟩
    · rintro ⟨n, ⟨d, hd, rfl⟩, hm⟩
      exact ⟨d, hd, hm⟩
  simp only [this]
  rfl

/-- **C70.** Linked into a program whose other metrics have other names, the package starts. -/
theorem C70_starts : packageInit [] = some ownDescs := by
  rw [C70_init, if_neg (by simp)]
  rfl

/-- **C70.** No two lines of a scrape have the same name, and no name is one of a series of a histogram by accident. -/
theorem C70_distinct : (metricDecls.flatMap MetricDecl.shown).Nodup ∧ ∀ n ∈ metricNames, n ∈ (metricDecls.flatMap MetricDecl.shown) ∨
    (n ++ lit "_sum" ∈ metricDecls.flatMap MetricDecl.shown) := by decide +kernel

/-- **C70.** The bounds of the histograms increase strictly, and each has one bucket less than counts are kept. -/
theorem C70_buckets : latencyBuckets.Pairwise (· < ·) ∧ fByteBuckets.Pairwise (· < ·) ∧ mkExponentialBuckets (f64 1024) (f64 4) 6 = some fByteBuckets ∧
    latencyBuckets.length + 1 = ({} : FReg).latencyHist.buckets.length ∧ fByteBuckets.length + 1 = ({} : FReg).sendHist.buckets.length ∧
    fByteBuckets.length + 1 = ({} : FReg).recvHist.buckets.length := by decide +kernel

theorem letter_iff (b : Byte) : (isAlpha b || b == 95) = true ↔ b ∈ nameLetters :=
  forall_byte (P := fun b => (isAlpha b || b == 95) = true ↔ b ∈ nameLetters) (by decide +kernel) b

theorem digit_iff (b : Byte) : isDigit b = true ↔ b ∈ nameDigits :=
  forall_byte (P := fun b => isDigit b = true ↔ b ∈ nameDigits) (by decide +kernel) b

theorem first_iff (b : Byte) : b ∈ nameDigits → b ∉ nameLetters ∧ b ≠ 58 :=
  forall_byte (P := fun b => b ∈ nameDigits → b ∉ nameLetters ∧ b ≠ 58) (by decide +kernel) b

/-- Which names the registry accepts. -/
theorem validMetricName_iff (s : GoStr) : validMetricName s = true ↔ MetricName s := by
  have key : ∀ b : Byte, (isAlpha b || b == 95 || b == 58) = true ↔ b ∈ nameLetters ∨ b = 58 := fun b => by
    rw [Bool.or_eq_true, letter_iff, beq_iff_eq]
  have key' : ∀ b : Byte, (isAlpha b || isDigit b || b == 95 || b == 58) = true ↔ b ∈ nameLetters ∨ b ∈ nameDigits ∨ b = 58 := fun b => by
    rw [← letter_iff, ← digit_iff]
    simp only [Bool.or_eq_true, beq_iff_eq]
    constructor <;> intro h <;> grind
  cases s with
  | nil => exact ⟨fun h => (by cases h), fun h => absurd rfl h.some⟩
  | cons b s =>
    simp only [validMetricName, Bool.and_eq_true, List.all_eq_true]
    rw [key]
    constructor
    · rintro ⟨h1, h2⟩
      refine ⟨by simp, fun x hx hd => ?_, fun x hx => ?_⟩
      · simp only [List.head?_cons, Option.mem_def, Option.some.injEq] at hx
        subst hx
        rcases h1 with h1 | h1
        · exact (first_iff b hd).1 h1
        · exact (first_iff b hd).2 h1
      · rcases List.mem_cons.1 hx with rfl | hx
        · exact h1.imp id .inr
        · exact (key' x).1 (h2 x hx)
    · intro h
      refine ⟨?_, fun x hx => (key' x).2 (h.all x (List.mem_cons_of_mem _ hx))⟩
      rcases h.all b List.mem_cons_self with k | k | k
      · exact .inl k
      · exact absurd k (h.first b (by simp))
      · exact .inr k

theorem validLabelName_iff (s : GoStr) : validLabelName s = true ↔ LabelName s := by
  have key' : ∀ b : Byte, (isAlpha b || isDigit b || b == 95) = true ↔ b ∈ nameLetters ∨ b ∈ nameDigits := fun b => by
    rw [← letter_iff, ← digit_iff]
    simp only [Bool.or_eq_true, beq_iff_eq]
    constructor <;> intro h <;> grind
  have hp : ∀ s : GoStr, (!([95, 95].isPrefixOf s)) = true ↔ ∀ t, s ≠ lit "__" ++ t := by
    intro s
    rw [Bool.not_eq_true', Bool.eq_false_iff, ne_eq, List.isPrefixOf_iff_prefix, show lit "__" = [95, 95] by decide +kernel]
    exact ⟨fun h t e => h ⟨t, e.symm⟩, fun h ⟨t, e⟩ => h t e.symm⟩
  cases s with
  | nil => exact ⟨fun h => (by cases h), fun h => absurd rfl h.some⟩
  | cons b s =>
    simp only [validLabelName]
    rw [Bool.and_eq_true, Bool.and_eq_true, letter_iff, List.all_eq_true, hp]
    constructor
    · rintro ⟨⟨h1, h2⟩, h3⟩
      refine ⟨by simp, fun x hx hd => ?_, h3, fun x hx => ?_⟩
      · simp only [List.head?_cons, Option.mem_def, Option.some.injEq] at hx
        subst hx
        exact (first_iff b hd).1 h1
      · rcases List.mem_cons.1 hx with rfl | hx
        · exact .inl h1
        · exact (key' x).1 (h2 x hx)
    · intro h
      refine ⟨⟨?_, fun x hx => (key' x).2 (h.all x (List.mem_cons_of_mem _ hx))⟩, h.plain⟩
      exact (h.all b List.mem_cons_self).resolve_right (h.first b (by simp))

/-- **C70.** What the registry accepts: names that are names, labels that are distinct names, and what agrees with the metrics of the same name that it has, but is not
the same. -/
theorem C70_register (reg : List MDesc) (d : MDesc) (r : List MDesc) : registerDesc reg d = some r ↔
    r = reg ++ [d] ∧ MetricName d.name ∧ (∀ l ∈ d.consts.map (·.1) ++ d.vars, LabelName l) ∧ (d.consts.map (·.1) ++ d.vars).Nodup ∧
    ∀ d' ∈ reg, d'.name = d.name → d'.consts.map (·.2) ≠ d.consts.map (·.2) ∧ d'.consts.map (·.1) = d.consts.map (·.1) ∧ d'.vars = d.vars ∧ d'.help = d.help := by
  have hb : d.bad = false ↔ MetricName d.name ∧ (∀ l ∈ d.consts.map (·.1) ++ d.vars, LabelName l) ∧ (d.consts.map (·.1) ++ d.vars).Nodup := by
    rw [← validMetricName_iff]
    simp only [← validLabelName_iff, MDesc.bad, Bool.or_eq_false_iff, Bool.not_eq_false', List.all_eq_true, decide_eq_true_eq, and_assoc]
  unfold registerDesc
  by_cases h : d.bad = true
  · rw [if_pos h]
    constructor
    · intro hh; cases hh
    · rintro ⟨-, h1, h2, h3, -⟩
      rw [hb.2 ⟨h1, h2, h3⟩] at h
      cases h
  · rw [if_neg h]
    have h' := hb.1 (by simpa using h)
    constructor
    · intro hh
      split at hh
      · cases hh
      · rename_i h1
        split at hh
        · cases hh
        · rename_i h2
          cases hh
          refine ⟨rfl, h'.1, h'.2.1, h'.2.2, fun d' hd hn => ?_⟩
          simp only [List.any_eq_true, decide_eq_true_eq, not_exists, not_and, MDesc.id, MDesc.dim, ne_eq, Prod.mk.injEq] at h1 h2
          have hd2 := h2 d' hd hn
          refine ⟨fun e => h1 d' hd hn e, ?_⟩
          refine Decidable.byContradiction fun hc => hd2 fun e1 e2 e3 => hc ⟨e1, e2, e3⟩
    · rintro ⟨rfl, -, -, -, hall⟩
      rw [if_neg, if_neg]
      · simp only [List.any_eq_true, decide_eq_true_eq, not_exists, not_and, MDesc.dim, ne_eq, Prod.mk.injEq, Decidable.not_not]
        exact fun d' hd hn hc => hc (hall d' hd hn).2.1 (hall d' hd hn).2.2.1 (hall d' hd hn).2.2.2
      · simp only [List.any_eq_true, decide_eq_true_eq, not_exists, not_and, MDesc.id, Prod.mk.injEq]
        exact fun d' hd hn => (hall d' hd hn).1

/-- **C70.** Histograms can be made exactly if their bounds increase strictly. -/
theorem C70_increasing (b : List Rat) : increasing b = true ↔ b.Pairwise (· < ·) := by
  induction b with
  | nil => simp [increasing]
  | cons a b ih =>
    cases b with
    | nil => simp [increasing]
    | cons c l =>
      rw [increasing, Bool.and_eq_true, decide_eq_true_eq, ih, List.pairwise_cons (a := a)]
      constructor
      · rintro ⟨h1, h2⟩
        refine ⟨fun x hx => ?_, h2⟩
        rcases List.mem_cons.1 hx with rfl | hx
        · exact h1
        · exact Std.lt_trans h1 ((List.pairwise_cons.1 h2).1 x hx)
      · rintro ⟨h1, h2⟩
        exact ⟨h1 c (by simp), h2⟩

/-- **C70.** There are buckets for these arguments exactly: at least one, from above zero on, each greater than the one before. -/
theorem C70_exponential (start factor : Rat) (n : Nat) : (mkExponentialBuckets start factor n).isSome ↔ 0 < n ∧ 0 < start ∧ 1 < factor := by
  unfold mkExponentialBuckets
  split
  · rename_i h
    simp only [Option.isSome_none, Bool.false_eq_true, false_iff]
    rintro ⟨h1, h2, h3⟩
    rcases h with h | h | h
    · omega
    · exact absurd h2 (Rat.not_lt.2 h)
    · exact absurd h3 (Rat.not_lt.2 h)
  · rename_i h
    simp only [not_or, Rat.not_le] at h
    exact ⟨fun _ => ⟨by omega, h.2⟩, fun _ => rfl⟩

/-- **C70.** What is counted by status code has the status code as its only label; no metric has constant labels, and all have a help text. -/
theorem C70_labels : ∀ d ∈ ownDescs, d.consts = [] ∧ d.help ≠ [] ∧
    d.vars = if d.name ∈ [lit "http_requests_total", lit "http_latency_total", lit "http_recv_bytes_total", lit "http_send_bytes_total"] then [lit "code"] else [] := by
  decide +kernel

/-! ## Examples -/

example : (registerDesc [{ name := lit "up:x_9", consts := [(lit "job", lit "a")] }] { name := lit "up:x_9", consts := [(lit "job", lit "b")] }).isSome ∧
    mkExponentialBuckets (1 / 2) 2 3 = some [1 / 2, 1, 2] := by decide +kernel


example : (packageInit [{ name := lit "go_goroutines", help := lit "Number of goroutines that currently exist." }]).map List.length = some 9 := by decide +kernel
/-- A program that has its own `http_requests_total` does not start, even if the labels are different. -/
example : packageInit [{ name := lit "http_requests_total", help := lit "Requests.", vars := [lit "method"] }] = none := by decide +kernel
example : packageInit [{ name := lit "http_requests_total", help := lit "Requests.", consts := [(lit "job", lit "a")] }] = none := by decide +kernel
/-- Twice is too often. -/
example : (packageInit []).bind packageInit = none := by decide +kernel
/-- Names that are not valid, and bounds that do not increase. -/
example : registerDesc [] { name := lit "http-panics" } = none ∧ registerDesc [] { name := lit "2xx_total" } = none ∧
    registerDesc [] { name := [] } = none ∧ registerDesc [] { name := lit "x", vars := [lit "__code"] } = none ∧
    registerDesc [] { name := lit "x", vars := [lit "code", lit "code"] } = none ∧ (MetricDecl.histogram (lit "x") [] (some [1, 1])).desc = none ∧
    mkExponentialBuckets 1 1 6 = none := by decide +kernel

end Verif
