import Verif.Proofs.Timed
import Verif.Props.Registry

/-!
# Property of the numbers in the metrics: C69

As in C63, any number of requests come to a server and their goroutines are interleaved in any way.  Each request takes some number of nanoseconds.  The metrics are
`float64`.
-/

set_option autoImplicit false

namespace Verif
open Spec

theorem plain_of_request {q : Served} (h : IsRequest q) : PlainEv q.2.1 := by
  intro e he
  rcases request_shape q h with h | ⟨k, pv, a, h, -⟩
  · rw [h.1] at he; simp at he
  · have := accepted_nonneg q.1
    rw [h] at he
    cases pv <;> simp [metricsOf] at he
    · rcases he with rfl | rfl | rfl | rfl | rfl | rfl | rfl <;> simp_all
    · rcases he with rfl | rfl | rfl | rfl | rfl | rfl | rfl | rfl | rfl <;> simp_all

theorem plain_all {l : List (Served × Nat)} (h : ∀ p ∈ l, IsRequest p.1) : PlainEv ((allSteps l).map (·.1)) := by
  intro e he
  simp only [allSteps, stamped, List.mem_map, List.mem_flatMap] at he
  obtain ⟨x, ⟨y, ⟨p, hp, rfl⟩, e', he', rfl⟩, rfl⟩ := he
  exact plain_of_request (h p hp) e' he'

theorem PlainEv.sub {l l' : List MEv} (h : PlainEv l) (hs : ∀ e ∈ l', e ∈ l) : PlainEv l' := fun e he => h e (hs e he)

/-- **C69.** At every time: what has been done to the metrics and what is yet to be done are together the steps of all requests, and the metrics show what has been
done.  Counters and sums of bytes are exact up to 2^53, those of times have a relative error of at most 2^-52 for each addition, and each observation is in the
right bucket. -/
theorem C69_any_time (ms : List TMove) (hq : ∀ p ∈ tArrivals ms, IsRequest p.1) :
    ∃ log, (log ++ stamped (TServer.run {} ms).todo).Perm (allSteps (tArrivals ms)) ∧ TDisplays (TServer.run {} ms).reg log := by
  obtain ⟨log, h⟩ := timedInv_run timedInv_init ms
  rw [List.nil_append] at h
  have hs := h.split
  rw [tbegun_run] at hs
  refine ⟨log, hs, h.parts.displays ((plain_all hq).sub fun e he => ?_)⟩
  obtain ⟨x, hx, rfl⟩ := List.mem_map.1 he
  exact List.mem_map_of_mem (hs.mem_iff.1 (List.mem_append_left _ hx))

theorem quiet_log (ms : List TMove) (hq : ∀ p ∈ tArrivals ms, IsRequest p.1) (hquiet : (TServer.run {} ms).Quiet) :
    TDisplays (TServer.run {} ms).reg (allSteps (tArrivals ms)) := by
  obtain ⟨log, h1, h2⟩ := C69_any_time ms hq
  have : stamped (TServer.run {} ms).todo = [] := by
    simp only [stamped, List.flatMap_eq_nil_iff, List.map_eq_nil_iff]
    exact hquiet
  rw [this, List.append_nil] at h1
  exact h2.perm h1

/-- What the steps of requests that have returned add up to. -/
theorem allSteps_shape (l : List (Served × Nat)) (h : ∀ p ∈ l, IsRequest p.1 ∧ p.1.2.2 = .ret ()) :
    latencySeen (allSteps l) = l.map (·.2) ∧
    sendObserved ((allSteps l).map (·.1)) = l.map (fun p => accepted p.1.1) ∧
    ∀ c, latencyFor c (allSteps l) = (l.filter (countedAs c)).map (·.2) ∧
      (requestsCounted ((allSteps l).map (·.1))).count c = l.countP (countedAs c) ∧
      sumFor c (sendCounted ((allSteps l).map (·.1))) = ((l.filter (countedAs c)).map fun p => accepted p.1.1).sum := by
  induction l with
  | nil => exact ⟨rfl, rfl, fun c => ⟨rfl, rfl, rfl⟩⟩
  | cons p l ih =>
    obtain ⟨i1, i2, i3⟩ := ih fun p' hp => h p' (List.mem_cons_of_mem _ hp)
    obtain ⟨k, pv, a, hk, -⟩ := returned_shape (h p List.mem_cons_self)
    have e : allSteps (p :: l) = p.1.2.1.map (fun e => (e, p.2)) ++ allSteps l := rfl
    have hr : requestsCounted p.1.2.1 = [itoa k] := by
      rw [hk]
      cases pv <;> simp [metricsOf, requestsCounted]
    rw [e]
    refine ⟨?_, ?_, fun c => ?_⟩
    · rw [List.map_cons, ← i1, hk]
      cases pv <;> simp [metricsOf, latencySeen]
    · rw [List.map_cons, ← i2, hk]
      cases pv <;> simp [metricsOf, sendObserved]
    · obtain ⟨j1, j2, j3⟩ := i3 c
      by_cases hc : c = itoa k
      · have hcount : countedAs c p = true := by simp [countedAs, hr, hc]
        rw [List.filter_cons_of_pos hcount, List.countP_cons_of_pos hcount, List.map_cons, List.map_cons, List.sum_cons, ← j1, ← j2, ← j3, hk]
        subst hc
        cases pv <;> simp [metricsOf, latencyFor, requestsCounted, sumFor, sendCounted] <;> omega
      · have hcount : ¬ countedAs c p = true := by simp [countedAs, hr, hc]
        have hc' : ¬ itoa k = c := fun h => hc h.symm
        rw [List.filter_cons_of_neg hcount, List.countP_cons_of_neg hcount, ← j1, ← j2, ← j3, hk]
        cases pv <;> simp [metricsOf, latencyFor, requestsCounted, sumFor, sendCounted, hc']

/-- **C69.** When all requests have been dealt with: every request is in the bucket of its time and in that of its number of bytes, exactly; sums of times are right
up to the rounding errors; numbers of requests and bytes are exact up to 2^53. -/
theorem C69_quiet (ms : List TMove) (hq : ∀ p ∈ tArrivals ms, IsRequest p.1 ∧ p.1.2.2 = .ret ()) (hquiet : (TServer.run {} ms).Quiet) :
    let r := (TServer.run {} ms).reg
    let l := tArrivals ms
    r.latencyHist.count = l.length ∧
    (∀ (j : Nat) b, latencyMs[j]? = some b → r.latencyHist.upTo j = l.countP fun p => decide (p.2 ≤ b * 10 ^ 6)) ∧
    (l.length + 2 ≤ 2 ^ 52 → Close (l.length + 2) (inSeconds (l.map (·.2))) r.latencyHist.sum) ∧
    FHistShows r.sendHist (l.map fun p => accepted p.1.1) ∧
    ∀ c, let l' := l.filter (countedAs c)
      ((l'.length : Int) ≤ exactMax → (r.requests.get c).value = l'.length) ∧
      ((l'.map fun p => accepted p.1.1).sum ≤ exactMax → (r.sendBytes.get c).value = ((l'.map fun p => accepted p.1.1).sum : Int)) ∧
      (l'.length + 4 ≤ 2 ^ 52 → (l'.map (·.2)).sum ≤ 2 ^ 63 * 10 ^ 9 → Close (l'.length + 4) (inSeconds (l'.map (·.2))) (r.latency.get c).value) := by
  have h := quiet_log ms (fun p hp => (hq p hp).1) hquiet
  obtain ⟨s1, s2, s3⟩ := allSteps_shape _ hq
  obtain ⟨-, h2, -, h4, -, h6, h7, h8, h9, h10, -⟩ := h
  rw [s1] at h8 h9 h10
  rw [s2] at h6
  rw [List.length_map] at h8 h9
  refine ⟨h8, ?_, h9, h6, fun c => ⟨?_, ?_, ?_⟩⟩
  · intro j b hj
    rw [h10 j b hj, List.countP_map]
    rfl
  · intro hle
    have := h2 c
    rw [(s3 c).2.1, List.countP_eq_length_filter] at this
    exact this hle
  · have := h4 c
    rwa [(s3 c).2.2] at this
  · have := h7 c
    rwa [(s3 c).1, List.length_map] at this

theorem latencyFor_append (c : GoStr) (a b : List (MEv × Nat)) : latencyFor c (a ++ b) = latencyFor c a ++ latencyFor c b := List.filterMap_append

/-- **C69.** The sum of the latency histogram never becomes smaller, and as long as the requests that have come take less than 2^63 seconds neither does any
latency counter. -/
theorem C69_never_less (ms ms' : List TMove) :
    (TServer.run {} ms).reg.latencyHist.sum ≤ (TServer.run {} (ms ++ ms')).reg.latencyHist.sum ∧
    ∀ c, (latencyFor c (allSteps (tArrivals (ms ++ ms')))).sum ≤ 2 ^ 63 * 10 ^ 9 →
      ((TServer.run {} ms).reg.latency.get c).value ≤ ((TServer.run {} (ms ++ ms')).reg.latency.get c).value := by
  obtain ⟨log, h⟩ := timedInv_run timedInv_init ms
  obtain ⟨ext, h'⟩ := timedInv_run h ms'
  rw [List.nil_append] at h h'
  have e : (TServer.run {} ms).run ms' = TServer.run {} (ms ++ ms') := List.foldl_append.symm
  rw [e] at h'
  constructor
  · rw [h.parts.latencyHist, h'.parts.latencyHist]
    simp only [latencySeen, List.filterMap_append, List.foldl_append]
    obtain ⟨f1, f2, -⟩ := observes_float latencyBuckets seconds seconds_nonneg (latencySeen log) { buckets := List.replicate 12 0 } rfl Rat.le_refl
    exact (observes_float latencyBuckets seconds seconds_nonneg (latencySeen ext) _ f1 f2).2.2
  · intro c hle
    have hs := h'.split
    rw [tbegun_run] at hs
    have hsum : (latencyFor c (log ++ ext)).sum ≤ 2 ^ 63 * 10 ^ 9 := by
      have h1 := nat_sum_perm (show (latencyFor c _).Perm (latencyFor c _) from hs.filterMap _)
      rw [latencyFor_append c (log ++ ext), List.sum_append] at h1
      simp only [List.nil_append] at h1
      omega
    have hv : ∀ l : List Nat, ∀ v ∈ l.map seconds, 0 ≤ v := by
      intro l v hv
      obtain ⟨d, -, rfl⟩ := List.mem_map.1 hv
      exact seconds_nonneg d
    rw [h.parts.latency, h'.parts.latency, latencyFor_append, List.map_append, List.foldl_append]
    obtain ⟨f1, f2⟩ := adds_float _ (hv (latencyFor c log)) {} rfl Rat.le_refl
    refine value_adds _ (hv _) _ f1 f2 ?_
    obtain ⟨A, B, hc, hAB⟩ := counted_adds _ (hv (latencyFor c log)) counted_init
    have hi : ((List.foldl FCounter.add {} ((latencyFor c log).map seconds)).int : Rat) ≤ A := by
      rw [hc.int]
      exact Rat.natCast_le_natCast.2 (Nat.mod_le _ _)
    have hB := hc.nonneg
    rw [show ((0 : Nat) : Rat) = 0 from rfl, Rat.zero_add, Rat.zero_add] at hAB
    have h1 := (seconds_sum (latencyFor c log ++ latencyFor c ext)).2
    rw [List.map_append, List.sum_append] at h1
    rw [latencyFor_append] at hsum
    have h2 : inSeconds (latencyFor c log ++ latencyFor c ext) ≤ 2 ^ 63 := by
      have := Rat.mul_le_mul_of_nonneg_right (Rat.natCast_le_natCast.2 hsum) (show (0 : Rat) ≤ ((10 : Rat) ^ 9)⁻¹ by decide +kernel)
      rwa [show ((2 ^ 63 * 10 ^ 9 : Nat) : Rat) * ((10 : Rat) ^ 9)⁻¹ = 2 ^ 63 by decide +kernel] at this
    have h3 := Rat.mul_le_mul_of_nonneg_left h2 (Rat.le_of_lt (hi_pow_pos 2))
    have h4 : (1 + ulp2) ^ 2 * 2 ^ 63 < (2 : Rat) ^ 64 := by decide +kernel
    grind

/-! ## Examples -/

/-- 5 ms is in the first bucket, and one nanosecond more is not. -/
example : seconds 5000000 ≤ f64 (5 / 1000) ∧ ¬ seconds 5000001 ≤ f64 (5 / 1000) := by decide +kernel
/-- The bounds are not exact, and neither are the times. -/
example : f64 (5 / 1000) ≠ 5 / 1000 ∧ seconds 100000000 ≠ 1 / 10 ∧ seconds 1500000000 = 3 / 2 := by decide +kernel
/-- In the middle between two: the one with the even last place. -/
example : f64 (2 ^ 53 + 1) = 2 ^ 53 ∧ f64 (2 ^ 53 + 3) = 2 ^ 53 + 4 := by decide +kernel
/-- The famous sum. -/
example : f64 (f64 (1 / 10) + f64 (2 / 10)) ≠ f64 (3 / 10) := by decide +kernel

/-- Both requests of C63, after 7 ms and 2 s. -/
def exTMoves (n : Nat) : List TMove := [.arrive exGood 7000000, .arrive exBad 2000000000] ++ (List.range n).flatMap fun _ => [.tick 0, .tick 1]

example : (TServer.run {} (exTMoves 9)).todo = [([], 7000000), ([], 2000000000)] := by decide +kernel
example : (TServer.run {} (exTMoves 9)).reg.latencyHist.buckets = [0, 1, 0, 0, 0, 0, 0, 0, 1, 0, 0, 0] := by decide +kernel
example : let r := (TServer.run {} (exTMoves 9)).reg
    (r.requests.get (lit "404")).value = 1 ∧ (r.sendBytes.get (lit "404")).value = 2 ∧ (r.latency.get (lit "0")).value = 2 ∧
    (r.latency.get (lit "404")).value = f64 (7 / 1000) ∧ r.latency.get (lit "0") = ⟨0, 2⟩ ∧ r.panics.value = 1 := by decide +kernel

/-- Beyond 2^53 bytes a counter shows the wrong number: the condition is needed. -/
theorem C69_inexact : ∃ l : List Int, (∀ n ∈ l, 0 ≤ n) ∧ l.sum = exactMax + 1 ∧
    (l.foldl (fun (c : FCounter) (n : Int) => c.add (f64 n)) {}).value ≠ (l.sum : Int) :=
  ⟨[2 ^ 53, 1], by decide, by decide, by decide +kernel⟩

/-- The rounding errors exist: a nanosecond that is added to 2^24 + 1/2 seconds is lost. -/
theorem C69_lost : ∃ c : FCounter, c = ([16777216500000000, 1].map seconds).foldl FCounter.add {} ∧ c.value = inSeconds [16777216500000000] ∧
    c.value ≠ inSeconds [16777216500000000, 1] := ⟨_, rfl, by decide +kernel⟩

end Verif
