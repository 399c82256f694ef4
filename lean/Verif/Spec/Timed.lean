import Verif.Model.Timed
import Verif.Spec.Scrape

/-!
# What a scrape of the metrics shows, with times

In terms of the list of everything that has been done to the metrics, each with the time in nanoseconds that its request took.
-/

set_option autoImplicit false

namespace Verif

/-- The requests that come, with their times. -/
def tArrivals (ms : List TMove) : List (Served × Nat) := ms.filterMap fun | .arrive q d => some (q, d) | .tick _ => none

/-- All requests that have come have been dealt with. -/
def TServer.Quiet (s : TServer) : Prop := ∀ l ∈ s.todo, l.1 = []

namespace Spec

/-- The steps of each request, each step with the time of its request. -/
def stamped (l : List (List MEv × Nat)) : List (MEv × Nat) := l.flatMap fun p => p.1.map fun e => (e, p.2)

/-- All steps of the requests that have come. -/
def allSteps (l : List (Served × Nat)) : List (MEv × Nat) := stamped (l.map fun p => (p.1.2.1, p.2))

/-- The request was counted with the label `c`. -/
def countedAs (c : GoStr) (p : Served × Nat) : Bool := decide (c ∈ requestsCounted p.1.2.1)

/-- The times added to the latency counter of label `c`. -/
def latencyFor (c : GoStr) (ev : List (MEv × Nat)) : List Nat :=
  ev.filterMap fun | (.latencyTotal c', d) => if c' = c then some d else none | _ => none

/-- The times observed in the latency histogram. -/
def latencySeen (ev : List (MEv × Nat)) : List Nat := ev.filterMap fun | (.latencyHist, d) => some d | _ => none

/-- `x` is `t`, except for a relative error of at most `m` times `2^-52`. -/
def Close (m : Nat) (t x : Rat) : Prop := t - t * (m / 2 ^ 52) ≤ x ∧ x ≤ t + t * (m / 2 ^ 52)

/-- The number of nanoseconds in `l`, in seconds. -/
def inSeconds (l : List Nat) : Rat := ((l.sum : Nat) : Rat) / 10 ^ 9

/-- The upper bounds of the latency histogram in milliseconds. -/
def latencyMs : List Nat := [5, 10, 20, 50, 100, 200, 500, 1000, 2000, 5000, 10000]

/-- The largest sum up to which sums are exact. -/
def exactMax : Int := 2 ^ 53

/-- A histogram of numbers of bytes shows the observations `l`. -/
structure FHistShows (h : FHist) (l : List Int) : Prop where
  count : h.count = l.length
  sum : l.sum ≤ exactMax → h.sum = (l.sum : Int)
  upTo : ∀ (j : Nat) (b : Int), byteBuckets[j]? = some b → h.upTo j = l.countP (fun v => decide (v ≤ b))
  all : h.upTo byteBuckets.length = l.length

/-- The metrics show `ev`. -/
structure TDisplays (r : FReg) (ev : List (MEv × Nat)) : Prop where
  panics : (panicsCounted (ev.map (·.1)) : Int) ≤ exactMax → r.panics.value = panicsCounted (ev.map (·.1))
  requests : ∀ c, ((requestsCounted (ev.map (·.1))).count c : Int) ≤ exactMax → (r.requests.get c).value = (requestsCounted (ev.map (·.1))).count c
  recvBytes : ∀ c, sumFor c (recvCounted (ev.map (·.1))) ≤ exactMax →
    (r.recvBytes.get c).value = (sumFor c (recvCounted (ev.map (·.1))) : Int)
  sendBytes : ∀ c, sumFor c (sendCounted (ev.map (·.1))) ≤ exactMax →
    (r.sendBytes.get c).value = (sumFor c (sendCounted (ev.map (·.1))) : Int)
  recvHist : FHistShows r.recvHist (recvObserved (ev.map (·.1)))
  sendHist : FHistShows r.sendHist (sendObserved (ev.map (·.1)))
  latency : ∀ c, (latencyFor c ev).length + 4 ≤ 2 ^ 52 → (latencyFor c ev).sum ≤ 2 ^ 63 * 10 ^ 9 →
    Close ((latencyFor c ev).length + 4) (inSeconds (latencyFor c ev)) (r.latency.get c).value
  latencyCount : r.latencyHist.count = (latencySeen ev).length
  latencySum : (latencySeen ev).length + 2 ≤ 2 ^ 52 → Close ((latencySeen ev).length + 2) (inSeconds (latencySeen ev)) r.latencyHist.sum
  /-- Exactly the requests that took at most this long are in the buckets up to this one. -/
  latencyUpTo : ∀ (j : Nat) (ms : Nat), latencyMs[j]? = some ms →
    r.latencyHist.upTo j = (latencySeen ev).countP (fun d => decide (d ≤ ms * 10 ^ 6))
  latencyAll : r.latencyHist.upTo latencyMs.length = (latencySeen ev).length

end Spec

end Verif
