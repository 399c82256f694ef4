import Verif.Model.Registry
import Verif.Spec.Metrics
import Verif.Spec.Http

/-!
# What a scrape of the metrics shows

In terms of the list of everything that has been done to the metrics; the order does not matter.
-/

set_option autoImplicit false

namespace Verif.Spec

/-- A histogram shows the observations `l`. -/
structure HistShows (bounds : List Int) (h : Hist) (l : List Int) : Prop where
  size : h.buckets.length = bounds.length + 1
  count : h.count = l.length
  sum : h.sum = l.sum
  upTo : ∀ j b, bounds[j]? = some b → h.upTo j = l.countP (fun v => decide (v ≤ b))
  all : h.upTo bounds.length = l.length

/-- The observations in the received-bytes histogram. -/
def recvObserved (ev : List MEv) : List Int := ev.filterMap fun | .recvBytesHist n => some n | _ => none

/-- The additions to the received-bytes counter. -/
def recvCounted (ev : List MEv) : List (GoStr × Int) := ev.filterMap fun | .recvBytesTotal c n => some (c, n) | _ => none

/-- The labels of the additions to the latency counter. -/
def latencyCounted (ev : List MEv) : List GoStr := ev.filterMap fun | .latencyTotal c => some c | _ => none

/-- How often a latency was observed. -/
def latencyObserved (ev : List MEv) : Nat := ev.countP fun | .latencyHist => true | _ => false

/-- The sum of the additions to the counter of label `c`. -/
def sumFor (c : GoStr) (l : List (GoStr × Int)) : Int := ((l.filter (fun p => decide (p.1 = c))).map (·.2)).sum

/-- The metrics show `ev`. -/
structure Displays (r : Registry) (ev : List MEv) : Prop where
  panics : r.panics = panicsCounted ev
  requests : ∀ c, r.requests.get c = (requestsCounted ev).count c
  requestsTotal : r.requests.total = (requestsCounted ev).length
  latency : ∀ c, r.latency.get c = (latencyCounted ev).count c
  recvBytes : ∀ c, r.recvBytes.get c = sumFor c (recvCounted ev)
  sendBytes : ∀ c, r.sendBytes.get c = sumFor c (sendCounted ev)
  sendTotal : r.sendBytes.total = ((sendCounted ev).map (·.2)).sum
  latencyHist : r.latencyHist = latencyObserved ev
  recvHist : HistShows byteBuckets r.recvHist (recvObserved ev)
  sendHist : HistShows byteBuckets r.sendHist (sendObserved ev)
  reported : r.reported.Perm (panicsReported ev)

end Verif.Spec

namespace Verif
open Spec

/-- What the goroutine of each request has done to the metrics by now. -/
def Server.done (s : Server) : List (List MEv) :=
  List.zipWith (fun (q : Served) rest => q.2.1.take (q.2.1.length - rest.length)) s.begun s.todo

/-- The requests that come. -/
def arrivals (ms : List Move) : List Served := ms.filterMap fun | .arrive q => some q | .tick _ => none

/-- All requests that have come have been dealt with. -/
def Server.Quiet (s : Server) : Prop := ∀ l ∈ s.todo, l = []

/-- How many goroutines have not yet done everything they have to do to the metrics. -/
def Server.inFlight (s : Server) : Nat := s.todo.countP (fun l => !l.isEmpty)

namespace Spec

/-- No counter of `r'` is below that of `r`, and no call of `OnPanic` is forgotten. -/
structure NotLess (r r' : Registry) : Prop where
  panics : r.panics ≤ r'.panics
  requests : ∀ c, r.requests.get c ≤ r'.requests.get c
  latency : ∀ c, r.latency.get c ≤ r'.latency.get c
  recvBytes : ∀ c, r.recvBytes.get c ≤ r'.recvBytes.get c
  sendBytes : ∀ c, r.sendBytes.get c ≤ r'.sendBytes.get c
  latencyHist : r.latencyHist ≤ r'.latencyHist
  recvHist : r.recvHist.count ≤ r'.recvHist.count ∧ r.recvHist.sum ≤ r'.recvHist.sum ∧ ∀ j, r.recvHist.upTo j ≤ r'.recvHist.upTo j
  sendHist : r.sendHist.count ≤ r'.sendHist.count ∧ r.sendHist.sum ≤ r'.sendHist.sum ∧ ∀ j, r.sendHist.upTo j ≤ r'.sendHist.upTo j
  reported : r.reported <+: r'.reported

end Spec
end Verif
