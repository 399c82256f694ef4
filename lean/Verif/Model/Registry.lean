import Verif.Model.Adaptor

/-!
# The metrics of `/repo/handler/adaptor.go:13-70`, and requests that are handled at the same time

The Prometheus client library is modelled from knowledge of its documentation: a counter is a number, a counter vector has one counter for each label that was
used, a histogram counts observations per bucket.  `Inc`, `Add` and `Observe` are indivisible.  Values are integers (in Go they are `float64`, which are exact
up to 2^53).  Times are not modelled: of latencies only the number of additions and observations is kept.
-/

set_option autoImplicit false

namespace Verif

/-- A counter vector with one label: the labels used so far, and their counters. -/
abbrev Vec := List (GoStr × Int)

/-- `.With({code}).Add(n)` -/
def Vec.add (c : GoStr) (n : Int) : Vec → Vec
  | [] => [(c, n)]
  | (c', m) :: v => if c' = c then (c', m + n) :: v else (c', m) :: Vec.add c n v

/-- The value shown for a label (0 if there is none). -/
def Vec.get (c : GoStr) : Vec → Int
  | [] => 0
  | (c', m) :: v => if c' = c then m else Vec.get c v

/-- The sum over all labels. -/
def Vec.total (v : Vec) : Int := (v.map (·.2)).sum

/-- `prometheus.ExponentialBuckets(start, factor, count)` -/
def exponentialBuckets (start factor : Int) : Nat → List Int
  | 0 => []
  | n + 1 => start :: exponentialBuckets (start * factor) factor n

/-- `/repo/handler/adaptor.go:60`, `:67`. -/
def byteBuckets : List Int := exponentialBuckets 1024 4 6

/-- A histogram.  `buckets`: how many observations are in each bucket (up to its bound, and above the one before); the last is for those above all bounds. -/
structure Hist where
  count : Nat := 0
  sum : Int := 0
  buckets : List Nat
deriving DecidableEq, Repr

/-- `.Observe(v)` -/
def Hist.observe (bounds : List Int) (h : Hist) (v : Int) : Hist :=
  { count := h.count + 1, sum := h.sum + v, buckets := h.buckets.modify (bounds.findIdx fun b => decide (v ≤ b)) (· + 1) }

/-- What is exported for the bound with index `j`: the number of observations up to it. -/
def Hist.upTo (h : Hist) (j : Nat) : Nat := (h.buckets.take (j + 1)).sum

/-- All metrics, and the calls of `OnPanic`. -/
structure Registry where
  panics : Nat := 0
  requests : Vec := []
  /-- the number of additions, not their sum -/
  latency : Vec := []
  recvBytes : Vec := []
  sendBytes : Vec := []
  /-- the number of observations -/
  latencyHist : Nat := 0
  recvHist : Hist := { buckets := List.replicate 7 0 }
  sendHist : Hist := { buckets := List.replicate 7 0 }
  reported : List PanicArg := []
deriving DecidableEq, Repr

def Registry.apply (r : Registry) : MEv → Registry
  | .panicsTotal => { r with panics := r.panics + 1 }
  | .requestsTotal c => { r with requests := r.requests.add c 1 }
  | .latencyTotal c => { r with latency := r.latency.add c 1 }
  | .recvBytesTotal c n => { r with recvBytes := r.recvBytes.add c n }
  | .sendBytesTotal c n => { r with sendBytes := r.sendBytes.add c n }
  | .latencyHist => { r with latencyHist := r.latencyHist + 1 }
  | .recvBytesHist n => { r with recvHist := r.recvHist.observe byteBuckets n }
  | .sendBytesHist n => { r with sendHist := r.sendHist.observe byteBuckets n }
  | .onPanic a => { r with reported := r.reported ++ [a] }

/-- A request: the calls on its ResponseWriter, what its goroutine does to the metrics, and how `ServeHTTP` ends. -/
abbrev Served := List WEv × List MEv × Res Unit

/-- A server: the requests that have come, and for each of them what its goroutine has yet to do to the metrics. -/
structure Server where
  reg : Registry := {}
  begun : List Served := []
  todo : List (List MEv) := []

inductive Move where
  /-- a request comes -/
  | arrive (q : Served)
  /-- the goroutine of the request with this number goes on -/
  | tick (i : Nat)

def Server.step (s : Server) : Move → Server
  | .arrive q => { s with begun := s.begun ++ [q], todo := s.todo ++ [q.2.1] }
  | .tick i =>
    match s.todo[i]? with
    | some (e :: rest) => { s with reg := s.reg.apply e, todo := s.todo.set i rest }
    | _ => s

def Server.run (s : Server) (l : List Move) : Server := l.foldl Server.step s

end Verif
