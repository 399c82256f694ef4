import Verif.Model.Float
import Verif.Model.Registry

/-!
# The metrics of `/repo/handler/adaptor.go:13-70` with times, in `float64`

`Model/Registry.lean` counts in integers and leaves the times out.  Here the values are `float64`, as in version 1.11.0 of the Prometheus client library, which is
modelled from knowledge of its source.  The time that a request took is a number of nanoseconds, which the request brings with it: the clock is monotonic, so it
is not negative, and `time.Duration` is an `int64`.

* A counter has two parts, a `float64` and a `uint64`; whole numbers are added to the second.  Only `uint64` that hold sums of values wrap around here, those that
  count observations do not.
* A histogram looks for the first bound that is not below the value.
* `Inc`, `Add` and `Observe` are indivisible.
-/

set_option autoImplicit false

namespace Verif

structure FCounter where
  bits : Rat := 0
  int : Nat := 0
deriving DecidableEq, Repr

/-- `counter.Inc()` -/
def FCounter.inc (c : FCounter) : FCounter := { c with int := (c.int + 1) % 2 ^ 64 }

/-- `counter.Add(v)` for `v ≥ 0` -/
def FCounter.add (c : FCounter) (v : Rat) : FCounter :=
  if v.den = 1 ∧ v < 2 ^ 64 then { c with int := (c.int + v.num.toNat) % 2 ^ 64 }
  else { c with bits := f64 (c.bits + v) }

/-- What is exported (`counter.Write`). -/
def FCounter.value (c : FCounter) : Rat := f64 (c.bits + f64 c.int)

/-- A counter vector with one label. -/
abbrev FVec := List (GoStr × FCounter)

/-- `.With({code})`, and a method of the counter -/
def FVec.upd (c : GoStr) (f : FCounter → FCounter) : FVec → FVec
  | [] => [(c, f {})]
  | (c', k) :: v => if c' = c then (c', f k) :: v else (c', k) :: FVec.upd c f v

def FVec.get (c : GoStr) : FVec → FCounter
  | [] => {}
  | (c', k) :: v => if c' = c then k else FVec.get c v

structure FHist where
  count : Nat := 0
  sum : Rat := 0
  buckets : List Nat
deriving DecidableEq, Repr

/-- `.Observe(v)` -/
def FHist.observe (bounds : List Rat) (h : FHist) (v : Rat) : FHist :=
  { count := h.count + 1, sum := f64 (h.sum + v), buckets := h.buckets.modify (bounds.findIdx fun b => decide (v ≤ b)) (· + 1) }

/-- The number of observations up to the bound with index `j`. -/
def FHist.upTo (h : FHist) (j : Nat) : Nat := (h.buckets.take (j + 1)).sum

/-- `/repo/handler/adaptor.go:53`: the constants are rounded when the program is compiled. -/
def latencyBuckets : List Rat :=
  [f64 (5 / 1000), f64 (10 / 1000), f64 (20 / 1000), f64 (50 / 1000), f64 (100 / 1000), f64 (200 / 1000), f64 (500 / 1000), f64 1, f64 2, f64 5, f64 10]

/-- `prometheus.ExponentialBuckets(start, factor, count)` -/
def fExponentialBuckets (start factor : Rat) : Nat → List Rat
  | 0 => []
  | n + 1 => start :: fExponentialBuckets (f64 (start * factor)) factor n

/-- `/repo/handler/adaptor.go:60`, `:67`. -/
def fByteBuckets : List Rat := fExponentialBuckets (f64 1024) (f64 4) 6

/-- `float64(elapsedDuration) / float64(time.Second)` (`/repo/handler/adaptor.go:84`). -/
def seconds (d : Nat) : Rat := f64 (f64 d / f64 1000000000)

structure FReg where
  panics : FCounter := {}
  requests : FVec := []
  latency : FVec := []
  recvBytes : FVec := []
  sendBytes : FVec := []
  latencyHist : FHist := { buckets := List.replicate 12 0 }
  recvHist : FHist := { buckets := List.replicate 7 0 }
  sendHist : FHist := { buckets := List.replicate 7 0 }
deriving DecidableEq, Repr

/-- One step of a request that took `d` nanoseconds (`/repo/handler/adaptor.go:90-99`; `:85-86` for the conversions). -/
def FReg.apply (r : FReg) (e : MEv) (d : Nat) : FReg :=
  match e with
  | .panicsTotal => { r with panics := r.panics.inc }
  | .requestsTotal c => { r with requests := r.requests.upd c FCounter.inc }
  | .latencyTotal c => { r with latency := r.latency.upd c (·.add (seconds d)) }
  | .recvBytesTotal c n => { r with recvBytes := r.recvBytes.upd c (·.add (f64 n)) }
  | .sendBytesTotal c n => { r with sendBytes := r.sendBytes.upd c (·.add (f64 n)) }
  | .latencyHist => { r with latencyHist := r.latencyHist.observe latencyBuckets (seconds d) }
  | .recvBytesHist n => { r with recvHist := r.recvHist.observe fByteBuckets (f64 n) }
  | .sendBytesHist n => { r with sendHist := r.sendHist.observe fByteBuckets (f64 n) }
  | .onPanic _ => r

/-- A server: the requests that have come with the time they take, and for each of them what its goroutine has yet to do to the metrics. -/
structure TServer where
  reg : FReg := {}
  begun : List (Served × Nat) := []
  todo : List (List MEv × Nat) := []

inductive TMove where
  | arrive (q : Served) (d : Nat)
  | tick (i : Nat)

def TServer.step (s : TServer) : TMove → TServer
  | .arrive q d => { s with begun := s.begun ++ [(q, d)], todo := s.todo ++ [(q.2.1, d)] }
  | .tick i =>
    match s.todo[i]? with
    | some (e :: rest, d) => { s with reg := s.reg.apply e d, todo := s.todo.set i (rest, d) }
    | _ => s

def TServer.run (s : TServer) (l : List TMove) : TServer := l.foldl TServer.step s

end Verif
