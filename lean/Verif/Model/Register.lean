import Verif.Model.Timed

/-!
# The registration of the metrics (`/repo/handler/adaptor.go:13-70`), when the package is initialised

`promauto.NewX(opts)` makes a metric and calls `MustRegister` of the default registerer, which panics if `Register` fails.  Modelled from knowledge of the source of
version 1.11.0 of the Prometheus client library; hashes are taken to be injective.
-/

set_option autoImplicit false

namespace Verif

/-- `prometheus.Desc` -/
structure MDesc where
  name : GoStr
  help : GoStr := []
  consts : List (GoStr × GoStr) := []
  vars : List GoStr := []
deriving DecidableEq, Repr

/-- What a Desc is the hash of: the name and the values of the constant labels. -/
def MDesc.id (d : MDesc) : GoStr × List GoStr := (d.name, d.consts.map (·.2))
/-- All Descs with one name have to agree on this: the names of the labels, and the help text. -/
def MDesc.dim (d : MDesc) : List GoStr × List GoStr × GoStr := (d.consts.map (·.1), d.vars, d.help)

def isAlpha (b : Byte) : Bool := (97 ≤ b && b ≤ 122) || (65 ≤ b && b ≤ 90)
def isDigit (b : Byte) : Bool := 48 ≤ b && b ≤ 57

/-- `model.IsValidMetricName`: `[a-zA-Z_:][a-zA-Z0-9_:]*` -/
def validMetricName : GoStr → Bool
  | [] => false
  | b :: s => (isAlpha b || b == 95 || b == 58) && s.all fun b => isAlpha b || isDigit b || b == 95 || b == 58

/-- `checkLabelName`: `[a-zA-Z_][a-zA-Z0-9_]*`, and no `__` at the beginning -/
def validLabelName : GoStr → Bool
  | [] => false
  | b :: s => (isAlpha b || b == 95) && (s.all fun b => isAlpha b || isDigit b || b == 95) && !([95, 95].isPrefixOf (b :: s))

/-- `NewDesc` fails. -/
def MDesc.bad (d : MDesc) : Bool :=
  !validMetricName d.name || !(d.consts.map (·.1) ++ d.vars).all validLabelName || !decide ((d.consts.map (·.1) ++ d.vars).Nodup)

/-- `Registry.Register` of a collector with one Desc: `none` if it returns an error. -/
def registerDesc (reg : List MDesc) (d : MDesc) : Option (List MDesc) :=
  if d.bad then none
  else if reg.any (fun d' => decide (d'.id = d.id)) then none
  else if reg.any (fun d' => decide (d'.name = d.name ∧ d'.dim ≠ d.dim)) then none
  else some (reg ++ [d])

/-- A metric of this package. -/
inductive MetricDecl where
  /-- `promauto.NewCounter` -/
  | counter (name help : GoStr)
  /-- `promauto.NewCounterVec` -/
  | counterVec (name help : GoStr) (labels : List GoStr)
  /-- `promauto.NewHistogram`; `none`: making the list of bounds panics -/
  | histogram (name help : GoStr) (bounds : Option (List Rat))

/-- `prometheus.ExponentialBuckets`, which panics if there are no buckets in the arguments -/
def mkExponentialBuckets (start factor : Rat) (n : Nat) : Option (List Rat) :=
  if n < 1 ∨ start ≤ 0 ∨ factor ≤ 1 then none else some (fExponentialBuckets start factor n)

/-- The bounds of a histogram have to increase strictly. -/
def increasing : List Rat → Bool
  | a :: b :: l => decide (a < b) && increasing (b :: l)
  | _ => true

/-- The Desc of a metric; `none` if making the metric panics. -/
def MetricDecl.desc : MetricDecl → Option MDesc
  | .counter n h => some { name := n, help := h }
  | .counterVec n h ls => some { name := n, help := h, vars := ls }
  | .histogram n h (some b) => if increasing b then some { name := n, help := h } else none
  | .histogram _ _ none => none

/-- `promauto.NewX`: `none` if it panics. -/
def declare (reg : List MDesc) (m : MetricDecl) : Option (List MDesc) :=
  match m.desc with
  | none => none
  | some d => registerDesc reg d

/-- `/repo/handler/adaptor.go:13-70` -/
def metricDecls : List MetricDecl :=
  [.counter (lit "http_panics_total") (lit "Total number of HTTP requests that triggered a panic()."),
   .counterVec (lit "http_requests_total") (lit "Total number of HTTP requests by status code.") [lit "code"],
   .counterVec (lit "http_latency_total") (lit "Total number of wall-time seconds spent on handling HTTP responses by status code.") [lit "code"],
   .counterVec (lit "http_recv_bytes_total") (lit "Total number of bytes received in HTTP requests by status code.") [lit "code"],
   .counterVec (lit "http_send_bytes_total") (lit "Total number of bytes sent in HTTP responses by status code.") [lit "code"],
   .histogram (lit "http_latency_seconds_hist") (lit "Histogram of HTTP request latency.") (some latencyBuckets),
   .histogram (lit "http_recv_bytes_hist") (lit "Histogram of HTTP request size.") (mkExponentialBuckets (f64 1024) (f64 4) 6),
   .histogram (lit "http_send_bytes_hist") (lit "Histogram of HTTP response size.") (mkExponentialBuckets (f64 1024) (f64 4) 6)]

/-- The initialisation of the package, with the metrics `reg` registered before: `none` if it panics. -/
def packageInit (reg : List MDesc) : Option (List MDesc) := metricDecls.foldlM declare reg

/-- The names that a scrape shows for a metric. -/
def MetricDecl.shown : MetricDecl → List GoStr
  | .counter n _ | .counterVec n _ _ => [n]
  | .histogram n _ _ => [n ++ lit "_bucket", n ++ lit "_sum", n ++ lit "_count"]

end Verif
