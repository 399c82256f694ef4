import Verif.Model.Adaptor

/-! # What the log of the metrics says -/

set_option autoImplicit false

namespace Verif.Spec

/-- The labels under which requests were counted. -/
def requestsCounted (ev : List MEv) : List GoStr := ev.filterMap fun | .requestsTotal c => some c | _ => none

/-- The additions to the send-bytes counter: label and number. -/
def sendCounted (ev : List MEv) : List (GoStr × Int) := ev.filterMap fun | .sendBytesTotal c n => some (c, n) | _ => none

/-- The observations in the send-bytes histogram. -/
def sendObserved (ev : List MEv) : List Int := ev.filterMap fun | .sendBytesHist n => some n | _ => none

/-- How often the panics counter was incremented. -/
def panicsCounted (ev : List MEv) : Nat := (ev.filter fun | .panicsTotal => true | _ => false).length

/-- The calls of `OnPanic`. -/
def panicsReported (ev : List MEv) : List PanicArg := ev.filterMap fun | .onPanic a => some a | _ => none

/-- The labels used with any of the metrics. -/
def labels (ev : List MEv) : List GoStr := ev.filterMap fun
  | .requestsTotal c | .latencyTotal c | .recvBytesTotal c _ | .sendBytesTotal c _ => some c
  | _ => none

/-- The values that are an `error`: errors, and what the run-time system panics with; the assertions of the `assert` package only if
that package panics with an `error` (`assertErr`).  Other values, and nil, are not. -/
inductive IsErrorValue (assertErr : Bool) : Panic → Prop
  | error (e : Err) : IsErrorValue assertErr (.error e)
  | bounds : IsErrorValue assertErr .bounds
  | nilDeref : IsErrorValue assertErr .nilDeref
  | internal (h : assertErr = true) : IsErrorValue assertErr .internal
  | badReader (h : assertErr = true) : IsErrorValue assertErr .badReader
  | badWriter (h : assertErr = true) : IsErrorValue assertErr .badWriter
  | badArg (h : assertErr = true) : IsErrorValue assertErr .badArg

/-- The argument of `OnPanic` for the panic value `p`: the value itself if it is an error, else a PanicError with the value in it. -/
def ReportedAs (assertErr : Bool) (p : Panic) (a : PanicArg) : Prop :=
  (IsErrorValue assertErr p ∧ a = .itself p) ∨ (¬ IsErrorValue assertErr p ∧ a = .panicError p)

end Verif.Spec
