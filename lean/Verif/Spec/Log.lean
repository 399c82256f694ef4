import Verif.Model.Reader

/-! # What a log of calls on an external reader says -/

set_option autoImplicit false

namespace Verif.Spec

/-- The bytes obtained by the `Read` calls in the log that respected the `io.Reader` contract. -/
def obtained : List Call → List Byte
  | [] => []
  | .read n (.got d _) :: cs => (if d.length ≤ n then d else []) ++ obtained cs
  | _ :: cs => obtained cs

/-- The first error such a `Read` call returned. -/
def ended : List Call → Option Err
  | [] => none
  | .read n (.got d (some e)) :: cs => if d.length ≤ n then some e else ended cs
  | _ :: cs => ended cs

/-- The stream is known to be over: the reader said so, or the declared length was reached. -/
def term (declared : Int) (log : List Call) : Option Err :=
  match ended log with
  | some e => some e
  | none => if declared = (obtained log).length then some .eof else none

/-- The `Close` calls in the log. -/
def closes (log : List Call) : List (XResp (Option Err)) :=
  log.filterMap fun | .close e => some e | _ => none

/-- What the caller of a Body's `Close` sees of the Reader's `Close`: its error, or its panic. -/
def passedOn : XResp (Option Err) → Out
  | .ok e => .closed e
  | .panics p => .panic p

/-- The `Read` calls in the log. -/
def reads (log : List Call) : List (Nat × RResp) :=
  log.filterMap fun | .read n r => some (n, r) | _ => none

end Verif.Spec
