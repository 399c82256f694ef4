import Verif.Model.SliceJson

/-!
# Who has which memory

A slice of a call or of the pool is in one of these places.
-/

set_option autoImplicit false

namespace Verif

/-- Places that have a slice. -/
inductive Place where
  /-- place `j` of the pool -/
  | free (j : Nat)
  /-- the buffer of call `i` -/
  | buf (i : Nat)
  /-- the result of call `i` -/
  | dst (i : Nat)
deriving DecidableEq

/-- The buffer that a call holds. -/
def JSt.held : JSt → Option BSlice
  | .got buf => some buf
  | .encoded buf => some buf
  | .conv buf _ _ => some buf
  | _ => none

/-- What a call has made, or is making. -/
def JSt.made : JSt → Option BSlice
  | .conv _ _ dst => some dst
  | .done data => some data
  | _ => none

/-- The slice at a place. -/
def JSys.at (X : JSys) : Place → Option BSlice
  | .free j => X.free[j]?.join
  | .buf i => X.calls[i]?.bind (·.st.held)
  | .dst i => X.calls[i]?.bind (·.st.made)

/-- The slice has room, and `a` is its array. -/
def BSlice.Has (s : BSlice) (a : Nat) : Prop := 0 < s.cap ∧ s.arr = a

/-- What the others may do: they write to memory that is neither held by a call nor content of a Body that was made, and put into the pool only what
is theirs. -/
def JSys.Legal (X : JSys) : JEv → Prop
  | .write s _ => s.len ≤ s.cap ∧ s.off + s.cap ≤ (X.mem[s.arr]?.getD []).length ∧
    ∀ i t, (X.at (.buf i) = some t ∨ X.at (.dst i) = some t) → ¬ t.Has s.arr
  | .give s => s.len ≤ s.cap ∧ s.off + s.cap ≤ (X.mem[s.arr]?.getD []).length ∧ ∀ p t, X.at p = some t → s.Has s.arr → ¬ t.Has s.arr
  | _ => True

/-- All events of a history are legal when they happen. -/
def JSys.LegalRun : JSys → List JEv → Prop
  | _, [] => True
  | X, ev :: evs => X.Legal ev ∧ (X.step ev).LegalRun evs

/-- Buffers that are in the pool or held by calls. -/
def JSys.buffers (X : JSys) : Nat := X.free.countP (·.isSome) + X.calls.countP (·.st.held.isSome)

/-- The call has ended. -/
def JSt.Ended : JSt → Prop
  | .done _ => True
  | .panicked _ => True
  | _ => False

/-- Number of steps that call `i` makes in a history. -/
def JEv.stepsOf (i : Nat) (evs : List JEv) : Nat := evs.countP fun
  | .step j _ => j = i
  | _ => false

/-- Steps that a call still has to make: one to encode, and, if the result is converted, one to allocate, one for each byte, and one to return. -/
def JCall.todo (c : JCall) : Nat :=
  let size := match c.enc with
    | .ok (.ok src) => src.length
    | _ => 0
  match c.st with
  | .got _ =>
    match c.enc with
    | .ok (.ok _) => if c.isPretty then size + 3 else 2
    | _ => 1
  | .encoded _ => if c.isPretty then size + 2 else 1
  | .conv _ pos _ => size - pos + 1
  | _ => 0

/-- What is asked for: the arguments of the calls, in their order. -/
def JEv.asked (evs : List JEv) : List (XResp (Except Err (List Byte)) × Bool) := evs.filterMap fun
  | .call enc isPretty _ => some (enc, isPretty)
  | _ => none

/-- What an event adds to the buffers that are in the pool or held by calls. -/
def JSys.adds (X : JSys) : JEv → Int
  | .call _ _ pick => if (X.at (.free pick)).isSome then 0 else 1
  | .take j => if (X.at (.free j)).isSome then -1 else 0
  | .give _ => 1
  | _ => 0

/-- The same for a history. -/
def JSys.addsAll : JSys → List JEv → Int
  | _, [] => 0
  | X, ev :: evs => X.adds ev + (X.step ev).addsAll evs

/-- A client that uses a Body now and then: calls with what happens before each. -/
def JSys.moments : JSys → List (List JEv × Op × BSlice) → List MCall
  | _, [] => []
  | X, (evs, op, p) :: l => ⟨(X.run evs).mem, op, p⟩ :: (X.run evs).moments l

/-- The history of such a client. -/
def JEv.between (l : List (List JEv × Op × BSlice)) : List JEv := l.flatMap (·.1)

end Verif
