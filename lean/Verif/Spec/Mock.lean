import Verif.Basic

/-! # Scripts: what a scripted Reader has to do -/

set_option autoImplicit false

namespace Verif.Spec

/-- A call on a scripted Reader; buffers count by their length only. -/
inductive Request where
  | mark (str : GoStr)
  | stat
  | read (len : Nat)
  | readAt (len : Nat) (offset : Int)
  | seek (offset whence : Int)
  | close
deriving DecidableEq, Repr

/-- The answers; `F` is what `Stat` returns. -/
inductive Answer (F : Type) where
  | marked
  | stat (fi : Option F) (err : Option Err)
  | read (data : List Byte) (err : Option Err)
  | seek (n : Int) (err : Option Err)
  | closed (err : Option Err)
deriving DecidableEq, Repr

/-- The reaction to a call. -/
inductive Verdict (F : Type) where
  /-- it was the scripted call -/
  | answered (a : Answer F)
  /-- it was not: the place in the script where it was expected to be -/
  | rejected (index : Nat)
deriving DecidableEq, Repr

/-- The reaction to the call `c`, being the `i`-th one. -/
def verdictAt {F : Type} (script : List (Request × Answer F)) (i : Nat) (c : Request) : Verdict F :=
  match script[i]? with
  | none => .rejected script.length
  | some (r, a) => if r = c then .answered a else .rejected i

/-- How a script plays against calls: the `i`-th call is compared with the `i`-th line, whatever happened before. -/
def plays {F : Type} (script : List (Request × Answer F)) (calls : List Request) : List (Verdict F) :=
  calls.mapIdx (verdictAt script)

end Verif.Spec
