import Verif.Model.WriteBack

/-!
# What becomes of a Writer that uses the Body it is written by
-/

set_option autoImplicit false

namespace Verif.Spec

/-- From `c` on, up to `d`: goroutine `t` has not returned from its call, it has kept the mutex `m`, and so whoever else waited for that still does. -/
structure WaitsFor {Γ : Sig} (m : Lk) (c : Verif.Cfg Γ) (tr : List Event) (d : Verif.Cfg Γ) (t : Nat) : Prop where
  busy : d.thr t ≠ none
  silent : ∀ o, Event.ret t o ∉ tr
  keeps : d.owner m = some t
  others : ∀ u k, u ≠ t → c.thr u = some (.lock m k) → d.thr u = some (.lock m k)

/-- The first return of goroutine `t`, if there is one, is like this. -/
def FirstReturn (t : Nat) (tr : List Event) (Q : Out → Prop) : Prop :=
  (∀ o, Event.ret t o ∉ tr) ∨ ∃ tr₁ o tr₂, tr = tr₁ ++ .ret t o :: tr₂ ∧ (∀ o', Event.ret t o' ∉ tr₁) ∧ Q o

/-- A call that Body `h` does not notice: one on another Body, and `Unwrap`. -/
def Elsewhere (h : Nat) (op : Op) : Prop := op.h = h → ∃ h', op = .unwrap h'

/-- A Writer may, with no call on Body `h`, come to answer `r`. -/
inductive Answers (h : Nat) : WriterDoes → XResp (Int × Option Err) → Prop
  | answer (r : XResp (Int × Option Err)) : Answers h (.answer r) r
  | call {op : Op} {next : Out → WriterDoes} {r : XResp (Int × Option Err)} (o : Out) : Elsewhere h op → Answers h (next o) r → Answers h (.call op next) r

/-- All calls that a Writer may make are so. -/
def AllCalls (P : Op → Prop) : WriterDoes → Prop
  | .answer _ => True
  | .call op next => P op ∧ ∀ o, AllCalls P (next o)

/-- How a call of `WriteTo` can return: the Writer was not called; or it was, made no call on the Body, and the result is its answer. -/
inductive Wrote (calls : WriterCalls) (h : Nat) (w : WriteFn) : Out → Prop
  | closed : Wrote calls h w (.wrote none 0 (some .closed))
  | ended : Wrote calls h w (.wrote none 0 none)
  | bounds : Wrote calls h w (.panic .bounds)
  | panics {d : List Byte} {p : Panic} : Answers h (calls h w d) (.panics p) → Wrote calls h w (.panic p)
  | bad {d : List Byte} {n : Int} {e : Option Err} : Answers h (calls h w d) (.ok (n, e)) → (n < 0 ∨ (d.length : Int) < n) → Wrote calls h w (.panic .badWriter)
  | wrote {d : List Byte} {n : Int} {e : Option Err} : Answers h (calls h w d) (.ok (n, e)) → 0 ≤ n → n ≤ d.length → Wrote calls h w (.wrote (some d) n e)

/-- Body `h` is free and open, not at its end, and `d` is left of it. -/
structure Offers (c : Verif.Cfg bytesSig) (h : Nat) (d : List Byte) : Prop where
  exists' : h < c.mem .next
  free : c.owner (.body h) = none
  opened : (c.mem (.b h .closed) : Bool) = false
  more : (c.mem (.b h .eof) : Bool) = false
  left : goSlice (c.mem (.b h .data) : List Byte) (c.mem (.b h .offset) : Int) (c.mem (.b h .data) : List Byte).length = some d

/-- The call is on none of the Bodies `B` (or is `Unwrap`), and if it is `WriteTo` then no call that its Writer makes is on one of them or on this one, and so on. -/
def Clear (calls : WriterCalls) : Nat → List Nat → Op → Prop
  | 0, B, op => op.h ∈ B → ∃ h', op = .unwrap h'
  | n + 1, B, op => (op.h ∈ B → ∃ h', op = .unwrap h') ∧ ∀ h w, op = .writeTo h w → ∀ d, AllCalls (Clear calls n (h :: B)) (calls h w d)

/-- Writers use Bodies in an order: those into which a Body is written make calls only on Bodies of higher rank. -/
def Ordered (rank : Nat → Nat) (calls : WriterCalls) : Prop := ∀ h w d, AllCalls (fun op => (∃ h', op = .unwrap h') ∨ rank h < rank op.h) (calls h w d)

/-- A Writer makes calls only on Bodies it can know: those with numbers below `N`, and those that its own calls of `Copy` have returned. -/
def Knows : Nat → WriterDoes → Prop
  | _, .answer _ => True
  | N, .call op next => op.h < N ∧ (∀ o, (∀ i, o ≠ .copied i) → Knows N (next o)) ∧ ∀ i, Knows (max N (i + 1)) (next (.copied i))

/-- What a Writer does if it is alone: its calls are made one after the other, on the Bodies as they find them.  The memory after that, and the answer. -/
def _root_.Verif.WriterDoes.alone {Γ : Sig} (prog : Op → Prog Γ) : WriterDoes → Mem Γ → Mem Γ × XResp (Int × Option Err)
  | .answer r, M => (M, r)
  | .call op next, M => (next ((prog op).exec M).2).alone prog ((prog op).exec M).1

end Verif.Spec
