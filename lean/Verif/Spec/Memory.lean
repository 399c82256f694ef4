import Verif.Model.Slices

/-!
# What a call on a Body does to memory

Nothing here knows how Bodies are implemented.  A call is observed through what it returned and through the arrays there are afterwards.
-/

set_option autoImplicit false

namespace Verif

/-- What the caller sees: the count, the error, and the bytes at the front of its slice. -/
def MOut.seen (m : BMem) (p : BSlice) : MOut → Out
  | .read n e => .read ((m.bytes p).take n.toNat) e
  | .other o => o

/-- The bytes that a call delivered into the caller's slice. -/
def Out.delivered : Out → List Byte
  | .read d _ => d
  | _ => []

/-- The call `x` returned `o`, seen as `q`, and left `mem'`; the arrays in `own` are the Body's and not the caller's.

* the number returned is the number of bytes delivered, and these fit;
* of the arrays that the caller had, only the one it passed has changed, and in it only the bytes that the number covers. -/
structure TouchesOnly (own : List Nat) (x : MCall) (mem' : BMem) (o : MOut) (q : Out) : Prop where
  seen : o.seen mem' x.p = q
  count : ∀ n e, o = .read n e → n = (q.delivered.length : Int)
  fits : q.delivered.length ≤ x.p.len
  length : x.mem.length ≤ mem'.length
  memory : ∀ a, a < x.mem.length → a ∉ own → mem'[a]? = (x.mem.store x.p q.delivered)[a]?

/-- The same for a Body that lends the caller's slice to its Reader, which may use it as scratch space: the bytes delivered are at the front, what comes
after them in the slice may have changed, and nothing else has. -/
structure TouchesWithin (x : MCall) (mem' : BMem) (o : MOut) (q : Out) : Prop where
  seen : o.seen mem' x.p = q
  count : ∀ n e, o = .read n e → n = (q.delivered.length : Int)
  memory : ∃ rest, (q.delivered ++ rest).length ≤ x.p.len ∧ mem' = x.mem.store x.p (q.delivered ++ rest)

end Verif
