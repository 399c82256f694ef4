import Verif.Model.Shelf
import Verif.Spec.Success
import Verif.Spec.Delivery
import Verif.Spec.Builder
import Verif.Spec.Told

/-!
# Bodies that can be served
-/

set_option autoImplicit false

namespace Verif
open Spec
variable {Φ : Type}

/-- Body `h` of the family delivers exactly `C` and can then be closed without an error; it knows how much that is, or says that it does not.  (`C` is less than
`2^63` bytes, or else nothing is said.) -/
structure Kinds.Ready (K : Kinds Φ) (m : Φ) (h : Nat) (C : List Byte) : Prop where
  lively : C.length < 2 ^ 63 → ∃ P, Lively (BodyOps.ofFam K.step (K.drains m) h) P 32768 ∧ Quits (BodyOps.ofFam K.step (K.drains m) h) P ∧ P m C
  remaining : (K.step m (.remaining h)).2 = .remaining C.length ∨ (K.step m (.remaining h)).2 = .remaining (-1)

/-- Body `h` of the family is an open `body.Empty()`. -/
def Kinds.Vacant (K : Kinds Φ) (m : Φ) (h : Nat) : Prop := ∃ l b, m = K.mem (.empty l) ∧ l[h]? = some b ∧ b.closed = false

/-- Body number `i` is ready to deliver `C`. -/
def Shelf.Ready (K : Kinds Φ) (X : Shelf Φ) (i : Nat) (C : List Byte) : Prop :=
  ∃ f h, X.bodies[i]? = some (f, h) ∧ f < X.fams.length ∧ K.Ready (X.fam K f) h C

/-- Body number `i` is an open `body.Empty()`. -/
def Shelf.Vacant (K : Kinds Φ) (X : Shelf Φ) (i : Nat) : Prop := ∃ f h, X.bodies[i]? = some (f, h) ∧ f < X.fams.length ∧ K.Vacant (X.fam K f) h

/-- Body number `i` has the content `C`. -/
def Shelf.Holds (K : Kinds Φ) (X : Shelf Φ) (i : Nat) (C : List Byte) : Prop := X.Ready K i C ∨ C = [] ∧ X.Vacant K i

/-- The headers have these values, by name in lower case.  No name that can be sent is in a spelling other than the one that Go gives it, and no list of values is
empty. -/
structure Named (f : Hdrs) (v : GoStr → List GoStr) : Prop where
  same : ∀ k, Wire.isName k = true → (f (canon k)).getD [] = v (Spec.lower k)
  nonempty : ∀ k, f k ≠ some []
  canonical : ∀ k, Wire.isName k = true → f k ≠ none → canon k = k

/-- Map `m` of the program has these values, and they are its own: no slice in it is one of a Builder. -/
def Heap.Offers (H : Heap) (m : Nat) (v : GoStr → List GoStr) : Prop :=
  Named (H.lookup (some (.ext m))) v ∧ ∀ e ∈ H.map (.ext m), ∃ j, e.2.arr = .ext j

/-- The headers that a PageGenerator returns, in a map of their own (or in none). -/
def GenHdrs.hdrs : GenHdrs → Option Hdrs
  | .nil => some .none
  | .fresh v => some (.of v)
  | .shared _ => none

/-- The result of a PageGenerator is this page (`none`: a panic), and the Bodies there were are as before. -/
def Kinds.IsPage (K : Kinds Φ) (X : Shelf Φ) (r : Shelf Φ × Res (GenHdrs × Option Nat)) (page : Option Told.Page) : Prop :=
  (∀ i C, X.Holds K i C → r.1.Holds K i C) ∧
  match page with
  | none => ∃ e, r.2 = .panic e
  | some page => ∃ h b f, r.2 = .ret (h, b) ∧ h.hdrs = some f ∧ Named f page.fields ∧
    match page.body with
    | none => b = none
    | some C => ∃ i, b = some i ∧ r.1.Holds K i C

/-- The PageGenerator makes these pages. -/
structure Kinds.Makes (K : Kinds Φ) (G : Gen (Shelf Φ)) (P : Told.Pages) : Prop where
  redirect : ∀ X code location, K.IsPage X (G.redirect X code location) (P.redirect code location)
  error : ∀ X code e, K.IsPage X (G.error X code e) (P.error code e)

/-- What a call refers to is as `A` says: the Body, the map, the PageGenerator.  (And the fields of values to be encoded as JSON have names that need not be
escaped.) -/
def Spec.Told.Say.Known (K : Kinds Φ) (E : BEnv (Shelf Φ)) (A : Told.Around) (H : Heap) : Told.Say → Prop
  | .prettyJSON v => Json.WellNamed v
  | .body (some i) => ∃ C, A.bodies i = some C
  | .headers (some m) => H.Offers m (A.maps m)
  | .generator (some g) => g = 0 ∨ K.Makes (E.gens g) (A.gens g)
  | _ => True

end Verif
