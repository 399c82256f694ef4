import Verif.Model.Store
import Verif.Model.Positional
import Verif.Model.Buffered

/-!
# Bodies of all kinds

A program has Bodies made by `body.FromBytes` and by copying, Bodies over readers, and maybe Bodies of its own: `Body` is an interface.  Here are all of them
together, as the `BodyStore` of Builders.
-/

set_option autoImplicit false

namespace Verif

/-- The implementations of `Body` in a program, by families (a Body and its copies). -/
structure Kinds (Φ : Type) where
  step : Φ → Op → Φ × Out
  /-- implements `io.WriterTo` -/
  drains : Φ → Bool
  /-- among them: what `FromBytes` makes -/
  mem : MemFam → Φ
  step_mem : ∀ m op, step (mem m) op = (mem (m.step op).1, (m.step op).2)
  drains_mem : ∀ m, drains (mem m) = true

/-- Families of Bodies, and which Body of which family has which number. -/
structure Shelf (Φ : Type) where
  fams : List Φ := []
  bodies : List (Nat × Nat) := []

namespace Shelf
variable {Φ : Type} (K : Kinds Φ)

/-- Family `f`. -/
def fam (X : Shelf Φ) (f : Nat) : Φ := (X.fams[f]?).getD (K.mem (fromBytes []))

/-- Family `f` changes. -/
def setFam (X : Shelf Φ) (f : Nat) (m : Φ) : Shelf Φ := { X with fams := X.fams.set f m }

/-- A new family, with one Body. -/
def add (X : Shelf Φ) (m : Φ) : Shelf Φ × Nat := ({ fams := X.fams ++ [m], bodies := X.bodies ++ [(X.fams.length, 0)] }, X.bodies.length)

/-- Body `h` of family `f`, whose kind is known from the state `X`. -/
def famOps (X : Shelf Φ) (f h : Nat) : BodyOps (Shelf Φ) :=
  (BodyOps.ofFam K.step (K.drains (X.fam K f)) h).focus (fun X => X.fam K f) (fun X m => X.setFam f m)

/-- Body number `i`.  (Of a number that was not given out, nothing is known: a nil Body.) -/
def ops (X : Shelf Φ) (i : Nat) : BodyOps (Shelf Φ) :=
  match X.bodies[i]? with
  | none => BodyOps.nil.focus (fun _ => ()) (fun X _ => X)
  | some p => X.famOps K p.1 p.2

/-- All Bodies. -/
def store : BodyStore (Shelf Φ) where
  remaining X i := (X.ops K i).remaining X
  copy X i := match X.bodies[i]? with
    | none => (X, .panic .nilDeref)
    | some p => match K.step (X.fam K p.1) (.copy p.2) with
      | (m, .copied h) => ({ X.setFam p.1 m with bodies := X.bodies ++ [(p.1, h)] }, .ret (.ok X.bodies.length))
      | (m, .copiedClosed) => let x := (X.setFam p.1 m).add (K.mem closedFam); (x.1, .ret (.ok x.2))
      | (m, .panic p') => (X.setFam p.1 m, .panic p')
      | (m, _) => (X.setFam p.1 m, .hang)
  fromBytes X d := X.add (K.mem (Verif.fromBytes d))

end Shelf

/-- The kinds of this repository: over byte slices, over an `io.ReaderAt`, over an `io.ReadSeeker`, over an `io.Reader` (whose calls are recorded, for the proofs). -/
inductive AnyFam (α σ τ : Type) where
  | mem (m : MemFam)
  | readerAt (s : PosSys α)
  | seeker (s : PosSys σ)
  | buffered (s : BufSys (Rec τ))

/-- One call on a Body of this repository; `loops`: a bound on the number of rounds in the loop of `bufferedBody.Read`. -/
def AnyFam.step {α σ τ : Type} (A : Rdr α) (S : Rdr σ) (T : Rdr τ) (loops : Nat) : AnyFam α σ τ → Op → AnyFam α σ τ × Out
  | .mem m, op => let r := m.step op; (.mem r.1, r.2)
  | .readerAt s, op => let r := ReaderAtBody.step A s op; (.readerAt r.1, r.2)
  | .seeker s, op => let r := SeekerBody.step S s op; (.seeker r.1, r.2)
  | .buffered s, op => let r := BufSys.step T.record loops s op; (.buffered r.1, r.2)

/-- The kinds of this repository. -/
def anyKinds {α σ τ : Type} (A : Rdr α) (S : Rdr σ) (T : Rdr τ) (loops : Nat) : Kinds (AnyFam α σ τ) where
  step := AnyFam.step A S T loops
  drains x := match x with
    | .mem _ => true
    | _ => false
  mem := .mem
  step_mem _ _ := rfl
  drains_mem _ := rfl

end Verif
