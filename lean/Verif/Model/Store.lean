import Verif.Model.Builder
import Verif.Model.Serve
import Verif.Model.Bytes

/-!
# The Bodies that Builders hold

Any number of Bodies made by `body.FromBytes` and by copying: the `BodyStore` of this repository's own code.
-/

set_option autoImplicit false

namespace Verif
variable {β γ : Type}

/-- The same run, on a part of a larger state. -/
def WT.map (f : β → γ) : WT β → WT γ
  | .done b n err => .done (f b) n err
  | .write b d cont => .write (f b) d fun n e => (cont n e).map f
  | .panic b p => .panic (f b) p
  | .hang b => .hang (f b)

/-- The same Body, as a part of a larger state. -/
def BodyOps.focus (B : BodyOps β) (get : γ → β) (put : γ → β → γ) : BodyOps γ where
  read X k := let r := B.read (get X) k; (put X r.1, r.2)
  close X := let r := B.close (get X); (put X r.1, r.2)
  remaining X := B.remaining (get X)
  isWriterTo := B.isWriterTo
  writeTo X := (B.writeTo (get X)).map (put X)

/-- Families of Bodies, and which Body of which family has which number. -/
structure World where
  fams : List MemFam := []
  bodies : List (Nat × Nat) := []

namespace World

/-- Family `f`. -/
def fam (X : World) (f : Nat) : MemFam := (X.fams[f]?).getD (fromBytes [])

/-- Family `f` changes. -/
def setFam (X : World) (f : Nat) (m : MemFam) : World := { X with fams := X.fams.set f m }

/-- Body `h` of family `f`. -/
def ops (f h : Nat) : BodyOps World := (BodyOps.ofFam MemFam.step true h).focus (fun X => X.fam f) (fun X m => X.setFam f m)

/-- All Bodies.  (Of a number that was not given out, nothing is known: a nil Body.) -/
def store : BodyStore World where
  remaining X i := match X.bodies[i]? with
    | none => 0
    | some p => (ops p.1 p.2).remaining X
  copy X i := match X.bodies[i]? with
    | none => (X, .panic .nilDeref)
    | some p => match (X.fam p.1).step (.copy p.2) with
      | (m, .copied h) => ({ X.setFam p.1 m with bodies := X.bodies ++ [(p.1, h)] }, .ret (.ok X.bodies.length))
      | (m, .copiedClosed) =>
        ({ fams := (X.setFam p.1 m).fams ++ [closedFam], bodies := X.bodies ++ [(X.fams.length, 0)] }, .ret (.ok X.bodies.length))
      | (m, .panic p') => (X.setFam p.1 m, .panic p')
      | (m, _) => (X.setFam p.1 m, .hang)
  fromBytes X d := ({ fams := X.fams ++ [Verif.fromBytes d], bodies := X.bodies ++ [(X.fams.length, 0)] }, X.bodies.length)

end World
end Verif
