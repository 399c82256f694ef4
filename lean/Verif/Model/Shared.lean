import Verif.Model.Construct
import Verif.Spec.Shared

/-!
# Several Bodies over one Reader

Nothing in the repository prevents a Reader from being passed to `FromReaderAndLength` more than once, or from being used by somebody else at the
same time: there is one Reader, and every family of Bodies has a pointer to it.
-/

set_option autoImplicit false

namespace Verif
variable {σ : Type}

/-- The same family, with the Reader in another state. -/
def ReaderFam.withRdr (st : σ) : ReaderFam σ → ReaderFam σ
  | .readerAt s => .readerAt { s with common := { s.common with rdr := st } }
  | .seeker s => .seeker { s with common := { s.common with rdr := st } }
  | .buffered s => .buffered { s with common := { s.common with rdr := st } }

/-- The Reader and the families made from it.  The state of the Reader is `rdr`; what the families say about it is out of date. -/
structure Shared (σ : Type) where
  rdr : σ
  fams : List (ReaderFam σ) := []

/-- One event. -/
def Shared.step (R : Rdr σ) (fuel : Nat) (X : Shared σ) : SEv σ → Shared σ × SOut
  | .make L =>
    let r := fromReaderAndLength R X.rdr L
    match r.2 with
    | .ret (.ok f) => ({ rdr := r.1, fams := X.fams ++ [f] }, .made X.fams.length)
    | .ret (.error e) => ({ X with rdr := r.1 }, .failed e)
    | .panic p => ({ X with rdr := r.1 }, .panic p)
    | .hang => ({ X with rdr := r.1 }, .hang)
  | .on i op =>
    match X.fams[i]? with
    | none => (X, .out .unsupported)
    | some f =>
      let r := (f.withRdr X.rdr).step R fuel op
      ({ rdr := r.1.rdr, fams := X.fams.set i r.1 }, .out r.2)
  | .direct f => ({ X with rdr := f X.rdr }, .done)

end Verif
