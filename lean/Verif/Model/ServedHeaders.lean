import Verif.Spec.ServedHeaders
import Verif.Model.Serve

/-!
# The headers of ResponseWriters, with sharing

`Serve` assigns the slices of the Response to the map of the ResponseWriter (`/repo/response/response.go:88-93`), without copying them.
The copies of a Response have the same map (`/repo/response/response.go:67-72`).
-/

set_option autoImplicit false

namespace Verif
open Spec

/-- The loop over the headers (`/repo/response/response.go:88-93`): `w` is `w.Header()`. -/
def Heap.serveHeaders (H : Heap) (w : Ref) (hdrs : Option Ref) : Heap :=
  (H.entries hdrs).foldl (fun H e => if e.1 ≠ headerPush then H.put w e.1 e.2 else H) H

/-- The maps `W` of ResponseWriters and the maps `R` of Responses: something happens. -/
def Heap.edit (spare : Nat → Nat) (W : List Ref) (R : List (Option Ref)) (H : Heap) : HEdit → Heap
  | .serve i j => match W[i]?, R[j]? with
    | some w, some r => H.serveHeaders w r
    | _, _ => H
  | .add i name value => match W[i]? with
    | some w => H.hadd spare w name value
    | none => H
  | .set i name value => match W[i]? with
    | some w => H.hset w name value
    | none => H
  | .del i name => match W[i]? with
    | some w => H.hdel w name
    | none => H

/-- `w.Header()[k][i] = v`: it panics if there is no such element (`none`). -/
def Heap.writeElem (H : Heap) (w : Ref) (k : GoStr) (i : Nat) (v : GoStr) : Option Heap :=
  match H.get (some w) k with
  | none => none
  | some s => if i < s.len then some (H.setArr s.arr ((H.arr s.arr).set (s.off + i) v)) else none

/-- The slice has no spare capacity. -/
def Slice.Tight (s : Slice) : Prop := ¬ s.len < s.cap

/-- The slices of the Responses that `Header.Add` can come across in the headers of a ResponseWriter have no spare capacity. -/
def Snug (H : Heap) (R : List (Option Ref)) : Prop :=
  ∀ r, some r ∈ R → ∀ e ∈ H.map r, e.1 ≠ headerPush → canon e.1 = e.1 → e.2.Tight

end Verif
