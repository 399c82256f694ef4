import Verif.Model.Text

/-!
# Go maps of slices (`http.Header`), with sharing

A map is a reference to a list of entries, a slice a reference to an array with offset, length and capacity.  Nothing
observable depends on the order of the entries of a map (Go iterates in random order).

References are of two kinds, only to name objects: those allocated by the code of this package or its PageGenerators (`own`),
and all others (`ext`).  The code does not distinguish them.
-/

set_option autoImplicit false

namespace Verif

/-- The identity of an array or a map. -/
inductive Ref where
  | ext (i : Nat)
  | own (i : Nat)
deriving DecidableEq, Repr

/-- `[]string`. -/
structure Slice where
  arr : Ref
  off : Nat := 0
  len : Nat
  cap : Nat
deriving DecidableEq, Repr

/-- The nil slice. -/
def Slice.nil : Slice := { arr := .ext 0, len := 0, cap := 0 }

/-- Arrays of strings and maps from strings to slices. -/
structure Heap where
  extArrs : List (List GoStr) := []
  ownArrs : List (List GoStr) := []
  extMaps : List (List (GoStr × Slice)) := []
  ownMaps : List (List (GoStr × Slice)) := []
deriving DecidableEq, Repr

namespace Heap

/-- The contents of an array. -/
def arr (H : Heap) : Ref → List GoStr
  | .ext i => H.extArrs[i]?.getD []
  | .own i => H.ownArrs[i]?.getD []

/-- The entries of a map. -/
def map (H : Heap) : Ref → List (GoStr × Slice)
  | .ext i => H.extMaps[i]?.getD []
  | .own i => H.ownMaps[i]?.getD []

def setArr (H : Heap) (r : Ref) (a : List GoStr) : Heap :=
  match r with
  | .ext i => { H with extArrs := H.extArrs.set i a }
  | .own i => { H with ownArrs := H.ownArrs.set i a }

def setMap (H : Heap) (r : Ref) (m : List (GoStr × Slice)) : Heap :=
  match r with
  | .ext i => { H with extMaps := H.extMaps.set i m }
  | .own i => { H with ownMaps := H.ownMaps.set i m }

/-- Allocation by the code of this package. -/
def newArr (H : Heap) (a : List GoStr) : Heap × Ref := ({ H with ownArrs := H.ownArrs ++ [a] }, .own H.ownArrs.length)
@[inherit_doc newArr] def newMap (H : Heap) : Heap × Ref := ({ H with ownMaps := H.ownMaps ++ [[]] }, .own H.ownMaps.length)

/-- The strings of a slice. -/
def strings (H : Heap) (s : Slice) : List GoStr := ((H.arr s.arr).drop s.off).take s.len

/-- The entries of a map that may be nil. -/
def entries (H : Heap) : Option Ref → List (GoStr × Slice)
  | none => []
  | some r => H.map r

/-- `m[k]`, `m` possibly nil: the slice, if there is one. -/
def get (H : Heap) (m : Option Ref) (k : GoStr) : Option Slice := ((H.entries m).find? (fun e => e.1 = k)).map (·.2)

/-- `m[k]`: the strings. -/
def lookup (H : Heap) (m : Option Ref) (k : GoStr) : Option (List GoStr) := (H.get m k).map H.strings

/-- `m[k] = s` (`m` not nil). -/
def put (H : Heap) (r : Ref) (k : GoStr) (s : Slice) : Heap :=
  H.setMap r (if (H.map r).any (fun e => e.1 = k) then (H.map r).map (fun e => if e.1 = k then (k, s) else e)
    else H.map r ++ [(k, s)])

/-- `delete(m, k)`. -/
def del (H : Heap) (r : Ref) (k : GoStr) : Heap := H.setMap r ((H.map r).filter (fun e => e.1 ≠ k))

/-- `append(s, v)`.  If the capacity is exhausted, a new array is allocated with a spare capacity that is up to Go's run-time
(`spare`). -/
def append (spare : Nat → Nat) (H : Heap) (s : Slice) (v : GoStr) : Heap × Slice :=
  if s.len < s.cap then
    (H.setArr s.arr ((H.arr s.arr).set (s.off + s.len) v), { s with len := s.len + 1 })
  else
    let r := H.newArr (H.strings s ++ [v] ++ List.replicate (spare s.len) [])
    (r.1, { arr := r.2, len := s.len + 1, cap := s.len + 1 + spare s.len })

/-! ## `http.Header` (Go 1.17, net/http/header.go, net/textproto/header.go) -/

/-- `h.Set(name, value)`. -/
def hset (H : Heap) (r : Ref) (name value : GoStr) : Heap :=
  let a := H.newArr [value]
  a.1.put r (canon name) { arr := a.2, len := 1, cap := 1 }

/-- `h.Add(name, value)`. -/
def hadd (spare : Nat → Nat) (H : Heap) (r : Ref) (name value : GoStr) : Heap :=
  let x := H.append spare ((H.get (some r) (canon name)).getD .nil) value
  x.1.put r (canon name) x.2

/-- `h.Del(name)`. -/
def hdel (H : Heap) (r : Ref) (name : GoStr) : Heap := H.del r (canon name)

/-! ## `/repo/response/util.go` -/

/-- `copyStrings` (`/repo/response/util.go:9-17`). -/
def copyStrings (H : Heap) (src : Slice) : Heap × Slice :=
  if src.len = 0 then (H, .nil)
  else
    let r := H.newArr (H.strings src)
    (r.1, { arr := r.2, len := src.len, cap := src.len })

/-- One turn of the loop of `copyHeaders` (`/repo/response/util.go:30-32`). -/
def copyEntry (dst : Ref) (H : Heap) (e : GoStr × Slice) : Heap :=
  let x := H.copyStrings e.2
  x.1.put dst e.1 x.2

/-- `copyHeaders` (`/repo/response/util.go:19-34`). -/
def copyHeaders (H : Heap) (src : Option Ref) : Heap × Option Ref :=
  if (H.entries src).length = 0 then (H, none)
  else
    let r := H.newMap
    ((H.entries src).foldl (copyEntry r.2) r.1, some r.2)

/-- A newly made map with the given contents (as PageGenerators make). -/
def allocEntry (dst : Ref) (H : Heap) (e : GoStr × List GoStr) : Heap :=
  let a := H.newArr e.2
  a.1.put dst e.1 { arr := a.2, len := e.2.length, cap := e.2.length }
@[inherit_doc allocEntry] def alloc (H : Heap) (v : List (GoStr × List GoStr)) : Heap × Ref :=
  let r := H.newMap
  (v.foldl (allocEntry r.2) r.1, r.2)

end Heap

end Verif
