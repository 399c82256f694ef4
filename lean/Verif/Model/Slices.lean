import Verif.Model.Reader

/-!
# Memory: arrays and slices

The other models treat a `[]byte` as a list of bytes.  Here it is what it is in Go: a window into an array, which several slices may share.
`Model/SliceBuf.lean`, `Model/SlicePos.lean` and `Model/SliceBytes.lean` repeat the models of the bodies on this level.
-/

set_option autoImplicit false

namespace Verif

/-- All arrays; an array is known by its index. -/
abbrev BMem := List (List Byte)

/-- A `[]byte`. -/
structure BSlice where
  arr : Nat
  off : Nat
  len : Nat
  cap : Nat
deriving DecidableEq, Repr

/-- `nil`. -/
def BSlice.nil : BSlice := ⟨0, 0, 0, 0⟩

/-- The slice expression `s[i:j]`; `none` is the run-time panic. -/
def BSlice.sub (s : BSlice) (i j : Int) : Option BSlice :=
  if 0 ≤ i ∧ i ≤ j ∧ j ≤ s.cap then some ⟨s.arr, s.off + i.toNat, (j - i).toNat, s.cap - i.toNat⟩ else none

/-- `l` with `d` written at `i`. -/
def overwrite (l : List Byte) (i : Nat) (d : List Byte) : List Byte := l.take i ++ d ++ l.drop (i + d.length)

namespace BMem

/-- The bytes of a slice. -/
def bytes (m : BMem) (s : BSlice) : List Byte := ((m[s.arr]?.getD []).drop s.off).take s.len

/-- Storing at the front of a slice (as much as it has room for). -/
def store (m : BMem) (s : BSlice) (d : List Byte) : BMem := m.set s.arr (overwrite (m[s.arr]?.getD []) s.off (d.take s.len))

/-- `make([]byte, n)`. -/
def make (m : BMem) (n : Nat) : BMem × BSlice := (m ++ [List.replicate n 0], ⟨m.length, 0, n, n⟩)

/-- `copy(dst, src)`, which copies `min(len(dst), len(src))` bytes, as if they were all read before the first is written. -/
def copy (m : BMem) (dst src : BSlice) : BMem := m.store dst (m.bytes src)

end BMem

/-- What is returned by a `Read` that has been handed a slice. -/
inductive RawResp where
  | ret (n : Int) (err : Option Err)
  | panics (p : Panic)

variable {σ : Type}

/-- What a Reader does to the rest of the slice it has been handed: it may use it as scratch space, depending on its content. -/
abbrev Scratch (σ : Type) := σ → List Byte → List Byte

/-- A Reader (or any other method that fills a slice), called with a slice: `r` is what it answers to a slice of this length. -/
def answer (m : BMem) (p : BSlice) (scratch : List Byte) : RResp → BMem × RawResp
  | .got d err => (m.store p (d ++ scratch), .ret d.length err)
  | .negative => (m.store p scratch, .ret (-1) none)
  | .panics q => (m.store p scratch, .panics q)

/-- `r.Read(p)`. -/
def Rdr.readInto (R : Rdr σ) (w : Scratch σ) (m : BMem) (st : σ) (p : BSlice) : BMem × σ × RawResp :=
  let r := R.read st p.len
  let a := answer m p (w st (m.bytes p)) r.2
  (a.1, r.1, a.2)

/-- `r.ReadAt(p, off)`. -/
def Rdr.readAtInto (R : Rdr σ) (w : Scratch σ) (m : BMem) (st : σ) (p : BSlice) (off : Int) : BMem × σ × RawResp :=
  let r := R.readAt st p.len off
  let a := answer m p (w st (m.bytes p)) r.2
  (a.1, r.1, a.2)

/-- What a method on a Body returned; the bytes read are in the caller's memory. -/
inductive MOut where
  | read (n : Int) (err : Option Err)
  | other (o : Out)
deriving DecidableEq, Repr

/-- One call, made by a client that has changed the memory to `mem` since the last one.  `p` is the argument of `Read` and `ReadAt`. -/
structure MCall where
  mem : BMem
  op : Op
  p : BSlice := .nil

end Verif
