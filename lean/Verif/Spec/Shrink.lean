import Verif.Spec.Cursor
import Verif.Model.Reader
import Verif.Spec.Positional

/-!
# Specification: cursors over a source that may fail

A family of Bodies over an `io.ReaderAt` or `io.Seeker`, when reading may fail, or deliver less than was asked for.  The Bodies have a common content, which
may become shorter, but never changes otherwise.
-/

set_option autoImplicit false

namespace Verif.Spec

variable {σ : Type}

/-- A Body. -/
structure Frail where
  pos : Nat := 0
  /-- the error that is reported until a successful Seek -/
  err : Option Err := none
  isOpen : Bool := true
deriving DecidableEq, Repr

/-- A family, and where its content ends by now. -/
structure Shrunk where
  stop : Nat
  bodies : List Frail
deriving DecidableEq, Repr

/-- What the source does in a call, if it is asked. -/
structure Reply where
  /-- by how many bytes less than was asked for -/
  short : Nat := 0
  err : Option Err := none
  /-- it panics, or returns an impossible count -/
  crash : Option Panic := none
  /-- what `Close` does, if it is called -/
  closing : XResp (Option Err) := .ok none

/-- What is delivered from position `p` (not beyond the end), for a buffer of `k` bytes.  The source is asked for what is there of it, unless there is nothing. -/
def Reply.fetch (F : List Byte) (a : Reply) (stop p k : Nat) : Except Panic (List Byte × Option Err) :=
  if stop ≤ p then .ok ([], if k = 0 then none else some .eof)
  else match a.crash with
  | some q => .error q
  | none => .ok ((F.drop p).take (min k (stop - p) - a.short), if a.err = none ∧ stop < p + k then some .eof else a.err)

/-- One call.  `clamp`: `BytesRemaining` is not negative (it is for Bodies over an `io.Seeker` which stand beyond the end). -/
def Shrunk.step (clamp : Bool) (F : List Byte) (a : Reply) (s : Shrunk) (op : Op) : Shrunk × Out :=
  match s.bodies[op.h]? with
  | none => (s, .unsupported)
  | some b =>
    match op with
    | .read h k =>
      if !b.isOpen then (s, .read [] (some .closed))
      else if b.err ≠ none then (s, .read [] b.err)
      else match a.fetch F s.stop (min b.pos s.stop) k with
      | .error q => (s, .panic q)
      | .ok (d, e) =>
        let p := min b.pos s.stop + d.length
        ({ stop := if e = none then s.stop else p, bodies := s.bodies.set h { b with pos := p, err := e } }, .read d e)
    | .readAt _ k off =>
      if !b.isOpen then (s, .read [] (some .closed))
      else if off < 0 then (s, .read [] (some (.negReadAt off)))
      else match a.fetch F s.stop (min off.toNat s.stop) k with
      | .error q => (s, .panic q)
      | .ok (d, e) => (s, .read d e)
    | .seek h off whence =>
      if !b.isOpen then (s, .seek (-1) (some .closed))
      else match seekTarget s.stop b.pos off whence with
      | none => (s, .seek (-1) (some (.unknownWhence whence)))
      | some t =>
        if whence = 0 ∧ off < 0 then (s, .seek (-1) (some (.negStart off)))
        else if t < 0 then (s, .seek (-1) (some (.negComputed t)))
        else if 2 ^ 63 ≤ t then (s, .seek (-1) (some (.negComputed (t - 2 ^ 64))))
        else ({ s with bodies := s.bodies.set h { b with pos := min t.toNat s.stop, err := none } }, .seek (min t.toNat s.stop : Nat) none)
    | .remaining _ =>
      (s, .remaining (if !b.isOpen then 0 else if clamp ∧ s.stop ≤ b.pos then 0 else s.stop - b.pos))
    | .writeTo _ _ => (s, .unsupported)
    | .copy _ => if b.isOpen then ({ s with bodies := s.bodies ++ [b] }, .copied s.bodies.length) else (s, .copiedClosed)
    | .close h =>
      if b.isOpen then
        ({ s with bodies := s.bodies.set h { isOpen := false } },
          if s.bodies.countP (·.isOpen) = 1 then (match a.closing with | .ok e => .closed e | .panics p => .panic p) else .closed none)
      else (s, .closed (some .closed))
    | .unwrap _ => (s, .unwrap b.isOpen)

/-- A history. -/
def Shrunk.run (clamp : Bool) (F : List Byte) : Shrunk → List (Reply × Op) → Shrunk × List Out
  | s, [] => (s, [])
  | s, (a, op) :: l =>
    let r := s.step clamp F a op
    let t := Shrunk.run clamp F r.1 l
    (t.1, r.2 :: t.2)

/-- `A` holds of what a `Read` or `ReadAt` answers at position `p` when it is asked for `x` bytes, and the bytes are those of `F`. -/
def Replies (F : List Byte) (A : Reply → Prop) (p x : Nat) : RResp → Prop
  | .got d e => if d.length ≤ x then d = (F.drop p).take d.length ∧ A { short := x - d.length, err := e } else A { crash := some .badReader }
  | .negative => A { crash := some .badReader }
  | .panics q => A { crash := some q }

/-- `R` is a `ReaderAt` over the unchanging content `F`, that may fail in all ways that `A` allows. -/
structure FrailReaderAt (R : Rdr σ) (F : List Byte) (Inv : σ → Prop) (A : Reply → Prop) : Prop where
  idle : A {}
  readAt : ∀ st x (off : Int), Inv st → 0 ≤ off → off < 2 ^ 63 → Inv (R.readAt st x off).1 ∧ Replies F A off.toNat x (R.readAt st x off).2
  close : ∀ st, Inv st → R.isCloser = true → A { closing := (R.close st).2 }

/-- The same for an `io.Seeker`.  `At st p`: it stands at `p`. -/
structure FrailSeeker (R : Rdr σ) (F : List Byte) (Inv : σ → Prop) (At : σ → Nat → Prop) (A : Reply → Prop) : Prop where
  idle : A {}
  seek : ∀ st (off : Int), Inv st → 0 ≤ off → off < 2 ^ 63 →
    match (R.seek st off 0).2 with
    | .panics q => Inv (R.seek st off 0).1 ∧ A { crash := some q }
    | .ok (_, some e) => Inv (R.seek st off 0).1 ∧ ∀ x, A { short := x, err := some e }
    | .ok (_, none) => At (R.seek st off 0).1 off.toNat
  read : ∀ st p x, At st p → Inv (R.read st x).1 ∧ Replies F A p x (R.read st x).2
  close : ∀ st, Inv st → R.isCloser = true → A { closing := (R.close st).2 }

/-- The contract of `io.ReaderAt` about counts and errors: less than was asked for only with an error. -/
def Reply.Filled (a : Reply) : Prop := a.err = none → a.short = 0

/-- A history in which a `Read` returned an error only at the end, or on a closed Body: `ps` are the positions before it. -/
def Smooth (n : Nat) (ps : List Nat) : List Op → List Out → Prop
  | op :: ops, o :: os => (∀ h k d e, op = .read h k → o = .read d (some e) → e = .closed ∨ ∃ q, ps[h]? = some q ∧ q + d.length = n) ∧
    Smooth n (trackPos ps op o) ops os
  | _, _ => True

end Verif.Spec
