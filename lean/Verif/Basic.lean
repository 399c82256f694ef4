/-!
# Vocabulary shared by the model and the specifications

Nothing here models a particular Go function; these are the Lean stand-ins for Go's basic notions
(`error`, `int64`, slicing, panics) and for the *calls* and *results* of the `body.Body` interface
(`/repo/body/body.go:34-93`) plus the optional interfaces `io.ReaderAt`, `io.Seeker`, `io.WriterTo`.
-/

set_option autoImplicit false

namespace Verif

/-- Go's `byte`. -/
abbrev Byte := UInt8

/-- A Go `string`: an arbitrary sequence of bytes. -/
abbrev GoStr := List Byte

/-- A Go string literal (used for ASCII literals only, where one character is one byte). -/
def lit (s : String) : GoStr := s.toList.map (fun c => c.toNat.toUInt8)

/-- Non-nil Go `error` values.  `nil` is `none : Option Err`. -/
inductive Err where
  /-- `fs.ErrClosed` -/
  | closed
  /-- `io.EOF` -/
  | eof
  /-- `io.ErrShortWrite` -/
  | shortWrite
  /-- `errInvalidWrite` of package io -/
  | invalidWrite
  /-- any error `e` with `errors.Is(e, http.ErrNotSupported)` -/
  | notSupported
  /-- `UnknownWhenceSeekError{w}` (`/repo/body/errors.go:7-19`) -/
  | unknownWhence (w : Int)
  /-- `NegativeStartOffsetSeekError{o}` (`/repo/body/errors.go:21-33`) -/
  | negStart (o : Int)
  /-- `NegativeComputedOffsetSeekError{o}` (`/repo/body/errors.go:35-47`) -/
  | negComputed (o : Int)
  /-- `fmt.Errorf("ReadAt error: offset %d is negative", o)` -/
  | negReadAt (o : Int)
  /-- `fmt.Errorf("failed to determine length of body via Stat: %w", e)` -/
  | viaStat (e : Err)
  /-- `fmt.Errorf("failed to determine length of body via Seek: %w", e)` -/
  | viaSeek (e : Err)
  /-- `fmt.Errorf("failed to rewind to start of file via Seek: %w", e)` -/
  | viaRewind (e : Err)
  /-- any other error, produced outside this repository -/
  | ext (id : Nat)
deriving DecidableEq, Repr

/-- Why a call panicked. -/
inductive Panic where
  /-- an assertion of this repository about its own bookkeeping failed -/
  | internal
  /-- Go run-time: slice bounds out of range -/
  | bounds
  /-- Go run-time: nil dereference / call on a nil interface / assignment to a nil map / failed type assertion -/
  | nilDeref
  /-- assertion: an external `Read`/`ReadAt`/`Stat`/`Seek` returned an impossible count -/
  | badReader
  /-- assertion: an external `Write`/`ReadFrom` returned an impossible count -/
  | badWriter
  /-- assertion: the caller passed an argument the documentation forbids -/
  | badArg
  /-- `panic(err)` with an error value -/
  | error (e : Err)
  /-- `panic(v)` with some other non-nil value -/
  | value (v : Nat)
  /-- `panic(nil)` -/
  | nilValue
  /-- `runtime.Goexit()`: no panic, but like one it ends all calls of the goroutine, deferred functions run, and so do those of the code
  here; `recover` returns nil in them and does not stop it -/
  | goexit
deriving DecidableEq, Repr

/-- How a call ended: it returned, it panicked, or it did not return. -/
inductive Res (α : Type) where
  | ret (a : α)
  | panic (p : Panic)
  | hang
deriving DecidableEq, Repr

/-- The `int64` with the same low 64 bits as `x` (two's complement wrap-around). -/
def i64 (x : Int) : Int := Int.bmod x (2 ^ 64)

/-- `x` is representable as `int64`. -/
def IsI64 (x : Int) : Prop := -(2 ^ 63) ≤ x ∧ x < 2 ^ 63

instance (x : Int) : Decidable (IsI64 x) := by unfold IsI64; infer_instance

theorem i64_of_isI64 {x : Int} (h : IsI64 x) : i64 x = x := by
  unfold i64 IsI64 at *
  apply Int.bmod_eq_of_le <;> omega

/-- The wrap-around of the sum of two non-wrapping values that is too large. -/
theorem i64_over {x : Int} (h1 : 2 ^ 63 ≤ x) (h2 : x < 2 ^ 64) : i64 x = x - 2 ^ 64 := by
  unfold i64
  have : x = (x - 2 ^ 64) + ((2 ^ 64 : Nat) : Int) := by simp
  rw [this, Int.add_bmod_right, Int.bmod_eq_of_le] <;> simp <;> omega

/-- Go's slice expression `l[i:j]`; `none` is the run-time panic.  (Go would allow `j` up to the
capacity; the model is stricter and `j ≤ len` is proved.) -/
def goSlice {α} (l : List α) (i j : Int) : Option (List α) :=
  if 0 ≤ i ∧ i ≤ j ∧ j ≤ l.length then some ((l.drop i.toNat).take (j - i).toNat) else none

/-- What an external `Write`, `Seek`, `Stat` or `Close` did: it returned, or it panicked. -/
inductive XResp (α : Type) where
  | ok (a : α)
  | panics (p : Panic)
deriving DecidableEq, Repr

/-- What an external writer's `Write(p)` does: it returns a count (possibly impossible) and an error, or panics. -/
abbrev WriteFn := List Byte → XResp (Int × Option Err)

/-- One call on the Body with handle `h` of a family of Bodies (`/repo/body/body.go:34-93`). -/
inductive Op where
  /-- `Read(p)` with `len(p) = k` -/
  | read (h k : Nat)
  /-- `ReadAt(p, off)` with `len(p) = k` -/
  | readAt (h k : Nat) (off : Int)
  /-- `Seek(off, whence)` -/
  | seek (h : Nat) (off whence : Int)
  /-- `BytesRemaining()` -/
  | remaining (h : Nat)
  /-- `WriteTo(w)` where `w.Write` answers like `w` -/
  | writeTo (h : Nat) (w : WriteFn)
  /-- `Copy()` -/
  | copy (h : Nat)
  /-- `Close()` -/
  | close (h : Nat)
  /-- `Unwrap()` -/
  | unwrap (h : Nat)

/-- The handle an operation is applied to. -/
def Op.h : Op → Nat
  | .read h _ | .readAt h _ _ | .seek h _ _ | .remaining h | .writeTo h _ | .copy h | .close h
  | .unwrap h => h

/-- The arguments are representable in Go (`offset int64`, `whence int`). -/
def Op.Valid : Op → Prop
  | .readAt _ _ off => IsI64 off
  | .seek _ off _ => IsI64 off
  | _ => True

/-- What the caller observes. -/
inductive Out where
  /-- `Read`/`ReadAt` returned `(len(data), err)` and filled the buffer with `data` -/
  | read (data : List Byte) (err : Option Err)
  /-- `Seek` returned `(n, err)` -/
  | seek (n : Int) (err : Option Err)
  /-- `BytesRemaining` returned `n` -/
  | remaining (n : Int)
  /-- `WriteTo` returned `(n, err)`; `given` is what it passed to `Write` (`none`: no call) -/
  | wrote (given : Option (List Byte)) (n : Int) (err : Option Err)
  /-- `Copy` returned a new Body, known by handle `h` from now on -/
  | copied (h : Nat)
  /-- `Copy` returned the already-closed Body (`closedSingleton`) -/
  | copiedClosed
  /-- `Close` returned `err` -/
  | closed (err : Option Err)
  /-- `Unwrap` returned a non-nil Reader (`true`) or nil (`false`) -/
  | unwrap (nonNil : Bool)
  /-- there is no Body with this handle, or it does not implement the method -/
  | unsupported
  /-- the call panicked -/
  | panic (p : Panic)
  /-- the call did not return -/
  | hang
deriving DecidableEq, Repr

/-- Run a history: the final state and the observations, in order. -/
def run {S Op Out : Type} (step : S → Op → S × Out) : S → List Op → S × List Out
  | s, [] => (s, [])
  | s, op :: ops =>
    let r := step s op
    let t := run step r.1 ops
    (t.1, r.2 :: t.2)

end Verif
