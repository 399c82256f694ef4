import Verif.Basic

/-!
# Specification: families of independent cursors

This file does not mention the model.  It says what a caller expects of a Body and its copies:
each is a cursor (a position) over a fixed content, and cursors do not interact.
-/

set_option autoImplicit false

namespace Verif.Spec

/-- A Body as its user sees it. -/
structure Cursor where
  /-- the bytes the Body represents -/
  content : List Byte
  /-- how many of them have been consumed -/
  pos : Nat := 0
  /-- the end has been reported; it is reported again until a successful Seek -/
  done : Bool := false
  /-- `Close` has not been called -/
  isOpen : Bool := true
deriving DecidableEq, Repr

/-- What kind of family is described. -/
structure Cfg where
  /-- error reported at the end of the content -/
  fin : Err := .eof
  /-- supports Seek and ReadAt -/
  seekable : Bool
  /-- supports WriteTo -/
  drains : Bool
  /-- there is a backing Reader -/
  backed : Bool
  /-- the length advertised by whoever created the family (`-1`: none) -/
  declared : Int

/-- The choices the environment may make at one call. -/
structure Choice where
  /-- report the end together with the last byte instead of on the next Read -/
  early : Bool := false
  /-- `BytesRemaining` may still answer from the advertised length -/
  stale : Bool := false
  /-- what closing the backing Reader returns -/
  closeErr : Option Err := none
  /-- the backing Reader violates its contract (or panics) during this call: the call panics and the
  cursor stays where it is -/
  crash : Option Panic := none

/-- `Read(p)`, `len(p) = k`. -/
def Cursor.read (cfg : Cfg) (ch : Choice) (c : Cursor) (k : Nat) : Cursor × Out :=
  if !c.isOpen then (c, .read [] (some .closed))
  else if c.done then (c, .read [] (some cfg.fin))
  else match ch.crash with
  | some p => (c, .panic p)
  | none =>
    let d := (c.content.drop c.pos).take k
    let ended := c.content.length < c.pos + k ||
      (ch.early && decide (0 < k) && decide (c.pos + k = c.content.length))
    ({ c with pos := c.pos + d.length, done := ended }, .read d (if ended then some cfg.fin else none))

/-- `ReadAt(p, off)`, `len(p) = k`: the cursor is not involved. -/
def Cursor.readAt (cfg : Cfg) (ch : Choice) (c : Cursor) (k : Nat) (off : Int) : Out :=
  if !c.isOpen then .read [] (some .closed)
  else if off < 0 then .read [] (some (.negReadAt off))
  else match ch.crash with
  | some p => .panic p
  | none =>
    let o := min off.toNat c.content.length
    let ended := c.content.length < o + k ||
      (ch.early && decide (0 < k) && decide (o + k = c.content.length))
    .read ((c.content.drop o).take k) (if ended then some cfg.fin else none)

/-- Where `Seek(off, whence)` would go, before clamping at the end; `none`: unknown whence. -/
def seekTarget (len pos : Nat) (off whence : Int) : Option Int :=
  if whence = 0 then some off
  else if whence = 1 then some (pos + off)
  else if whence = 2 then some (len + off)
  else none

/-- `Seek(off, whence)`. -/
def Cursor.seek (c : Cursor) (off whence : Int) : Cursor × Out :=
  if !c.isOpen then (c, .seek (-1) (some .closed))
  else match seekTarget c.content.length c.pos off whence with
    | none => (c, .seek (-1) (some (.unknownWhence whence)))
    | some t =>
      if whence = 0 ∧ off < 0 then (c, .seek (-1) (some (.negStart off)))
      else if t < 0 then (c, .seek (-1) (some (.negComputed t)))
      else if 2 ^ 63 ≤ t then (c, .seek (-1) (some (.negComputed (t - 2 ^ 64))))
      else
        let p := min t.toNat c.content.length
        ({ c with pos := p, done := false }, .seek p none)

/-- `BytesRemaining()`. -/
def Cursor.remaining (cfg : Cfg) (ch : Choice) (c : Cursor) : Int :=
  if !c.isOpen then 0
  else if ch.stale then (if cfg.declared < 0 then -1 else cfg.declared - c.pos)
  else c.content.length - c.pos

/-- `WriteTo(w)`: one `Write` with everything that is left; if that panics, or returns an impossible count, the call panics and the
cursor stays where it is. -/
def Cursor.writeTo (c : Cursor) (w : WriteFn) : Cursor × Out :=
  if !c.isOpen then (c, .wrote none 0 (some .closed))
  else if c.done then (c, .wrote none 0 none)
  else
    let d := c.content.drop c.pos
    match w d with
    | .panics p => (c, .panic p)
    | .ok (n, err) =>
      if 0 ≤ n ∧ n ≤ d.length then
        ({ c with pos := c.pos + n.toNat, done := true }, .wrote (some d) n err)
      else (c, .panic .badWriter)

/-- Number of open cursors. -/
def openCount (fam : List Cursor) : Nat := fam.countP (·.isOpen)

/-- One call on a family of cursors.  Only the addressed cursor changes; `Copy` appends a duplicate. -/
def step (cfg : Cfg) (ch : Choice) (fam : List Cursor) (op : Op) : List Cursor × Out :=
  match fam[op.h]? with
  | none => (fam, .unsupported)
  | some c =>
    match op with
    | .read h k => let r := c.read cfg ch k; (fam.set h r.1, r.2)
    | .readAt _ k off => if cfg.seekable then (fam, c.readAt cfg ch k off) else (fam, .unsupported)
    | .seek h off wh =>
      if cfg.seekable then let r := c.seek off wh; (fam.set h r.1, r.2) else (fam, .unsupported)
    | .remaining _ => (fam, .remaining (c.remaining cfg ch))
    | .writeTo h w =>
      if cfg.drains then let r := c.writeTo w; (fam.set h r.1, r.2) else (fam, .unsupported)
    | .copy _ => if c.isOpen then (fam ++ [c], .copied fam.length) else (fam, .copiedClosed)
    | .close h =>
      if c.isOpen then
        (fam.set h { c with isOpen := false },
          .closed (if cfg.backed && decide (openCount fam = 1) then ch.closeErr else none))
      else (fam, .closed (some .closed))
    | .unwrap _ => (fam, .unwrap (cfg.backed && c.isOpen))

/-- Run a history; the environment's choices are given per call. -/
def run (cfg : Cfg) : List Cursor → List (Choice × Op) → List Cursor × List Out
  | fam, [] => (fam, [])
  | fam, (ch, op) :: ops =>
    let r := step cfg ch fam op
    let t := run cfg r.1 ops
    (t.1, r.2 :: t.2)

end Verif.Spec

namespace Verif

/-- Kind of family made by `FromBytes`. -/
def memCfg (data : List Byte) : Spec.Cfg :=
  { seekable := true, drains := true, backed := false, declared := data.length }

/-- Calls on which an empty body agrees with a cursor over no bytes: all but `WriteTo` (which
reports `io.EOF`, see `C08`) and `ReadAt` at a negative offset (which is not rejected, see `C04`). -/
def Op.EmptyOk : Op → Prop
  | .writeTo _ _ => False
  | .readAt _ _ off => 0 ≤ off
  | _ => True

end Verif
