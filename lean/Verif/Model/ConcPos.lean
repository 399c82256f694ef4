import Verif.Model.Concurrent
import Verif.Model.Positional

/-!
# The methods of `/repo/body/readerat.go` and `/repo/body/seeker.go`, step by step

Each access to a field of `readerAtCommon`/`seekerCommon` or `readerAtBody`/`seekerBody` is one step.  `defer mu.Unlock()` is an `unlock`
on every way out, also when panicking.  A local variable that only holds `body.common` or a parameter is not shared and not modelled.
-/

set_option autoImplicit false

namespace Verif

/-- Fields of `readerAtCommon` (`/repo/body/readerat.go:12-18`) and `seekerCommon` (`/repo/body/seeker.go:12-17`). -/
inductive PosC where
  | hasR | rdr | length | refcnt
deriving DecidableEq

/-- Fields of `readerAtBody` (`/repo/body/readerat.go:64-70`) and `seekerBody` (`/repo/body/seeker.go:68-74`). -/
inductive PosB where
  | err | offset | closed
deriving DecidableEq

@[reducible] def posSig (σ : Type) : Sig where
  CF := PosC
  BF := PosB
  CV | .hasR => Bool | .rdr => σ | .length => Int | .refcnt => Int
  BV | .err => Option Err | .offset => Int | .closed => Bool
  decC := inferInstance
  decB := inferInstance

namespace ConcPos
variable {σ : Type}

abbrev P (σ : Type) := Prog (posSig σ)

/-- Leaving a method that holds `body.mu`. -/
def quit (h : Nat) (o : Out) : P σ := .unlock (.body h) (.ret o)

/-- Leaving a method that holds `body.mu` and `common.mu`. -/
def done (h : Nat) (o : Out) : P σ := .unlock .common (quit h o)

/-- `common.readAt` of `/repo/body/readerat.go:56-62`; `k` is what follows it. -/
def readerAtCall (R : Rdr σ) (x : Nat) (offset : Int) (k : Res (List Byte × Option Err) → P σ) : P σ :=
  .get (.c .hasR) fun hasR =>
  if !hasR then k (.panic .nilDeref)
  else
    .get (.c .rdr) fun s =>
    .put (.c .rdr) (R.readAt s x offset).1 <|
    match (R.readAt s x offset).2 with
    | .panics p => k (.panic p)
    | .negative => k (.panic .badReader)
    | .got d err => if ¬ d.length ≤ x then k (.panic .badReader) else k (.ret (d, err))

/-- `common.readAt` of `/repo/body/seeker.go:55-66`. -/
def seekerCall (R : Rdr σ) (x : Nat) (offset : Int) (k : Res (List Byte × Option Err) → P σ) : P σ :=
  .get (.c .hasR) fun hasR =>
  if !hasR then k (.panic .nilDeref)
  else
    .get (.c .rdr) fun s =>
    .put (.c .rdr) (R.seek s offset 0).1 <|
    match (R.seek s offset 0).2 with
    | .panics p => k (.panic p)
    | .ok (_, some e) => k (.ret ([], some e))
    | .ok (_, none) =>
      .get (.c .rdr) fun s =>
      .put (.c .rdr) (R.read s x).1 <|
      match (R.read s x).2 with
      | .panics p => k (.panic p)
      | .negative => k (.panic .badReader)
      | .got d err => if ¬ d.length ≤ x then k (.panic .badReader) else k (.ret (d, err))

/-- The end of `Read` (`/repo/body/readerat.go:122-140`, `/repo/body/seeker.go:121-140`). -/
def readEnd (h : Nat) (offset : Int) (eof : Bool) : Res (List Byte × Option Err) → P σ
  | .panic p => done h (.panic p)
  | .hang => .stuck
  | .ret (d, err) =>
    let err := if eof && err.isNone then some .eof else err
    .put (.b h .offset) (offset + d.length) <|
    match err with
    | none => done h (.read d none)
    | some e =>
      .put (.b h .err) (some e) <|
      .get (.c .length) fun length =>
      if offset + d.length < length then .put (.c .length) (offset + d.length) (done h (.read d (some e)))
      else done h (.read d (some e))

/-- `Read` (`/repo/body/readerat.go:88-141`, `/repo/body/seeker.go:87-141`). -/
def read (call : Nat → Int → (Res (List Byte × Option Err) → P σ) → P σ) (h k : Nat) : P σ :=
  .lock (.body h) <|
  .get (.b h .closed) fun closed =>
  if closed then quit h (.read [] (some .closed))
  else
    .get (.b h .err) fun err =>
    match err with
    | some e => quit h (.read [] (some e))
    | none =>
      .lock .common <|
      .get (.b h .offset) fun off =>
      .get (.c .length) fun length =>
      let offset := if off > length then length else off
      let avail := length - offset
      let eof := decide ((k : Int) > avail)
      let x := if eof then avail else k
      if avail > 0 then
        match goSlice (List.replicate k (0 : Byte)) 0 x with
        | none => readEnd h offset eof (.panic .bounds)
        | some p => call p.length offset (readEnd h offset eof)
      else readEnd h offset eof (.ret ([], none))

/-- The end of `ReadAt` (`/repo/body/readerat.go:229-234`, `/repo/body/seeker.go:231-236`). -/
def readAtEnd (h : Nat) (eof : Bool) : Res (List Byte × Option Err) → P σ
  | .panic p => done h (.panic p)
  | .hang => .stuck
  | .ret (d, err) => done h (.read d (if eof && err.isNone then some .eof else err))

/-- `ReadAt` (`/repo/body/readerat.go:196-235`, `/repo/body/seeker.go:196-237`). -/
def readAt (call : Nat → Int → (Res (List Byte × Option Err) → P σ) → P σ) (h k : Nat) (offset : Int) : P σ :=
  .lock (.body h) <|
  .get (.b h .closed) fun closed =>
  if closed then quit h (.read [] (some .closed))
  else if offset < 0 then quit h (.read [] (some (.negReadAt offset)))
  else
    .lock .common <|
    .get (.c .length) fun length =>
    let offset := if offset > length then length else offset
    let avail := length - offset
    let eof := decide ((k : Int) > avail)
    let x := if eof then avail else k
    if avail > 0 then
      match goSlice (List.replicate k (0 : Byte)) 0 x with
      | none => readAtEnd h eof (.panic .bounds)
      | some p => call p.length offset (readAtEnd h eof)
    else readAtEnd h eof (.ret ([], none))

/-- `Seek` (`/repo/body/readerat.go:159-194`, `/repo/body/seeker.go:159-194`).  `common.BytesRemaining()`
(`/repo/body/readerat.go:49-54`, `/repo/body/seeker.go:48-53`) locks and unlocks `common.mu`. -/
def seek (h : Nat) (offset whence : Int) : P σ :=
  .lock (.body h) <|
  .get (.b h .closed) fun closed =>
  if closed then quit h (.seek (-1) (some .closed))
  else
    .lock .common <|
    .get (.c .length) fun length =>
    .unlock .common <|
    if whence = 0 ∧ offset < 0 then quit h (.seek (-1) (some (.negStart offset)))
    else if whence ≠ 0 ∧ whence ≠ 1 ∧ whence ≠ 2 then quit h (.seek (-1) (some (.unknownWhence whence)))
    else
      .get (.b h .offset) fun cur =>
      let offset :=
        if whence = 0 then offset
        else if whence = 1 then i64 (offset + cur)
        else i64 (offset + length)
      if offset < 0 then quit h (.seek (-1) (some (.negComputed offset)))
      else
        let offset := if offset > length then length else offset
        .put (.b h .err) none <|
        .put (.b h .offset) offset <|
        quit h (.seek offset none)

/-- `Close` (`/repo/body/readerat.go:143-157`, `/repo/body/seeker.go:143-157`) with `common.unref()`
(`/repo/body/readerat.go:26-47`, `/repo/body/seeker.go:26-46`). -/
def close (R : Rdr σ) (h : Nat) : P σ :=
  .lock (.body h) <|
  .get (.b h .closed) fun closed =>
  if closed then quit h (.closed (some .closed))
  else
    .put (.b h .err) none <|
    .put (.b h .offset) (0 : Int) <|
    .put (.b h .closed) true <|
    .lock .common <|
    .get (.c .refcnt) fun n =>
    .put (.c .refcnt) (n - 1 : Int) <|
    .get (.c .refcnt) fun n =>
    if n > (0 : Int) then done h (.closed none)
    else
      .get (.c .hasR) fun hasR =>
      let last (e : Option Err) : P σ :=
        .put (.c .hasR) false <|
        .put (.c .length) (0 : Int) <|
        .put (.c .refcnt) (0 : Int) <|
        done h (.closed e)
      if hasR && R.isCloser then
        .get (.c .rdr) fun s =>
        .put (.c .rdr) (R.close s).1 <|
        match (R.close s).2 with
        | .ok e => last e
        | .panics p => done h (.panic p)
      else last none

/-- `Copy` (`/repo/body/readerat.go:237-253`, `/repo/body/seeker.go:239-255`) with `common.ref()`
(`/repo/body/readerat.go:20-24`, `/repo/body/seeker.go:19-24`).  The duplicate is known to nobody else until `Copy` returns; it gets its
handle while `common.mu` is held. -/
def copy (h : Nat) : P σ :=
  .lock (.body h) <|
  .get (.b h .closed) fun closed =>
  if closed then quit h .copiedClosed
  else
    .get (.b h .err) fun err =>
    .get (.b h .offset) fun offset =>
    .get (.b h .closed) fun closed =>
    .lock .common <|
    .get (.c .refcnt) fun n =>
    .put (.c .refcnt) (n + 1 : Int) <|
    .get .next fun i =>
    .put (.b i .err) err <|
    .put (.b i .offset) offset <|
    .put (.b i .closed) closed <|
    .put .next (i + 1 : Nat) <|
    done h (.copied i)

/-- `Unwrap` (`/repo/body/readerat.go:255-266`, `/repo/body/seeker.go:257-268`). -/
def unwrap (h : Nat) : P σ :=
  .lock (.body h) <|
  .get (.b h .closed) fun closed =>
  if closed then quit h (.unwrap false)
  else
    .lock .common <|
    .get (.c .hasR) fun hasR =>
    done h (.unwrap hasR)

/-- `readerAtBody.BytesRemaining` (`/repo/body/readerat.go:72-86`). -/
def readerAtRemaining (h : Nat) : P σ :=
  .lock (.body h) <|
  .get (.b h .closed) fun closed =>
  if closed then quit h (.remaining 0)
  else
    .lock .common <|
    .get (.c .length) fun length =>
    .unlock .common <|
    .get (.b h .offset) fun offset =>
    if offset ≥ length then quit h (.remaining 0)
    else quit h (.remaining (length - offset))

/-- `seekerBody.BytesRemaining` (`/repo/body/seeker.go:76-85`): `common.length` is read without `common.mu`. -/
def seekerRemaining (h : Nat) : P σ :=
  .lock (.body h) <|
  .get (.b h .closed) fun closed =>
  if closed then quit h (.remaining 0)
  else
    .get (.c .length) fun length =>
    .get (.b h .offset) fun offset =>
    quit h (.remaining (length - offset))

/-- The methods of `readerAtBody`. -/
def readerAtProg (R : Rdr σ) : Op → P σ
  | .read h k => read (readerAtCall R) h k
  | .readAt h k off => readAt (readerAtCall R) h k off
  | .seek h off wh => seek h off wh
  | .remaining h => readerAtRemaining h
  | .copy h => copy h
  | .close h => close R h
  | .unwrap h => unwrap h
  | .writeTo _ _ => .ret .unsupported

/-- The methods of `seekerBody`. -/
def seekerProg (R : Rdr σ) : Op → P σ
  | .read h k => read (seekerCall R) h k
  | .readAt h k off => readAt (seekerCall R) h k off
  | .seek h off wh => seek h off wh
  | .remaining h => seekerRemaining h
  | .copy h => copy h
  | .close h => close R h
  | .unwrap h => unwrap h
  | .writeTo _ _ => .ret .unsupported

/-- The memory after the ReaderAt and Seeker cases of `FromReaderAndLength` (`/repo/body/body.go:326-345`). -/
def init (rdr : σ) (length : Int) : Mem (posSig σ)
  | .c .hasR => true
  | .c .rdr => rdr
  | .c .length => length
  | .c .refcnt => (1 : Int)
  | .b _ .err => none
  | .b _ .offset => (0 : Int)
  | .b _ .closed => false
  | .next => (1 : Nat)

end ConcPos
end Verif
