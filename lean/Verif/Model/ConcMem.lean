import Verif.Model.Concurrent
import Verif.Model.Bytes

/-!
# The methods of `/repo/body/empty.go` and `/repo/body/bytes.go`, step by step

Each access to a field of `emptyBody`/`bytesBody` is one step.  `defer mu.Unlock()` is an `unlock` on every way out, also when panicking.
These bodies share no fields; the mutex `common` stands for the memory allocator's own synchronisation.  A slice is a value: the code
never writes to the elements of `data`.
-/

set_option autoImplicit false

namespace Verif

/-! ## emptyBody -/

/-- Fields of `emptyBody` (`/repo/body/empty.go:9-13`). -/
inductive EmptyF where
  | eof | closed
deriving DecidableEq

@[reducible] def emptySig : Sig where
  CF := Empty
  BF := EmptyF
  CV := Empty.elim
  BV _ := Bool
  decC := inferInstance
  decB := inferInstance

namespace ConcEmpty

abbrev P := Prog emptySig

/-- Leaving a method that holds `body.mu`. -/
def quit (h : Nat) (o : Out) : P := .unlock (.body h) (.ret o)

/-- `Read` (`/repo/body/empty.go:19-33`). -/
def read (h k : Nat) : P :=
  .lock (.body h) <|
  .get (.b h .closed) fun closed =>
  if closed then quit h (.read [] (some .closed))
  else
    .get (.b h .eof) fun eof =>
    if eof || decide (k > 0) then .put (.b h .eof) true (quit h (.read [] (some .eof)))
    else quit h (.read [] none)

/-- `Close` (`/repo/body/empty.go:35-45`). -/
def close (h : Nat) : P :=
  .lock (.body h) <|
  .get (.b h .closed) fun closed =>
  if closed then quit h (.closed (some .closed))
  else .put (.b h .closed) true (quit h (.closed none))

/-- `Seek` (`/repo/body/empty.go:47-74`). -/
def seek (h : Nat) (offset whence : Int) : P :=
  .lock (.body h) <|
  .get (.b h .closed) fun closed =>
  if closed then quit h (.seek (-1) (some .closed))
  else if whence = 0 ∧ offset < 0 then quit h (.seek (-1) (some (.negStart offset)))
  else if whence ≠ 0 ∧ whence ≠ 1 ∧ whence ≠ 2 then quit h (.seek (-1) (some (.unknownWhence whence)))
  else if offset < 0 then quit h (.seek (-1) (some (.negComputed offset)))
  else .put (.b h .eof) false (quit h (.seek 0 none))

/-- `ReadAt` (`/repo/body/empty.go:76-89`). -/
def readAt (h k : Nat) : P :=
  .lock (.body h) <|
  .get (.b h .closed) fun closed =>
  if closed then quit h (.read [] (some .closed))
  else if k > 0 then quit h (.read [] (some .eof))
  else quit h (.read [] none)

/-- `WriteTo` (`/repo/body/empty.go:91-100`). -/
def writeTo (h : Nat) : P :=
  .lock (.body h) <|
  .get (.b h .closed) fun closed =>
  if closed then quit h (.wrote none 0 (some .closed))
  else quit h (.wrote none 0 (some .eof))

/-- `Copy` (`/repo/body/empty.go:102-112`). -/
def copy (h : Nat) : P :=
  .lock (.body h) <|
  .get (.b h .closed) fun closed =>
  if closed then quit h .copiedClosed
  else
    .get (.b h .eof) fun eof =>
    .lock .common <|
    .get .next fun i =>
    .put (.b i .eof) eof <|
    .put (.b i .closed) false <|
    .put .next (i + 1 : Nat) <|
    .unlock .common <|
    quit h (.copied i)

/-- The methods of `emptyBody`; `BytesRemaining` (`/repo/body/empty.go:15-17`) and `Unwrap` (`/repo/body/empty.go:114-116`) access nothing. -/
def prog : Op → P
  | .read h k => read h k
  | .readAt h k _ => readAt h k
  | .seek h off wh => seek h off wh
  | .remaining _ => .ret (.remaining 0)
  | .writeTo h _ => writeTo h
  | .copy h => copy h
  | .close h => close h
  | .unwrap _ => .ret (.unwrap false)

/-- The memory after `Empty()` (`/repo/body/body.go:115-117`). -/
def init : Mem emptySig
  | .c f => f.elim
  | .b _ _ => false
  | .next => (1 : Nat)

end ConcEmpty

/-! ## bytesBody -/

/-- Fields of `bytesBody` (`/repo/body/bytes.go:12-18`). -/
inductive BytesF where
  | data | offset | eof | closed
deriving DecidableEq

@[reducible] def bytesSig : Sig where
  CF := Empty
  BF := BytesF
  CV := Empty.elim
  BV | .data => List Byte | .offset => Int | .eof => Bool | .closed => Bool
  decC := inferInstance
  decB := inferInstance

namespace ConcBytes

abbrev P := Prog bytesSig

/-- Leaving a method that holds `body.mu`. -/
def quit (h : Nat) (o : Out) : P := .unlock (.body h) (.ret o)

/-- `BytesRemaining` (`/repo/body/bytes.go:20-29`). -/
def remaining (h : Nat) : P :=
  .lock (.body h) <|
  .get (.b h .closed) fun closed =>
  if closed then quit h (.remaining 0)
  else
    .get (.b h .data) fun data =>
    .get (.b h .offset) fun offset =>
    quit h (.remaining ((data : List Byte).length - offset))

/-- `Read` (`/repo/body/bytes.go:31-59`). -/
def read (h k : Nat) : P :=
  .lock (.body h) <|
  .get (.b h .closed) fun closed =>
  if closed then quit h (.read [] (some .closed))
  else
    .get (.b h .eof) fun eof =>
    if eof then quit h (.read [] (some .eof))
    else
      .get (.b h .data) fun (data : List Byte) =>
      .get (.b h .offset) fun (i : Int) =>
      let avail : Int := data.length - i
      let eof := decide ((k : Int) > avail)
      let n : Int := if eof then avail else k
      let err := if eof then some Err.eof else none
      let j := i + n
      match goSlice (List.replicate k (0 : Byte)) 0 n, goSlice data i j with
      | some _, some d =>
        .put (.b h .offset) j <|
        .put (.b h .eof) eof <|
        quit h (.read d err)
      | _, _ => quit h (.panic .bounds)

/-- `Close` (`/repo/body/bytes.go:61-74`). -/
def close (h : Nat) : P :=
  .lock (.body h) <|
  .get (.b h .closed) fun closed =>
  if closed then quit h (.closed (some .closed))
  else
    .put (.b h .data) [] <|
    .put (.b h .offset) (0 : Int) <|
    .put (.b h .eof) true <|
    .put (.b h .closed) true <|
    quit h (.closed none)

/-- `Seek` (`/repo/body/bytes.go:76-110`). -/
def seek (h : Nat) (offset whence : Int) : P :=
  .lock (.body h) <|
  .get (.b h .closed) fun closed =>
  if closed then quit h (.seek (-1) (some .closed))
  else
    .get (.b h .data) fun (data : List Byte) =>
    let bodyLen : Int := data.length
    if whence = 0 ∧ offset < 0 then quit h (.seek (-1) (some (.negStart offset)))
    else if whence ≠ 0 ∧ whence ≠ 1 ∧ whence ≠ 2 then quit h (.seek (-1) (some (.unknownWhence whence)))
    else
      .get (.b h .offset) fun (cur : Int) =>
      let offset :=
        if whence = 0 then offset
        else if whence = 1 then i64 (offset + cur)
        else i64 (offset + bodyLen)
      if offset < 0 then quit h (.seek (-1) (some (.negComputed offset)))
      else
        let offset := if offset > bodyLen then bodyLen else offset
        .put (.b h .offset) offset <|
        .put (.b h .eof) false <|
        quit h (.seek offset none)

/-- `ReadAt` (`/repo/body/bytes.go:112-142`). -/
def readAt (h k : Nat) (offset : Int) : P :=
  .lock (.body h) <|
  .get (.b h .closed) fun closed =>
  if closed then quit h (.read [] (some .closed))
  else if offset < 0 then quit h (.read [] (some (.negReadAt offset)))
  else
    .get (.b h .data) fun (data : List Byte) =>
    let bodyLen : Int := data.length
    let offset := if offset > bodyLen then bodyLen else offset
    let avail := bodyLen - offset
    let short := decide ((k : Int) > avail)
    let n : Int := if short then avail else k
    let err := if short then some Err.eof else none
    let i := offset
    let j := i + n
    match goSlice (List.replicate k (0 : Byte)) 0 n, goSlice data i j with
    | some _, some d => quit h (.read d err)
    | _, _ => quit h (.panic .bounds)

/-- `WriteTo` (`/repo/body/bytes.go:144-165`).  `w` is the writer's answer to the one `Write` call, made with `body.mu` held. -/
def writeTo (h : Nat) (w : WriteFn) : P :=
  .lock (.body h) <|
  .get (.b h .closed) fun closed =>
  if closed then quit h (.wrote none 0 (some .closed))
  else
    .get (.b h .eof) fun eof =>
    if eof then quit h (.wrote none 0 none)
    else
      .get (.b h .offset) fun (i : Int) =>
      .get (.b h .data) fun (data : List Byte) =>
      let j : Int := data.length
      match goSlice data i j with
      | none => quit h (.panic .bounds)
      | some d =>
        match w d with
        | .panics p => quit h (.panic p)
        | .ok (n, err) =>
          if ¬ n ≥ 0 then quit h (.panic .badWriter)
          else if ¬ n ≤ j - i then quit h (.panic .badWriter)
          else
            .get (.b h .offset) fun (i : Int) =>
            .put (.b h .offset) (i + n : Int) <|
            .put (.b h .eof) true <|
            quit h (.wrote (some d) n err)

/-- `Copy` (`/repo/body/bytes.go:167-182`). -/
def copy (h : Nat) : P :=
  .lock (.body h) <|
  .get (.b h .closed) fun closed =>
  if closed then quit h .copiedClosed
  else
    .get (.b h .data) fun data =>
    .get (.b h .offset) fun offset =>
    .get (.b h .eof) fun eof =>
    .get (.b h .closed) fun closed =>
    .lock .common <|
    .get .next fun i =>
    .put (.b i .data) data <|
    .put (.b i .offset) offset <|
    .put (.b i .eof) eof <|
    .put (.b i .closed) closed <|
    .put .next (i + 1 : Nat) <|
    .unlock .common <|
    quit h (.copied i)

/-- The methods of `bytesBody`; `Unwrap` (`/repo/body/bytes.go:184-186`) accesses nothing. -/
def prog : Op → P
  | .read h k => read h k
  | .readAt h k off => readAt h k off
  | .seek h off wh => seek h off wh
  | .remaining h => remaining h
  | .writeTo h w => writeTo h w
  | .copy h => copy h
  | .close h => close h
  | .unwrap _ => .ret (.unwrap false)

/-- The memory after `FromBytes(data)` for non-empty `data` (`/repo/body/body.go:129-134`). -/
def init (data : List Byte) : Mem bytesSig
  | .c f => f.elim
  | .b _ .data => data
  | .b _ .offset => (0 : Int)
  | .b _ .eof => false
  | .b _ .closed => false
  | .next => (1 : Nat)

end ConcBytes
end Verif
