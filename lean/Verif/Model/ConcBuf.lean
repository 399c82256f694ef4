import Verif.Model.Concurrent
import Verif.Model.Buffered

/-!
# The methods of `/repo/body/buffered.go`, step by step

Each access to a field of `bufferedCommon` or `bufferedBody` is one step (several reads of one field within one expression are one step).
`defer mu.Unlock()` is an `unlock` on every way out, also when panicking.

Simplifications: a slice and the set `bodies` are values; calls on the external Reader are not interleaved with other uses of it; the
iteration over `bodies` is in list order (`Props/Buffered.lean` proves that the order does not matter); a body created by `Copy` gets its
handle while `common.mu` is held.
-/

set_option autoImplicit false

namespace Verif

/-- Fields of `bufferedCommon` (`/repo/body/buffered.go:13-22`). -/
inductive BufC where
  | hasR | rdr | err | bodies | bytes | length | start | refcnt
deriving DecidableEq

/-- Fields of `bufferedBody` (`/repo/body/buffered.go:105-111`). -/
inductive BufB where
  | offset | eof | closed
deriving DecidableEq

@[reducible] def bufSig (σ : Type) : Sig where
  CF := BufC
  BF := BufB
  CV | .hasR => Bool | .rdr => σ | .err => Option Err | .bodies => List Nat | .bytes => List Byte | .length => Int | .start => Int | .refcnt => Int
  BV | .offset => Int | .eof => Bool | .closed => Bool
  decC := inferInstance
  decB := inferInstance

namespace ConcBuf
variable {σ : Type}

abbrev P (σ : Type) := Prog (bufSig σ)

/-- Leaving a method that holds `body.mu`. -/
def quit (h : Nat) (o : Out) : P σ := .unlock (.body h) (.ret o)

/-- Leaving a method that holds `body.mu` and `common.mu`. -/
def done (h : Nat) (o : Out) : P σ := .unlock .common (quit h o)

/-- The loop of `updateStart` (`/repo/body/buffered.go:85-93`); `k` is what follows. -/
def scan (k : Int → Int → P σ) : List Nat → Int → Int → P σ
  | [], new, n => k new n
  | i :: is, new, n =>
    .get (.b i .offset) fun (off : Int) =>
    let new' := if n ≤ 0 ∨ off < new then off else new
    let n' := if n ≤ 0 ∨ off < new then 0 else n
    if off = new' then scan k is new' (n' + 1) else scan k is new' n'

/-- `common.updateStart()` (`/repo/body/buffered.go:82-103`), called with both mutexes held. -/
def updateStart (h : Nat) (k : P σ) : P σ :=
  .get (.c .bodies) fun (bodies : List Nat) =>
  scan (fun new n =>
    .get (.c .start) fun (old : Int) =>
    if ¬ new ≥ old then done h (.panic .internal)
    else if ¬ n ≥ 1 then done h (.panic .internal)
    else
      .get (.c .bytes) fun (bytes : List Byte) =>
      match goSlice bytes (new - old) bytes.length with
      | none => done h (.panic .bounds)
      | some bytes =>
        .put (.c .bytes) bytes <|
        .put (.c .start) new <|
        .put (.c .refcnt) n k) bodies 0 0

/-- `common.refcnt--; if common.refcnt <= 0 { common.updateStart() }` (`/repo/body/buffered.go:42-45,75-78`). -/
def dropRef (h : Nat) (k : P σ) : P σ :=
  .get (.c .refcnt) fun (n : Int) =>
  .put (.c .refcnt) (n - 1 : Int) <|
  .get (.c .refcnt) fun (n : Int) =>
  if n ≤ 0 then updateStart h k else k

/-- `common.advance(oldOffset, newOffset)` (`/repo/body/buffered.go:66-80`). -/
def advance (h : Nat) (oldOffset newOffset : Int) (k : P σ) : P σ :=
  .get (.c .start) fun (beginBuffer : Int) =>
  .get (.c .bytes) fun (bytes : List Byte) =>
  let endBuffer := beginBuffer + bytes.length
  if ¬ oldOffset ≥ beginBuffer then done h (.panic .internal)
  else if ¬ newOffset ≥ oldOffset then done h (.panic .internal)
  else if ¬ endBuffer ≥ newOffset then done h (.panic .internal)
  else if oldOffset = beginBuffer ∧ newOffset ≠ beginBuffer then dropRef h k
  else k

/-- `BytesRemaining` (`/repo/body/buffered.go:113-139`). -/
def remaining (h : Nat) : P σ :=
  .lock (.body h) <|
  .get (.b h .closed) fun closed =>
  if closed then quit h (.remaining 0)
  else
    .get (.b h .eof) fun eof =>
    if eof then quit h (.remaining 0)
    else
      .lock .common <|
      .get (.c .length) fun (length : Int) =>
      if length < 0 then done h (.remaining (-1))
      else
        .get (.b h .offset) fun (offset : Int) =>
        .get (.c .length) fun (endOffset : Int) =>
        let beginOffset := if offset > endOffset then endOffset else offset
        done h (.remaining (endOffset - beginOffset))

/-- The loop of `Read` (`/repo/body/buffered.go:185-207`); `buf` is `bufNew[0:bufLen]`, `start` is `beginBuffer`. -/
def readLoop (R : Rdr σ) (h : Nat) (start : Int) (k : List Byte → P σ) (fuel : Nat) (buf : List Byte) (numToRead : Int) : P σ :=
  if ¬ numToRead > 0 then k buf
  else match fuel with
    | 0 => .stuck
    | fuel + 1 =>
      .get (.c .hasR) fun hasR =>
      if !hasR then done h (.panic .nilDeref)
      else
        .get (.c .rdr) fun s =>
        .put (.c .rdr) (R.read s numToRead.toNat).1 <|
        match (R.read s numToRead.toNat).2 with
        | .panics p => done h (.panic p)
        | .negative => done h (.panic .badReader)
        | .got d err =>
          if ¬ (d.length : Int) ≤ numToRead then done h (.panic .badReader)
          else
            .put (.c .bytes) (buf ++ d) <|
            match err with
            | some e =>
              .put (.c .length) (start + (buf ++ d).length : Int) <|
              .put (.c .err) (some e) <|
              k (buf ++ d)
            | none => readLoop R h start k fuel (buf ++ d) (numToRead - d.length)

/-- `if common.err == nil && endOffset > endBuffer { … }` (`/repo/body/buffered.go:164-213`); `k` gets the new `endBuffer`. -/
def fill (R : Rdr σ) (fuel : Nat) (h : Nat) (start endBuffer endOffset : Int) (k : Int → P σ) : P σ :=
  .get (.c .err) fun (err : Option Err) =>
  if err = none ∧ endOffset > endBuffer then
    let numToRead := BufSys.roundUp (endOffset - endBuffer)
    .get (.c .length) fun (length : Int) =>
    if length ≥ 0 ∧ ¬ endBuffer ≤ length then done h (.panic .internal)
    else
      let remain := length - endBuffer
      let eof := decide (length ≥ 0 ∧ numToRead ≥ remain)
      let numToRead := if eof then remain else numToRead
      .get (.c .bytes) fun (bytes : List Byte) =>
      .put (.c .bytes) bytes <|
      readLoop R h start (fun buf =>
        .get (.c .err) fun (err : Option Err) =>
        if eof = true ∧ err = none then
          .put (.c .length) (start + buf.length : Int) <|
          .put (.c .err) (some .eof) <|
          k (start + buf.length)
        else k (start + buf.length)) fuel bytes numToRead
  else k endBuffer

/-- The end of `Read` (`/repo/body/buffered.go:223-228`). -/
def deliver (h : Nat) (k : Nat) (start beginOffset endOffset : Int) (err : Option Err) : P σ :=
  .get (.c .bytes) fun (bytes : List Byte) =>
  match goSlice (List.replicate k (0 : Byte)) 0 ((endOffset - start) - (beginOffset - start)), goSlice bytes (beginOffset - start) (endOffset - start) with
  | some _, some d =>
    .put (.b h .offset) endOffset <|
    advance h beginOffset endOffset (done h (.read d err))
  | _, _ => done h (.panic .bounds)

/-- `Read` (`/repo/body/buffered.go:141-229`). -/
def read (R : Rdr σ) (fuel : Nat) (h k : Nat) : P σ :=
  .lock (.body h) <|
  .get (.b h .closed) fun closed =>
  if closed then quit h (.read [] (some .closed))
  else
    .lock .common <|
    .get (.b h .eof) fun eof =>
    if eof then .get (.c .err) fun (err : Option Err) => done h (.read [] err)
    else
      .get (.c .start) fun (start : Int) =>
      .get (.c .bytes) fun (bytes : List Byte) =>
      .get (.b h .offset) fun (beginOffset : Int) =>
      if ¬ beginOffset ≥ start then done h (.panic .internal)
      else
        fill R fuel h start (start + bytes.length) (beginOffset + k) fun endBuffer =>
        if beginOffset + k > endBuffer then
          .get (.c .err) fun (err : Option Err) =>
          .put (.b h .eof) true <|
          deliver h k start beginOffset endBuffer err
        else deliver h k start beginOffset (beginOffset + k) none

/-- The end of `Close` (`/repo/body/buffered.go:240-244`), after `common.unref` has released `common.mu`. -/
def closeEnd (h : Nat) (e : Option Err) : P σ :=
  .unlock .common <|
  .put (.b h .offset) (0 : Int) <|
  .put (.b h .eof) false <|
  .put (.b h .closed) true <|
  quit h (.closed e)

/-- `Close` (`/repo/body/buffered.go:231-245`) with `common.unref(body)` (`/repo/body/buffered.go:34-64`). -/
def close (R : Rdr σ) (h : Nat) : P σ :=
  .lock (.body h) <|
  .get (.b h .closed) fun closed =>
  if closed then quit h (.closed (some .closed))
  else
    .lock .common <|
    .get (.c .bodies) fun (bodies : List Nat) =>
    .put (.c .bodies) (bodies.filter (· ≠ h)) <|
    .get (.c .bodies) fun (bodies : List Nat) =>
    if bodies.length > 0 then
      .get (.b h .offset) fun (offset : Int) =>
      .get (.c .start) fun (start : Int) =>
      if offset = start then dropRef h (closeEnd h none) else closeEnd h none
    else
      .get (.c .hasR) fun hasR =>
      .put (.c .hasR) false <|
      .put (.c .err) none <|
      .put (.c .bodies) [] <|
      .put (.c .bytes) [] <|
      .put (.c .length) (0 : Int) <|
      .put (.c .start) (0 : Int) <|
      if hasR && R.isCloser then
        .get (.c .rdr) fun s =>
        .put (.c .rdr) (R.close s).1 <|
        match (R.close s).2 with
        | .ok e => closeEnd h e
        | .panics p => done h (.panic p)
      else closeEnd h none

/-- `Copy` (`/repo/body/buffered.go:247-263`) with `common.ref(dupe)` (`/repo/body/buffered.go:24-32`). -/
def copy (h : Nat) : P σ :=
  .lock (.body h) <|
  .get (.b h .closed) fun closed =>
  if closed then quit h .copiedClosed
  else
    .get (.b h .offset) fun offset =>
    .get (.b h .eof) fun eof =>
    .get (.b h .closed) fun closed =>
    .lock .common <|
    .get (.c .hasR) fun hasR =>
    if !hasR then done h (.panic .nilDeref)
    else
      .get .next fun (i : Nat) =>
      .put (.b i .offset) offset <|
      .put (.b i .eof) eof <|
      .put (.b i .closed) closed <|
      .get (.c .bodies) fun (bodies : List Nat) =>
      .put (.c .bodies) (if i ∈ bodies then bodies else bodies ++ [i]) <|
      .get (.b i .offset) fun (offset : Int) =>
      .get (.c .start) fun (start : Int) =>
      if offset = start then
        .get (.c .refcnt) fun (n : Int) =>
        .put (.c .refcnt) (n + 1 : Int) <|
        .put .next (i + 1 : Nat) <|
        done h (.copied i)
      else
        .put .next (i + 1 : Nat) <|
        done h (.copied i)

/-- `Unwrap` (`/repo/body/buffered.go:265-279`). -/
def unwrap (h : Nat) : P σ :=
  .lock (.body h) <|
  .get (.b h .closed) fun closed =>
  if closed then quit h (.unwrap false)
  else
    .lock .common <|
    .get (.c .hasR) fun hasR =>
    done h (.unwrap hasR)

/-- The methods of `bufferedBody`, which has no `ReadAt`, `Seek` or `WriteTo`. -/
def prog (R : Rdr σ) (fuel : Nat) : Op → P σ
  | .read h k => read R fuel h k
  | .remaining h => remaining h
  | .copy h => copy h
  | .close h => close R h
  | .unwrap h => unwrap h
  | .readAt _ _ _ => .ret .unsupported
  | .seek _ _ _ => .ret .unsupported
  | .writeTo _ _ => .ret .unsupported

/-- The memory after the buffered case of `FromReaderAndLength` (`/repo/body/body.go:343-352`). -/
def init (rdr : σ) (length : Int) : Mem (bufSig σ)
  | .c .hasR => true
  | .c .rdr => rdr
  | .c .err => none
  | .c .bodies => [0]
  | .c .bytes => []
  | .c .length => length
  | .c .start => (0 : Int)
  | .c .refcnt => (1 : Int)
  | .b _ .offset => (0 : Int)
  | .b _ .eof => false
  | .b _ .closed => false
  | .next => (1 : Nat)

end ConcBuf
end Verif
