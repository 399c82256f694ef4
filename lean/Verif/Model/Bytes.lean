import Verif.Basic

/-!
# Model of `/repo/body/closed.go`, `/repo/body/empty.go`, `/repo/body/bytes.go`

Mutexes: each method runs under `body.mu` (`defer body.mu.Unlock()`), so one call is one atomic
step here; interleavings of the locking steps are the subject of `Model/Concurrent.lean`.
The caller's buffer `p` is represented by its length; the bytes copied into `p[0:n]` are the result.
-/

set_option autoImplicit false

namespace Verif

/-! ## closedBody -/

/-- `closedBody` has no fields (`/repo/body/closed.go:8-10`). -/
structure ClosedBody where
deriving DecidableEq, Repr

namespace ClosedBody
/-- `/repo/body/closed.go:12-42`: every method. `Copy` returns the same singleton. -/
def step (b : ClosedBody) : Op → ClosedBody × Out
  | .remaining _ => (b, .remaining 0)                      -- closed.go:12-14
  | .read _ _ => (b, .read [] (some .closed))              -- closed.go:16-18
  | .close _ => (b, .closed (some .closed))                -- closed.go:20-22
  | .seek _ _ _ => (b, .seek (-1) (some .closed))          -- closed.go:24-26
  | .readAt _ _ _ => (b, .read [] (some .closed))          -- closed.go:28-30
  | .writeTo _ _ => (b, .wrote none 0 (some .closed))      -- closed.go:32-34
  | .copy _ => (b, .copiedClosed)                          -- closed.go:36-38
  | .unwrap _ => (b, .unwrap false)                        -- closed.go:40-42
end ClosedBody

/-! ## emptyBody -/

/-- `/repo/body/empty.go:9-13` (without the mutex). -/
structure EmptyBody where
  eof : Bool := false
  closed : Bool := false
deriving DecidableEq, Repr

namespace EmptyBody

/-- `/repo/body/empty.go:15-17`. -/
def bytesRemaining (_ : EmptyBody) : Int := 0

/-- `/repo/body/empty.go:19-33`. -/
def read (b : EmptyBody) (k : Nat) : EmptyBody × Out :=
  if b.closed then (b, .read [] (some .closed))
  else if b.eof || decide (k > 0) then ({ b with eof := true }, .read [] (some .eof))
  else (b, .read [] none)

/-- `/repo/body/empty.go:35-45`. -/
def close (b : EmptyBody) : EmptyBody × Out :=
  if b.closed then (b, .closed (some .closed))
  else ({ b with closed := true }, .closed none)

/-- `/repo/body/empty.go:47-74`. -/
def seek (b : EmptyBody) (offset whence : Int) : EmptyBody × Out :=
  if b.closed then (b, .seek (-1) (some .closed))
  else if whence = 0 ∧ offset < 0 then (b, .seek (-1) (some (.negStart offset)))
  else if whence ≠ 0 ∧ whence ≠ 1 ∧ whence ≠ 2 then (b, .seek (-1) (some (.unknownWhence whence)))
  else if offset < 0 then (b, .seek (-1) (some (.negComputed offset)))
  else ({ b with eof := false }, .seek 0 none)

/-- `/repo/body/empty.go:76-89`.  The offset is ignored. -/
def readAt (b : EmptyBody) (k : Nat) (_off : Int) : Out :=
  if b.closed then .read [] (some .closed)
  else if k > 0 then .read [] (some .eof)
  else .read [] none

/-- `/repo/body/empty.go:91-100`.  The writer is never called. -/
def writeTo (b : EmptyBody) : Out :=
  if b.closed then .wrote none 0 (some .closed)
  else .wrote none 0 (some .eof)

/-- One call on a family of empty bodies (the original and its copies); `Copy` is
`/repo/body/empty.go:102-112`, `Unwrap` is `/repo/body/empty.go:114-116`. -/
def step (s : List EmptyBody) (op : Op) : List EmptyBody × Out :=
  match s[op.h]? with
  | none => (s, .unsupported)
  | some b =>
    match op with
    | .read h k => let r := b.read k; (s.set h r.1, r.2)
    | .readAt _ k off => (s, b.readAt k off)
    | .seek h off wh => let r := b.seek off wh; (s.set h r.1, r.2)
    | .remaining _ => (s, .remaining b.bytesRemaining)
    | .writeTo _ _ => (s, b.writeTo)
    | .copy _ => if b.closed then (s, .copiedClosed) else (s ++ [{ eof := b.eof }], .copied s.length)
    | .close h => let r := b.close; (s.set h r.1, r.2)
    | .unwrap _ => (s, .unwrap false)

end EmptyBody

/-! ## bytesBody -/

/-- `/repo/body/bytes.go:12-18` (without the mutex). -/
structure BytesBody where
  data : List Byte := []
  offset : Int := 0
  eof : Bool := false
  closed : Bool := false
deriving DecidableEq, Repr

namespace BytesBody

/-- `/repo/body/bytes.go:20-29`. -/
def bytesRemaining (b : BytesBody) : Int :=
  if b.closed then 0 else b.data.length - b.offset

/-- `/repo/body/bytes.go:31-59`. -/
def read (b : BytesBody) (k : Nat) : BytesBody × Out :=
  if b.closed then (b, .read [] (some .closed))
  else if b.eof then (b, .read [] (some .eof))
  else
    let avail : Int := b.data.length - b.offset
    let eof := decide ((k : Int) > avail)
    let n : Int := if eof then avail else k
    let err := if eof then some Err.eof else none
    let i := b.offset
    let j := i + n
    -- copy(p[0:n], body.data[i:j])
    match goSlice (List.replicate k (0 : Byte)) 0 n, goSlice b.data i j with
    | some _, some d => ({ b with offset := j, eof := eof }, .read d err)
    | _, _ => (b, .panic .bounds)

/-- `/repo/body/bytes.go:61-74`. -/
def close (b : BytesBody) : BytesBody × Out :=
  if b.closed then (b, .closed (some .closed))
  else ({ data := [], offset := 0, eof := true, closed := true }, .closed none)

/-- `/repo/body/bytes.go:76-110`.  `offset += …` is `int64` addition and can wrap around. -/
def seek (b : BytesBody) (offset whence : Int) : BytesBody × Out :=
  if b.closed then (b, .seek (-1) (some .closed))
  else
    let bodyLen : Int := b.data.length
    if whence = 0 ∧ offset < 0 then (b, .seek (-1) (some (.negStart offset)))
    else if whence ≠ 0 ∧ whence ≠ 1 ∧ whence ≠ 2 then
      (b, .seek (-1) (some (.unknownWhence whence)))
    else
      let offset :=
        if whence = 0 then offset
        else if whence = 1 then i64 (offset + b.offset)
        else i64 (offset + bodyLen)
      if offset < 0 then (b, .seek (-1) (some (.negComputed offset)))
      else
        let offset := if offset > bodyLen then bodyLen else offset
        ({ b with offset := offset, eof := false }, .seek offset none)

/-- `/repo/body/bytes.go:112-142`. -/
def readAt (b : BytesBody) (k : Nat) (offset : Int) : Out :=
  if b.closed then .read [] (some .closed)
  else if offset < 0 then .read [] (some (.negReadAt offset))
  else
    let bodyLen : Int := b.data.length
    let offset := if offset > bodyLen then bodyLen else offset
    let avail := bodyLen - offset
    let short := decide ((k : Int) > avail)
    let n : Int := if short then avail else k
    let err := if short then some Err.eof else none
    let i := offset
    let j := i + n
    match goSlice (List.replicate k (0 : Byte)) 0 n, goSlice b.data i j with
    | some _, some d => .read d err
    | _, _ => .panic .bounds

/-- `/repo/body/bytes.go:144-165`.  `w` is the writer's answer to the one `Write` call. -/
def writeTo (b : BytesBody) (w : WriteFn) : BytesBody × Out :=
  if b.closed then (b, .wrote none 0 (some .closed))
  else if b.eof then (b, .wrote none 0 none)
  else
    let i := b.offset
    let j : Int := b.data.length
    let avail := j - i
    match goSlice b.data i j with
    | none => (b, .panic .bounds)
    | some d =>
      match w d with
      | .panics p => (b, .panic p)
      | .ok (n, err) =>
        if ¬ n ≥ 0 then (b, .panic .badWriter)
        else if ¬ n ≤ avail then (b, .panic .badWriter)
        else ({ b with offset := b.offset + n, eof := true }, .wrote (some d) n err)

/-- `/repo/body/bytes.go:175-181`: the duplicate made by `Copy`.  The slice is shared; the code never
writes to it, and `FromBytes` forbids the caller to. -/
def dupe (b : BytesBody) : BytesBody :=
  { data := b.data, offset := b.offset, eof := b.eof, closed := b.closed }

/-- One call on a family of bytes bodies; `Copy` is `/repo/body/bytes.go:167-182`, `Unwrap` is
`/repo/body/bytes.go:184-186`. -/
def step (s : List BytesBody) (op : Op) : List BytesBody × Out :=
  match s[op.h]? with
  | none => (s, .unsupported)
  | some b =>
    match op with
    | .read h k => let r := b.read k; (s.set h r.1, r.2)
    | .readAt _ k off => (s, b.readAt k off)
    | .seek h off wh => let r := b.seek off wh; (s.set h r.1, r.2)
    | .remaining _ => (s, .remaining b.bytesRemaining)
    | .writeTo h w => let r := b.writeTo w; (s.set h r.1, r.2)
    | .copy _ => if b.closed then (s, .copiedClosed) else (s ++ [b.dupe], .copied s.length)
    | .close h => let r := b.close; (s.set h r.1, r.2)
    | .unwrap _ => (s, .unwrap false)

end BytesBody

/-! ## Constructors over byte slices -/

/-- A family of Bodies made by `FromBytes`/`FromString`/`Empty`. -/
inductive MemFam where
  | empty (s : List EmptyBody)
  | bytes (s : List BytesBody)
deriving DecidableEq, Repr

/-- `Empty` (`/repo/body/body.go:115-117`). -/
def emptyFam : MemFam := .empty [{}]

/-- `FromBytes` (`/repo/body/body.go:129-134`) and `FromString` (`/repo/body/body.go:143-149`; the
string's bytes are copied into a fresh slice). -/
def fromBytes (data : List Byte) : MemFam :=
  if data.length = 0 then emptyFam else .bytes [{ data := data }]

/-- The Body `AlreadyClosed()`/`closedSingleton`, as a family.  In place of the `closedBody` there is an `emptyBody` that has been
closed; it does the same (`closedFam_step` in `Props/Mem.lean`). -/
def closedFam : MemFam := .empty [{ closed := true }]

/-- One call on such a family (dynamic dispatch on the concrete type). -/
def MemFam.step : MemFam → Op → MemFam × Out
  | .empty s, op => let r := EmptyBody.step s op; (.empty r.1, r.2)
  | .bytes s, op => let r := BytesBody.step s op; (.bytes r.1, r.2)

end Verif
