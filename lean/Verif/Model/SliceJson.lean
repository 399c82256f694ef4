import Verif.Model.Slices

/-!
# Model of `FromJSON` and `FromPrettyJSON`, with slices and the buffer pool

`Model/Construct.lean` has the same function on lists.  Here the encoding is written to a buffer of a pool that is shared by all users, and calls overlap:
several goroutines make them, and `Encode` may call methods of the value that make Bodies themselves.

`json.Encoder.Encode` (Go 1.17) writes its output with one `Write`, and nothing if it fails.  A `bytes.Buffer` that has not been read from is its slice.
-/

set_option autoImplicit false

namespace Verif

/-- `append(s, d...)`, and `(*bytes.Buffer).Write(d)`: in place if there is room, or else in a new array, with room for `extra` more. -/
def BMem.append (m : BMem) (s : BSlice) (d : List Byte) (extra : Nat) : BMem × BSlice :=
  if s.len + d.length ≤ s.cap then
    (m.store ⟨s.arr, s.off + s.len, d.length, s.cap - s.len⟩ d, { s with len := s.len + d.length })
  else (m ++ [m.bytes s ++ d ++ List.replicate extra 0], ⟨m.length, 0, s.len + d.length, s.len + d.length + extra⟩)

/-- `make([]byte, 0, n)`. -/
def BMem.makeEmpty (m : BMem) (n : Nat) : BMem × BSlice := (m ++ [List.replicate n 0], ⟨m.length, 0, 0, n⟩)

/-- How far a call of `fromJSONImpl` (`/repo/body/body.go:173-209`) has come. -/
inductive JSt where
  /-- it has a buffer (`:180`) -/
  | got (buf : BSlice)
  /-- the encoding is in the buffer (`:187`) -/
  | encoded (buf : BSlice)
  /-- the loop (`:197-203`), with so many bytes read -/
  | conv (buf : BSlice) (pos : Nat) (dst : BSlice)
  /-- `FromBytes(data)` has been returned (`:208`) -/
  | done (data : BSlice)
  | panicked (p : Panic)
deriving DecidableEq, Repr

/-- A call.  `enc` is what becomes of `e.Encode(v)`. -/
structure JCall where
  enc : XResp (Except Err (List Byte))
  isPretty : Bool
  st : JSt

/-- The next step of a call: memory, state, and the buffer that is put back. -/
def JCall.advance (m : BMem) (c : JCall) (extra : Nat) : BMem × JSt × Option BSlice :=
  match c.st with
  | .got buf =>
    match c.enc with                                                            -- :187-190
    | .panics p => (m, .panicked p, some buf)
    | .ok (.error e) => (m, .panicked (.error e), some buf)
    | .ok (.ok src) => let r := m.append buf src extra; (r.1, .encoded r.2, none)
  | .encoded buf =>
    if c.isPretty then                                                          -- :194-196
      let numLF := (m.bytes buf).count 10
      let r := m.makeEmpty (buf.len + numLF)
      (r.1, .conv buf 0 r.2, none)
    else (m.copy .nil buf, .done .nil, some buf)                                -- :205
  | .conv buf pos dst =>
    match (m.bytes buf)[pos]? with
    | some ch => let r := m.append dst (if ch = 10 then [13, 10] else [ch]) extra; (r.1, .conv buf (pos + 1) r.2, none)
    | none => (m, .done dst, some buf)
  | st => (m, st, none)

/-- Memory, the pool (an empty place is one whose buffer has been taken), and the calls. -/
structure JSys where
  mem : BMem
  free : List (Option BSlice) := []
  calls : List JCall := []

/-- What happens. -/
inductive JEv where
  /-- somebody calls `FromJSON` or `FromPrettyJSON`; `pick` is the buffer that the pool hands out, or a place that has none, if it makes a new one -/
  | call (enc : XResp (Except Err (List Byte))) (isPretty : Bool) (pick : Nat)
  /-- call `i` makes its next step -/
  | step (i extra : Nat)
  /-- another user of the pool gets a buffer -/
  | take (j : Nat)
  /-- another user of the pool puts a buffer -/
  | give (s : BSlice)
  /-- somebody writes to memory -/
  | write (s : BSlice) (d : List Byte)
  /-- somebody allocates memory -/
  | alloc (d : List Byte)

/-- `bufferpool.Get()`: the pool afterwards, and the buffer, which is empty. -/
def getBuffer (free : List (Option BSlice)) (pick : Nat) : List (Option BSlice) × BSlice :=
  match free[pick]? with
  | some (some s) => (free.set pick none, { s with len := 0 })
  | _ => (free, .nil)

/-- `bufferpool.Put(buf)`, if at all. -/
def putBuffer (free : List (Option BSlice)) : Option BSlice → List (Option BSlice)
  | none => free
  | some s => free ++ [some s]

/-- One event. -/
def JSys.step (X : JSys) : JEv → JSys
  | .call enc isPretty pick =>
    let r := getBuffer X.free pick
    { X with free := r.1, calls := X.calls ++ [⟨enc, isPretty, .got r.2⟩] }
  | .step i extra =>
    match X.calls[i]? with
    | none => X
    | some c =>
      let r := c.advance X.mem extra
      { mem := r.1, free := putBuffer X.free r.2.2, calls := X.calls.set i { c with st := r.2.1 } }
  | .take j => { X with free := X.free.set j none }
  | .give s => { X with free := putBuffer X.free (some s) }
  | .write s d => { X with mem := X.mem.store s d }
  | .alloc d => { X with mem := X.mem ++ [d] }

/-- A history. -/
def JSys.run (X : JSys) (evs : List JEv) : JSys := evs.foldl JSys.step X

end Verif
