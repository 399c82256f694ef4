import Verif.Model.Bytes
import Verif.Model.Buffered
import Verif.Model.Positional

/-!
# Model of the constructors in `/repo/body/body.go`

`Empty`, `FromBytes` and `FromString` are in `Model/Bytes.lean`.
-/

set_option autoImplicit false

namespace Verif
variable {σ : Type}

/-- A family of Bodies over an external reader: the concrete type chosen by `FromReaderAndLength`. -/
inductive ReaderFam (σ : Type) where
  | readerAt (s : PosSys σ)
  | seeker (s : PosSys σ)
  | buffered (s : BufSys σ)

/-- One call on such a family (dynamic dispatch on the concrete type). -/
def ReaderFam.step (R : Rdr σ) (fuel : Nat) : ReaderFam σ → Op → ReaderFam σ × Out
  | .readerAt s, op => let r := ReaderAtBody.step R s op; (.readerAt r.1, r.2)
  | .seeker s, op => let r := SeekerBody.step R s op; (.seeker r.1, r.2)
  | .buffered s, op => let r := s.step R fuel op; (.buffered r.1, r.2)

/-- The state of the reader behind a family. -/
def ReaderFam.rdr : ReaderFam σ → σ
  | .readerAt s => s.common.rdr
  | .seeker s => s.common.rdr
  | .buffered s => s.common.rdr

/-- The measuring part of `FromReaderAndLength` (`/repo/body/body.go:294-324`): the reader afterwards and the
length, or the error returned, or the panic. -/
def measure (R : Rdr σ) (st : σ) (length : Int) : σ × Res (Except Err Int) :=
  let length := if length < 0 then -1 else length                      -- :294-296
  let r : σ × Res (Except Err Int) :=
    if R.isFile && decide (length < 0) then                            -- :302-310
      let q := R.stat st
      match q.2 with
      | .panics p => (q.1, .panic p)
      | .ok (_, some e) => (q.1, .ret (.error (.viaStat e)))
      | .ok (n, none) => if ¬ n ≥ 0 then (q.1, .panic .badReader) else (q.1, .ret (.ok n))
    else (st, Res.ret (.ok length))
  match r.2 with
  | .ret (.ok length) =>
    if R.isSeeker && decide (length < 0) then                          -- :312-324
      let q := R.seek r.1 0 2
      match q.2 with
      | .panics p => (q.1, .panic p)
      | .ok (_, some e) => (q.1, .ret (.error (.viaSeek e)))
      | .ok (n, none) =>
        if ¬ n ≥ 0 then (q.1, .panic .badReader)
        else
          let q' := R.seek q.1 0 0
          match q'.2 with
          | .panics p => (q'.1, .panic p)
          | .ok (_, some e) => (q'.1, .ret (.error (.viaRewind e)))
          | .ok (_, none) => (q'.1, .ret (.ok n))
    else r
  | _ => r

/-- `FromReaderAndLength` (`/repo/body/body.go:291-355`).  The reader is not nil (see `fromReaderAndLengthOf`).  On an error the Body returned is nil. -/
def fromReaderAndLength (R : Rdr σ) (st : σ) (length : Int) : σ × Res (Except Err (ReaderFam σ)) :=
  let r := measure R st length
  match r.2 with
  | .panic p => (r.1, .panic p)
  | .hang => (r.1, .hang)
  | .ret (.error e) => (r.1, .ret (.error e))
  | .ret (.ok length) =>
    if R.isReaderAt && decide (length ≥ 0) then                        -- :326-335
      (r.1, .ret (.ok (.readerAt (ReaderAtBody.init r.1 length))))
    else if R.isSeeker && decide (length ≥ 0) then                     -- :337-345
      (r.1, .ret (.ok (.seeker (SeekerBody.init r.1 length))))
    else (r.1, .ret (.ok (.buffered (BufSys.init r.1 length))))        -- :347-354

/-- `FromReaderAndLength` handed an interface value that may be nil (`assert.NotNil`, `/repo/body/body.go:292`). -/
def fromReaderAndLengthOf (R : Rdr σ) (st : Option σ) (length : Int) : Option σ × Res (Except Err (ReaderFam σ)) :=
  match st with
  | none => (none, .panic .badArg)
  | some st =>
    let r := fromReaderAndLength R st length
    (some r.1, r.2)

/-- What may be passed to `FromReader`: nil, a reader that is a `Body` already (its identity is all that matters), or not. -/
inductive AnyReader (β σ : Type) where
  | nil
  | body (b : β)
  | plain (st : σ)

/-- `FromReader` (`/repo/body/body.go:277-285`): the reader afterwards, and the Body. -/
def fromReader {β : Type} (R : Rdr σ) : AnyReader β σ → AnyReader β σ × Res (Except Err (β ⊕ ReaderFam σ))
  | .nil => (.nil, .panic .badArg)                                     -- :278, `assert.NotNil`
  | .body b => (.body b, .ret (.ok (.inl b)))
  | .plain st =>
    let r := fromReaderAndLength R st (-1)
    match r.2 with
    | .panic p => (.plain r.1, .panic p)
    | .hang => (.plain r.1, .hang)
    | .ret (.error e) => (.plain r.1, .ret (.error e))
    | .ret (.ok f) => (.plain r.1, .ret (.ok (.inr f)))

/-! ## Encoders

`json.Encoder`, `proto.Marshal` and `prototext.MarshalOptions.Marshal` are outside the repository; their output for
the value at hand is a parameter. -/

/-- Go's `copy(dst, src)`: the new content of `dst`. -/
def goCopy (dst src : List Byte) : List Byte := src.take dst.length ++ dst.drop src.length

/-- `fromJSONImpl` (`/repo/body/body.go:173-209`); `enc` is the outcome of `e.Encode(v)` with the given indent
setting.  The buffer pool is left out (`src` is only read before the buffer is put back). -/
def fromJSONImpl (enc : Bool → Except Err (List Byte)) (isPretty : Bool) : Res MemFam :=
  match enc isPretty with
  | .error e => .panic (.error e)
  | .ok src =>
    let dst : List Byte := []                                           -- :193, nil
    if isPretty then
      let dst := src.foldl (fun dst ch => if ch = 10 then dst ++ [13, 10] else dst ++ [ch]) []   -- :195-203
      .ret (fromBytes dst)
    else
      let dst := goCopy dst src                                         -- :205
      .ret (fromBytes dst)

/-- `FromJSON` (`/repo/body/body.go:158-160`). -/
def fromJSON (enc : Bool → Except Err (List Byte)) : Res MemFam := fromJSONImpl enc false

/-- `FromPrettyJSON` (`/repo/body/body.go:169-171`). -/
def fromPrettyJSON (enc : Bool → Except Err (List Byte)) : Res MemFam := fromJSONImpl enc true

/-- `FromProto` (`/repo/body/body.go:218-227`); `raw` is the outcome of marshalling, none if the message is nil (`assert.NotNil`, `:219`). -/
def fromProto (raw : Option (Except Err (List Byte))) : Res MemFam :=
  match raw with
  | none => .panic .badArg
  | some (.error e) => .panic (.error e)
  | some (.ok raw) => .ret (fromBytes raw)

/-- `prototext.MarshalOptions`; `others` stands for the fields that this repository does not mention, 0 for their zero values. -/
structure TextOpts where
  multiline : Bool := false
  indent : GoStr := []
  others : Nat := 0
deriving DecidableEq, Repr

/-- `FromProtoText` (`/repo/body/body.go:239-255`); `marshal` is the outcome of marshalling with the options at hand, none if the message is
nil (`assert.NotNil`, `:240`); `o` is none if the options are nil. -/
def fromProtoText (marshal : Option (TextOpts → Except Err (List Byte))) (o : Option TextOpts) : Res MemFam :=
  match marshal with
  | none => .panic .badArg
  | some marshal =>
    let o := match o with
      | none => { multiline := true, indent := lit "  " }
      | some o => o
    match marshal o with
    | .error e => .panic (.error e)
    | .ok raw => .ret (fromBytes raw)

end Verif
