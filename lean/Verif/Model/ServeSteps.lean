import Verif.Model.Serve

/-!
# `Response.Serve` as a goroutine among others

`serve` runs from its beginning to its end.  Here it is cut where it calls the Body, so that other goroutines may come in between:
`serveStep` does what happens up to and including the next call of the Body's methods (`/repo/response/response.go:77-105`, and
`io.Copy` of Go 1.17).  A call of a method of a Body is one step, because the Bodies' methods hold a mutex (`C44_linearizable`).  The
ResponseWriter belongs to the goroutine alone (`net/http` gives each request its own).  The header map of a Response is shared by
its copies (`/repo/response/response.go:57-67`); `Serve` only reads it.
-/

set_option autoImplicit false

namespace Verif
variable {β ω : Type}

/-- How far a goroutine is in `Response.Serve`. -/
inductive SPhase (ω : Type) where
  /-- not yet begun -/
  | start (w : ω)
  /-- about to call `body.WriteTo(w)` -/
  | writeTo (w : ω)
  /-- within `w.ReadFrom(body)` -/
  | readFrom (t : RF ω)
  /-- within `w.ReadFrom(body)`, within `io.Copy(io.Discard, body)`, after `n` bytes -/
  | discard (w : ω) (n : Int) (cont : Int → Option Err → RF ω)
  /-- within the loop of `io.Copy`, after `n` bytes -/
  | loop (w : ω) (n : Int)
  /-- about to call `body.Close()`; `err` is what `io.Copy` returned -/
  | close (w : ω) (err : Option Err)
  /-- returned, or panicked, or blocked for ever -/
  | done (w : ω) (o : Res (Option Err))

/-- `Serve` up to the copying of the Body (`/repo/response/response.go:78-97`): the Body is not touched. -/
def serveBegin (D : RW ω) (isWriterTo : Bool) (code : Int) (hdrs : List (GoStr × List GoStr)) (w : ω) : SPhase ω :=
  let p := if D.isPusher then pushAll D (hdrGet hdrs headerPush) w else (w, none)
  match p.2 with
  | some o => .done p.1 o
  | none =>
    match D.writeHeader (setAll D hdrs p.1) code with
    | (w, .panic p) => .done w (.panic p)
    | (w, .hang) => .done w .hang
    | (w, .ret ()) =>
      if isWriterTo then .writeTo w
      else if D.isReaderFrom then .readFrom (D.readFrom w)
      else .loop w 0

/-- What the copying has led to. -/
def afterCopy (w : ω) : WAns → SPhase ω
  | .ret (_, err) => .close w err
  | .panic p => .done w (.panic p)
  | .hang => .done w .hang

/-- After one `Read` of the loop of `io.Copy`: the `Write`, and whether the loop goes on (Go 1.17, io/io.go, `copyBuffer`). -/
def loopBody (D : RW ω) (w : ω) (n : Int) (d : List Byte) (er : Option Err) : SPhase ω :=
  let next (w : ω) (n : Int) : SPhase ω := match er with
    | some e => .close w (if e = .eof then none else some e)
    | none => .loop w n
  if d.length > 0 then
    if d.length > 32768 then .done w (.panic .bounds)
    else match D.write w d with
      | (w, .panic p) => .done w (.panic p)
      | (w, .hang) => .done w .hang
      | (w, .ret (nw, ew)) =>
        if nw < 0 ∨ d.length < nw then .close w (if ew = none then some .invalidWrite else ew)
        else match ew with
          | some e => .close w (some e)
          | none => if (d.length : Int) ≠ nw then .close w (some .shortWrite) else next w (n + nw)
  else next w n

/-- One step of a goroutine in `Serve`. -/
def serveStep (D : RW ω) (B : BodyOps β) (code : Int) (hdrs : List (GoStr × List GoStr)) : SPhase ω → β → SPhase ω × β
  | .start w, b => (serveBegin D B.isWriterTo code hdrs w, b)
  | .writeTo w, b => let r := runWT D.write (B.writeTo b) w; (afterCopy r.2.1 r.2.2, r.1)
  | .readFrom (.done w _ err), b => (.close w err, b)
  | .readFrom (.panic w p), b => (.done w (.panic p), b)
  | .readFrom (.hang w), b => (.done w .hang, b)
  | .readFrom (.read w k cont), b =>
    match B.read b k with
    | (b, .ret (d, err)) => (.readFrom (cont d err), b)
    | (b, .panic p) => (.done w (.panic p), b)
    | (b, .hang) => (.done w .hang, b)
  | .readFrom (.drain w cont), b =>
    if B.isWriterTo then
      match discardAll B 0 b with
      | (b, .ret (n, err)) => (.readFrom (cont n err), b)
      | (b, .panic p) => (.done w (.panic p), b)
      | (b, .hang) => (.done w .hang, b)
    else (.discard w 0 cont, b)
  | .discard w n cont, b =>
    match B.read b 8192 with
    | (b, .ret (d, none)) => (.discard w (n + d.length) cont, b)
    | (b, .ret (d, some e)) => (.readFrom (cont (n + d.length) (if e = .eof then none else some e)), b)
    | (b, .panic p) => (.done w (.panic p), b)
    | (b, .hang) => (.done w .hang, b)
  | .loop w n, b =>
    match B.read b 32768 with
    | (b, .panic p) => (.done w (.panic p), b)
    | (b, .hang) => (.done w .hang, b)
    | (b, .ret (d, er)) => (loopBody D w n d er, b)
  | .close w err, b =>
    match B.close b with
    | (b, .panic p) => (.done w (.panic p), b)
    | (b, .hang) => (.done w .hang, b)
    | (b, .ret err2) => (.done w (.ret (if err = none then err2 else err)), b)
  | .done w o, b => (.done w o, b)

/-- `k` steps of one goroutine that is alone. -/
def serveSteps (D : RW ω) (B : BodyOps β) (code : Int) (hdrs : List (GoStr × List GoStr)) : Nat → SPhase ω × β → SPhase ω × β
  | 0, x => x
  | k + 1, x => serveSteps D B code hdrs k (serveStep D B code hdrs x.1 x.2)

/-! ## Several goroutines -/

/-- One of the goroutines: its client, and which Body of the family it serves. -/
structure Job (ω : Type) where
  client : RW ω
  handle : Nat
  code : Int
  hdrs : List (GoStr × List GoStr)

/-- Goroutines that serve Bodies of one family. -/
structure Crowd (S ω : Type) where
  fam : S
  phases : List (SPhase ω)

/-- What happens next. -/
inductive CMove where
  /-- goroutine `i` does a step -/
  | serve (i : Nat)
  /-- someone else calls a method of some Body of the family -/
  | other (op : Op)

/-- One move. -/
def Crowd.step {S : Type} (step : S → Op → S × Out) (drains : Bool) (jobs : List (Job ω)) (x : Crowd S ω) : CMove → Crowd S ω
  | .serve i =>
    match jobs[i]?, x.phases[i]? with
    | some j, some p =>
      let r := serveStep j.client (BodyOps.ofFam step drains j.handle) j.code j.hdrs p x.fam
      { fam := r.2, phases := x.phases.set i r.1 }
    | _, _ => x
  | .other op => { x with fam := (step x.fam op).1 }

/-- A whole history. -/
def Crowd.run {S : Type} (step : S → Op → S × Out) (drains : Bool) (jobs : List (Job ω)) (x : Crowd S ω) (ms : List CMove) : Crowd S ω :=
  ms.foldl (Crowd.step step drains jobs) x

/-- How often goroutine `i` came to move. -/
def turns (i : Nat) (ms : List CMove) : Nat := (ms.filter fun m => match m with | .serve i' => i' = i | _ => false).length

end Verif
