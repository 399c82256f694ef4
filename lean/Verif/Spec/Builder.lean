import Verif.Model.Builder

/-!
# What is expected of Builders and Responses

Headers are values here: there are no maps, slices or arrays that could be shared.  Only the types of calls and results, the
environment and the functions on strings (specified in `Spec/Text.lean`) are taken from the model.
-/

set_option autoImplicit false

namespace Verif.Spec

/-- Header values by name. -/
abbrev Hdrs := GoStr → Option (List GoStr)

/-- No headers. -/
def Hdrs.none : Hdrs := fun _ => .none

/-- Replace the values of one name. -/
def Hdrs.with (f : Hdrs) (k : GoStr) (v : Option (List GoStr)) : Hdrs := fun k' => if k' = k then v else f k'

/-- The headers listed. -/
def Hdrs.of (l : List (GoStr × List GoStr)) : Hdrs := l.foldl (fun f e => f.with e.1 (some e.2)) .none

/-- A Builder. -/
structure SBld where
  gen : Option Nat := .none
  code : Int := 0
  hdrs : Hdrs := .none
  body : Option Nat := .none
  err : Option Err := .none

/-- A Response. -/
structure SRsp where
  code : Int
  hdrs : Hdrs
  body : Option Nat
  err : Option Err

/-- The state. -/
structure SState (B : Type) where
  bodies : B
  blds : List SBld := []
  rsps : List SRsp := []

variable {B : Type}

namespace SBld

/-- The header has this one value. -/
def set (b : SBld) (name value : GoStr) : SBld := { b with hdrs := b.hdrs.with (canon name) (some [value]) }

/-- The header has this value in addition. -/
def add (b : SBld) (name value : GoStr) : SBld :=
  { b with hdrs := b.hdrs.with (canon name) (some ((b.hdrs (canon name)).getD [] ++ [value])) }

/-- A made Body and its Content-Type. -/
def made (b : SBld) (m : Res Nat) (ctype : GoStr) : SBld × BOut :=
  match m with
  | .ret i => ({ b with body := some i }.set (lit "Content-Type") ctype, .unit)
  | .panic p => (b, .panic p)
  | .hang => (b, .hang)

/-- A generated page. -/
def page (b : SBld) (code : Int) (err : Option Err) : B × Res (GenHdrs × Option Nat) → B × SBld × BOut
  | (X, .panic p) => (X, b, .panic p)
  | (X, .hang) => (X, b, .hang)
  | (X, .ret (.nil, body)) => (X, { b with code, hdrs := .none, body, err }, .unit)
  | (X, .ret (.fresh v, body)) => (X, { b with code, hdrs := .of v, body, err }, .unit)
  | (X, .ret (.shared _, body)) => (X, { b with code, body, err }, .unit)     -- (not used: excluded by hypothesis)

/-- One call on a Builder.  `arg` is what the map argument of `WithHeaders` contains at the time of the call. -/
def step (E : BEnv B) (X : B) (b : SBld) (arg : Hdrs) : LOp → B × SBld × BOut
  | .pageGenerator => (X, b, .gen (b.gen.getD 0))
  | .status => (X, b, .int b.code)
  | .headers => (X, b, .hdrs b.hdrs)
  | .body => (X, b, .body b.body)
  | .err => (X, b, .err b.err)
  | .withPageGenerator (some g) => (X, { b with gen := some g }, .unit)
  | .withPageGenerator .none => (X, b, .panic .badArg)
  | .withStatus code => if 200 ≤ code ∧ code ≤ 999 then (X, { b with code }, .unit) else (X, b, .panic .badArg)
  | .withHeaders _ => (X, { b with hdrs := arg }, .unit)
  | .withHeader name value app =>
    if name = [] then (X, b, .panic .badArg) else (X, if app then b.add name value else b.set name value, .unit)
  | .withoutHeader name =>
    if name = [] then (X, b, .panic .badArg) else (X, { b with hdrs := b.hdrs.with (canon name) .none }, .unit)
  | .withContentType str =>
    match (E.mime str).getD [] with
    | [] => (X, b, .panic (.error (.ext 0)))
    | str => (X, b.set (lit "Content-Type") str, .unit)
  | .withContentLanguage str => (X, b.set (lit "Content-Language") (trimSpace str), .unit)
  | .withContentEncoding str => (X, b.set (lit "Content-Encoding") (trimSpace str), .unit)
  | .withETag tag strong => (X, b.set (lit "Etag") ((if strong then lit "\"" else lit "W/\"") ++ tag ++ lit "\""), .unit)
  | .withDigest algo sum =>
    if algo = [] ∨ sum = [] then (X, b, .panic .badArg) else (X, b.add (lit "Digest") (algo ++ lit "=" ++ base64 sum), .unit)
  | .withBody (some i) => (X, { b with body := some i }, .unit)
  | .withBody .none => (X, b, .panic .badArg)
  | .withJSON m => (X, b.made m (lit "application/json"))
  | .withPrettyJSON m => (X, b.made m (lit "application/json"))
  | .withProto m => (X, b.made m (lit "application/vnd.google.protobuf"))
  | .withProtoText m => (X, b.made m (lit "text/plain; charset=utf-8"))
  | .withError err => (X, { b with err }, .unit)
  | .redirectPage code location =>
    if 300 ≤ code ∧ code ≤ 399 ∧ trimSpace location ≠ [] then
      b.page code .none ((E.gens (b.gen.getD 0)).redirect X code (trimSpace location))
    else (X, b, .panic .badArg)
  | .errorPage _ .none => (X, b, .panic .badArg)
  | .errorPage code (some e) =>
    if 200 ≤ code ∧ code ≤ 999 then b.page code (some e) ((E.gens (b.gen.getD 0)).error X code e)
    else (X, b, .panic .badArg)
  | .put k vals => (X, { b with hdrs := b.hdrs.with k (some vals) }, .unit)
  | .del k => (X, { b with hdrs := b.hdrs.with k .none }, .unit)
  | .elem k i v =>
    if i < ((b.hdrs k).getD []).length then (X, { b with hdrs := b.hdrs.with k (some (((b.hdrs k).getD []).set i v)) }, .unit)
    else (X, b, .panic .bounds)

end SBld

/-- Headers that `Build` adds: `n` is the length of the Body, negative if unknown. -/
def Hdrs.filled (f : Hdrs) (n : Int) : Hdrs := fun k =>
  match f k with
  | some v => some v
  | .none =>
    if k = lit "Content-Type" then some [lit "application/octet-stream"]
    else if k = lit "Content-Length" ∧ 0 ≤ n then some [itoa n]
    else .none

/-- The Response `Build` makes of a Builder with Body `i`. -/
def SBld.response (S : BodyStore B) (X : B) (b : SBld) (i : Nat) : SRsp :=
  { code := if b.code = 0 then 200 else b.code, hdrs := b.hdrs.filled (S.remaining X i), body := some i, err := b.err }

/-- What `copyBody` yields. -/
def copied (S : BodyStore B) (X : B) : Option Nat → B × Res (Except Err (Option Nat))
  | .none => (X, .ret (.ok .none))
  | some i => ((S.copy X i).1, match (S.copy X i).2 with
    | .ret (.ok j) => .ret (.ok (some j))
    | .ret (.error e) => .ret (.error e)
    | .panic p => .panic p
    | .hang => .hang)

/-- One event. -/
def SState.step (E : BEnv B) (s : SState B) (arg : Hdrs) : BOp → SState B × BOut
  | .new => ({ s with blds := s.blds ++ [{}] }, .made s.blds.length)
  | .on h op => match s.blds[h]? with
    | .none => (s, .panic .nilDeref)
    | some b => ({ s with bodies := (b.step E s.bodies arg op).1, blds := s.blds.set h (b.step E s.bodies arg op).2.1 },
        (b.step E s.bodies arg op).2.2)
  | .copy h => match s.blds[h]? with
    | .none => (s, .panic .nilDeref)
    | some b => match copied E.store s.bodies b.body with
      | (X, .ret (.ok body)) => ({ s with bodies := X, blds := s.blds ++ [{ b with body }] }, .made s.blds.length)
      | (X, .ret (.error e)) => ({ s with bodies := X }, .failed e)
      | (X, .panic p) => ({ s with bodies := X }, .panic p)
      | (X, .hang) => ({ s with bodies := X }, .hang)
  | .build h => match s.blds[h]? with
    | .none => (s, .panic .nilDeref)
    | some b => match b.body with
      | .none => (s, .panic .badArg)
      | some i => ({ s with blds := s.blds.set h { gen := b.gen }, rsps := s.rsps ++ [b.response E.store s.bodies i] },
          .made s.rsps.length)
  | .respStatus j => (s, match s.rsps[j]? with | .none => .panic .nilDeref | some r => .int r.code)
  | .respHeaders j => (s, match s.rsps[j]? with | .none => .panic .nilDeref | some r => .hdrs r.hdrs)
  | .respBody j => (s, match s.rsps[j]? with | .none => .panic .nilDeref | some r => .body r.body)
  | .respErr j => (s, match s.rsps[j]? with | .none => .panic .nilDeref | some r => .err r.err)
  | .respString j => (s, match s.rsps[j]? with
    | .none => .panic .nilDeref
    | some r => match r.body with
      | .none => .panic .nilDeref
      | some i => .str (respString r.code (E.store.remaining s.bodies i)))
  | .respCopy j => match s.rsps[j]? with
    | .none => (s, .panic .nilDeref)
    | some r => match copied E.store s.bodies r.body with
      | (X, .ret (.ok body)) => ({ s with bodies := X, rsps := s.rsps ++ [{ r with body }] }, .made s.rsps.length)
      | (X, .ret (.error e)) => ({ s with bodies := X }, .failed e)
      | (X, .panic p) => ({ s with bodies := X }, .panic p)
      | (X, .hang) => ({ s with bodies := X }, .hang)
  | .ext _ => (s, .unit)
  | .poke _ _ _ => (s, .unit)

/-- An event as it is observed: what the map argument contained, the event, the result. -/
abbrev Event := Hdrs × BOp × BOut

/-- The results are as expected. -/
def Explains (E : BEnv B) : SState B → List Event → Prop
  | _, [] => True
  | s, (arg, op, out) :: l => (s.step E arg op).2 = out ∧ Explains E (s.step E arg op).1 l

/-- The state after these events. -/
def after (E : BEnv B) : SState B → List Event → SState B
  | s, [] => s
  | s, (arg, op, _) :: l => after E (s.step E arg op).1 l

/-- The status last set on each Builder since it was made or last used to build, as seen in the events. -/
def noteStatus (l : List (Option Int)) : Event → List (Option Int)
  | (_, .new, _) => l ++ [.none]
  | (_, .copy h, .made _) => l ++ [l[h]?.join]
  | (_, .build h, .made _) => l.set h .none
  | (_, .on h (.withStatus c), .unit) => l.set h (some c)
  | (_, .on h (.redirectPage c _), .unit) => l.set h (some c)
  | (_, .on h (.errorPage c _), .unit) => l.set h (some c)
  | _ => l
@[inherit_doc noteStatus] def lastStatus (tr : List Event) : List (Option Int) := tr.foldl noteStatus []

/-- The value of an ETag header (RFC 7232). -/
def etag (tag : GoStr) (strong : Bool) : GoStr := (if strong then [] else lit "W/") ++ lit "\"" ++ tag ++ lit "\""

end Verif.Spec
