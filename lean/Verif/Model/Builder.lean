import Verif.Model.Heap

/-!
# Model of `/repo/response/builder.go`, `/repo/response/pagegen.go` and of the accessors of `/repo/response/response.go`

Bodies live in a store about which nothing is assumed.  Parameters: the store, the PageGenerators, `mime.ParseMediaType` and
`mime.FormatMediaType`, `http.StatusText`, and how much spare capacity `append` allocates.
-/

set_option autoImplicit false

namespace Verif

/-- Bodies are numbered.  `copy` is `Body.Copy`, `fromBytes` is `body.FromBytes`. -/
structure BodyStore (B : Type) where
  remaining : B → Nat → Int
  copy : B → Nat → B × Res (Except Err Nat)
  fromBytes : B → List Byte → B × Nat

/-- The header map a PageGenerator returns. -/
inductive GenHdrs where
  | nil
  /-- made for this call, with these contents (every slice in an array of its own) -/
  | fresh (v : List (GoStr × List GoStr))
  /-- some map that existed before -/
  | shared (r : Ref)

/-- `PageGenerator` (`/repo/response/pagegen.go:11-14`). -/
structure Gen (B : Type) where
  redirect : B → Int → GoStr → B × Res (GenHdrs × Option Nat)
  error : B → Int → Err → B × Res (GenHdrs × Option Nat)

/-- The surroundings of the Builders. -/
structure BEnv (B : Type) where
  store : BodyStore B
  /-- the PageGenerators; number 0 is the value of `DefaultPageGenerator` -/
  gens : Nat → Gen B
  /-- `mime.ParseMediaType` followed by `mime.FormatMediaType`: `none`: cannot be parsed; `[]`: cannot be formatted -/
  mime : GoStr → Option GoStr
  spare : Nat → Nat

variable {B : Type}

/-! ## The default PageGenerator -/

/-- `h.Set(name, value)` on a map that nobody else knows. -/
def vset (v : List (GoStr × List GoStr)) (name value : GoStr) : List (GoStr × List GoStr) :=
  if v.any (fun e => e.1 = canon name) then v.map (fun e => if e.1 = canon name then (e.1, [value]) else e)
  else v ++ [(canon name, [value])]

/-- The text of the redirect page (`/repo/response/pagegen.go:19-22`). -/
def redirectText (location : GoStr) : GoStr :=
  lit "<!DOCTYPE html>" ++ lit "\r\n" ++ lit "<p>Redirecting to <a href=\"" ++ escapeHTML location ++ lit "\">" ++
    escapeHTML location ++ lit "</a>...</p>" ++ lit "\r\n"

/-- The text of the error page (`/repo/response/pagegen.go:35-37`). -/
def errorText (statusText : Int → GoStr) (code : Int) : GoStr :=
  itoa code ++ lit " " ++ statusText code ++ lit "\r\n"

/-- `defaultPageGenerator` (`/repo/response/pagegen.go:16-47`). -/
def defaultGen (S : BodyStore B) (statusText : Int → GoStr) : Gen B where
  redirect X _ location :=
    let raw := redirectText location
    let h := vset [] (lit "Location") location                                      -- :26
    let h := vset h (lit "Content-Type") (lit "text/html; charset=utf-8")           -- :27
    let h := vset h (lit "Content-Length") (itoa raw.length)                        -- :28
    let h := vset h (lit "Cache-Control") (lit "max-age=86400, must-revalidate")    -- :29
    let b := S.fromBytes X raw
    (b.1, .ret (.fresh h, some b.2))
  error X code _ :=
    let raw := errorText statusText code
    let h := vset [] (lit "Content-Type") (lit "text/plain; charset=utf-8")         -- :41
    let h := vset h (lit "Content-Length") (itoa raw.length)                        -- :42
    let h := vset h (lit "Cache-Control") (lit "no-cache")                          -- :43
    let b := S.fromBytes X raw
    (b.1, .ret (.fresh h, some b.2))

/-! ## The Builder -/

/-- `Builder` (`/repo/response/builder.go:22-28`). -/
structure Bld where
  gen : Option Nat := none
  code : Int := 0
  hdrs : Option Ref := none
  body : Option Nat := none
  err : Option Err := none
deriving DecidableEq, Repr

/-- `Response` (`/repo/response/response.go:14-20`). -/
structure Rsp where
  code : Int
  hdrs : Option Ref
  body : Option Nat
  err : Option Err
deriving DecidableEq, Repr

/-- What the caller observes.  A header map is observed by looking up names. -/
inductive BOut where
  | unit
  | int (n : Int)
  | hdrs (f : GoStr → Option (List GoStr))
  | body (b : Option Nat)
  | err (e : Option Err)
  | gen (g : Nat)
  /-- a new Builder or Response -/
  | made (i : Nat)
  /-- the call returned an error -/
  | failed (e : Err)
  | str (s : GoStr)
  | panic (p : Panic)
  | hang

/-- Calls on one Builder. -/
inductive LOp where
  | pageGenerator
  | status
  | headers
  | body
  | err
  | withPageGenerator (g : Option Nat)
  | withStatus (code : Int)
  | withHeaders (m : Option Ref)
  | withHeader (name value : GoStr) (appendToExisting : Bool)
  | withoutHeader (name : GoStr)
  | withContentType (str : GoStr)
  | withContentLanguage (str : GoStr)
  | withContentEncoding (str : GoStr)
  | withETag (tag : GoStr) (isStrong : Bool)
  | withDigest (algo : GoStr) (sum : List Byte)
  | withBody (b : Option Nat)
  /-- `made`: how `body.FromJSON(v)` ended, and so on -/
  | withJSON (made : Res Nat)
  | withPrettyJSON (made : Res Nat)
  | withProto (made : Res Nat)
  | withProtoText (made : Res Nat)
  | withError (e : Option Err)
  | redirectPage (code : Int) (location : GoStr)
  | errorPage (code : Int) (e : Option Err)
  /-- the caller assigns to the map: `builder.Headers()[k] = []string{vals…}` -/
  | put (k : GoStr) (vals : List GoStr)
  /-- `delete(builder.Headers(), k)` -/
  | del (k : GoStr)
  /-- `builder.Headers()[k][i] = v` -/
  | elem (k : GoStr) (i : Nat) (v : GoStr)

namespace Bld

/-- `Headers` (`/repo/response/builder.go:48-53`). -/
def headers (H : Heap) (b : Bld) : Heap × Bld × Ref :=
  match b.hdrs with
  | none => let r := H.newMap; (r.1, { b with hdrs := some r.2 }, r.2)
  | some r => (H, b, r)

/-- `hdrs := builder.Headers(); hdrs.Set(name, value)`. -/
def set (H : Heap) (b : Bld) (name value : GoStr) : Heap × Bld :=
  let x := b.headers H
  (x.1.hset x.2.2 name value, x.2.1)

/-- `hdrs := builder.Headers(); hdrs.Add(name, value)`. -/
def add (spare : Nat → Nat) (H : Heap) (b : Bld) (name value : GoStr) : Heap × Bld :=
  let x := b.headers H
  (x.1.hadd spare x.2.2 name value, x.2.1)

/-- A Body that was made by one of the `body.From…` functions, and its Content-Type (`/repo/response/builder.go:191-232`). -/
def made (H : Heap) (b : Bld) (m : Res Nat) (ctype : GoStr) : Heap × Bld × BOut :=
  match m with
  | .panic p => (H, b, .panic p)
  | .hang => (H, b, .hang)
  | .ret i => let x := set H { b with body := some i } (lit "Content-Type") ctype; (x.1, x.2, .unit)

/-- What the Builder does with the result of a PageGenerator (`/repo/response/builder.go:252-258, 268-274`). -/
def page (H : Heap) (b : Bld) (code : Int) (err : Option Err) (h : GenHdrs) (body : Option Nat) : Heap × Bld :=
  match h with
  | .nil => (H, { b with code := code, hdrs := none, body := body, err := err })
  | .fresh v => let r := H.alloc v; (r.1, { b with code := code, hdrs := some r.2, body := body, err := err })
  | .shared r => (H, { b with code := code, hdrs := some r, body := body, err := err })

/-- One call on a Builder.  A call that panics leaves everything as it was, except what the PageGenerator did. -/
def step (E : BEnv B) (H : Heap) (X : B) (b : Bld) : LOp → Heap × B × Bld × BOut
  | .pageGenerator => (H, X, b, .gen (b.gen.getD 0))                                           -- :32-37
  | .status => (H, X, b, .int b.code)                                                          -- :40-42
  | .headers => let x := b.headers H; (x.1, X, x.2.1, .hdrs (x.1.lookup x.2.1.hdrs))           -- :48-53
  | .body => (H, X, b, .body b.body)                                                           -- :60-62
  | .err => (H, X, b, .err b.err)                                                              -- :65-67
  | .withPageGenerator g =>                                                                    -- :74-78
    if g = none then (H, X, b, .panic .badArg) else (H, X, { b with gen := g }, .unit)
  | .withStatus code =>                                                                        -- :84-89
    if ¬ code ≥ 200 then (H, X, b, .panic .badArg)
    else if ¬ code ≤ 999 then (H, X, b, .panic .badArg)
    else (H, X, { b with code := code }, .unit)
  | .withHeaders m => let r := H.copyHeaders m; (r.1, X, { b with hdrs := r.2 }, .unit)        -- :96-99
  | .withHeader name value app =>                                                              -- :102-111
    if name = [] then (H, X, b, .panic .badArg)
    else
      let x := if app then add E.spare H b name value else set H b name value
      (x.1, X, x.2, .unit)
  | .withoutHeader name =>                                                                     -- :114-119
    if name = [] then (H, X, b, .panic .badArg)
    else
      let x := b.headers H
      (x.1.hdel x.2.2 name, X, x.2.1, .unit)
  | .withContentType str =>                                                                    -- :122-136
    match E.mime str with
    | none => (H, X, b, .panic (.error (.ext 0)))
    | some [] => (H, X, b, .panic (.error (.ext 0)))
    | some str => let x := set H b (lit "Content-Type") str; (x.1, X, x.2, .unit)
  | .withContentLanguage str =>                                                                -- :139-144
    let x := set H b (lit "Content-Language") (trimSpace str); (x.1, X, x.2, .unit)
  | .withContentEncoding str =>                                                                -- :147-152
    let x := set H b (lit "Content-Encoding") (trimSpace str); (x.1, X, x.2, .unit)
  | .withETag tag isStrong =>                                                                  -- :155-164
    let str := (if !isStrong then lit "W/" else []) ++ lit "\"" ++ tag ++ lit "\""
    let x := set H b (lit "Etag") str; (x.1, X, x.2, .unit)
  | .withDigest algo sum =>                                                                    -- :167-174
    if algo = [] then (H, X, b, .panic .badArg)
    else if sum = [] then (H, X, b, .panic .badArg)
    else
      let x := add E.spare H b (lit "Digest") (algo ++ lit "=" ++ base64 sum)
      (x.1, X, x.2, .unit)
  | .withBody i =>                                                                             -- :180-184
    if i = none then (H, X, b, .panic .badArg) else (H, X, { b with body := i }, .unit)
  | .withJSON m => let x := made H b m (lit "application/json"); (x.1, X, x.2)                 -- :191-196
  | .withPrettyJSON m => let x := made H b m (lit "application/json"); (x.1, X, x.2)           -- :203-208
  | .withProto m => let x := made H b m (lit "application/vnd.google.protobuf"); (x.1, X, x.2) -- :215-220
  | .withProtoText m => let x := made H b m (lit "text/plain; charset=utf-8"); (x.1, X, x.2)   -- :227-232
  | .withError e => (H, X, { b with err := e }, .unit)                                         -- :238-241
  | .redirectPage code location =>                                                             -- :244-259
    let location := trimSpace location
    if ¬ code ≥ 300 then (H, X, b, .panic .badArg)
    else if ¬ code ≤ 399 then (H, X, b, .panic .badArg)
    else if location = [] then (H, X, b, .panic .badArg)
    else match (E.gens (b.gen.getD 0)).redirect X code location with
      | (X, .panic p) => (H, X, b, .panic p)
      | (X, .hang) => (H, X, b, .hang)
      | (X, .ret (h, body)) => let x := page H b code none h body; (x.1, X, x.2, .unit)
  | .errorPage code e =>                                                                       -- :262-275
    if ¬ code ≥ 200 then (H, X, b, .panic .badArg)
    else if ¬ code ≤ 999 then (H, X, b, .panic .badArg)
    else match e with
      | none => (H, X, b, .panic .badArg)
      | some e => match (E.gens (b.gen.getD 0)).error X code e with
        | (X, .panic p) => (H, X, b, .panic p)
        | (X, .hang) => (H, X, b, .hang)
        | (X, .ret (h, body)) => let x := page H b code (some e) h body; (x.1, X, x.2, .unit)
  | .put k vals =>
    let x := b.headers H
    let a := x.1.newArr vals
    (a.1.put x.2.2 k { arr := a.2, len := vals.length, cap := vals.length }, X, x.2.1, .unit)
  | .del k => let x := b.headers H; (x.1.del x.2.2 k, X, x.2.1, .unit)
  | .elem k i v =>
    let x := b.headers H
    match x.1.get (some x.2.2) k with
    | none => (x.1, X, x.2.1, .panic .bounds)
    | some s =>
      if i < s.len then (x.1.setArr s.arr ((x.1.arr s.arr).set (s.off + i) v), X, x.2.1, .unit)
      else (x.1, X, x.2.1, .panic .bounds)

/-- `if _, found := hdrs[k]; !found { … hdrs[k] = []string{v} }` (`/repo/response/builder.go:333-337, 342-346`). -/
def _root_.Verif.Heap.fill (H : Heap) (r : Ref) (k v : GoStr) : Heap :=
  if (H.get (some r) k).isNone then
    let a := H.newArr [v]
    a.1.put r k { arr := a.2, len := 1, cap := 1 }
  else H

/-- `Build` (`/repo/response/builder.go:311-356`); `none`: it panics, nothing has changed. -/
def build (S : BodyStore B) (H : Heap) (X : B) (b : Bld) : Option (Heap × Bld × Rsp) :=
  match b.body with
  | none => none                                                                               -- :312
  | some i =>
    let code := if b.code = 0 then 200 else b.code                                             -- :324-326
    let x := b.headers H                                              -- :328-330 (the statements are those of `Headers`)
    let H := x.1
    let r := x.2.2
    let H := H.fill r (canon (lit "Content-Type")) (lit "application/octet-stream")             -- :332-337
    let n := S.remaining X i                                                                   -- :339
    let H := if n ≥ 0 then H.fill r (canon (lit "Content-Length")) (itoa n) else H             -- :340-347
    some (H, { gen := b.gen }, { code := code, hdrs := some r, body := some i, err := b.err }) -- :319-322, 349-355

end Bld

/-- `copyBody` (`/repo/response/util.go:36-42`). -/
def copyBody (S : BodyStore B) (X : B) : Option Nat → B × Res (Except Err (Option Nat))
  | none => (X, .ret (.ok none))
  | some i => match S.copy X i with
    | (X, .ret (.ok j)) => (X, .ret (.ok (some j)))
    | (X, .ret (.error e)) => (X, .ret (.error e))
    | (X, .panic p) => (X, .panic p)
    | (X, .hang) => (X, .hang)

/-! ## Any number of Builders and Responses -/

/-- All Builders and Responses. -/
structure BState (B : Type) where
  heap : Heap := {}
  bodies : B
  blds : List Bld := []
  rsps : List Rsp := []

/-- What other code does to maps and arrays of its own. -/
inductive Mut where
  | newArr (a : List GoStr)
  | newMap
  /-- `m[k] = s` -/
  | put (m : Nat) (k : GoStr) (s : Slice)
  /-- `delete(m, k)` -/
  | del (m : Nat) (k : GoStr)
  /-- `a[j] = v` -/
  | elem (a : Nat) (j : Nat) (v : GoStr)

@[inherit_doc Mut] def Heap.mutate (H : Heap) : Mut → Heap
  | .newArr a => { H with extArrs := H.extArrs ++ [a] }
  | .newMap => { H with extMaps := H.extMaps ++ [[]] }
  | .put m k s =>
    -- (a slice never extends beyond its array)
    if s.len ≤ s.cap ∧ s.off + s.cap ≤ (H.arr s.arr).length then H.put (.ext m) k s else H
  | .del m k => H.del (.ext m) k
  | .elem a j v => H.setArr (.ext a) ((H.arr (.ext a)).set j v)

/-- One event. -/
inductive BOp where
  | new
  | on (h : Nat) (op : LOp)
  | copy (h : Nat)
  | build (h : Nat)
  | respStatus (j : Nat)
  | respHeaders (j : Nat)
  | respBody (j : Nat)
  | respErr (j : Nat)
  | respString (j : Nat)
  | respCopy (j : Nat)
  /-- other code changes its own maps and arrays -/
  | ext (m : Mut)
  /-- other code assigns to a map of a Builder or Response, through a reference it kept (a forbidden or doubtful act) -/
  | poke (r : Ref) (k : GoStr) (vals : List GoStr)

/-- `Response.String` (`/repo/response/response.go:53-58`) for a Body with these bytes remaining. -/
def respString (code n : Int) : GoStr :=
  if n ≥ 0 then lit "[HTTP " ++ fmt03d code ++ lit " - " ++ itoa n ++ lit " bytes]"
  else lit "[HTTP " ++ fmt03d code ++ lit " - unknown length]"

/-- One event. -/
def BState.step (E : BEnv B) (s : BState B) : BOp → BState B × BOut
  | .new => ({ s with blds := s.blds ++ [{}] }, .made s.blds.length)                           -- builder.go:18-20
  | .on h op =>
    match s.blds[h]? with
    | none => (s, .panic .nilDeref)
    | some b =>
      let r := b.step E s.heap s.bodies op
      ({ s with heap := r.1, bodies := r.2.1, blds := s.blds.set h r.2.2.1 }, r.2.2.2)
  | .copy h =>                                                                                 -- builder.go:278-294
    match s.blds[h]? with
    | none => (s, .panic .nilDeref)
    | some b =>
      match copyBody E.store s.bodies b.body with
      | (X, .panic p) => ({ s with bodies := X }, .panic p)
      | (X, .hang) => ({ s with bodies := X }, .hang)
      | (X, .ret (.error e)) => ({ s with bodies := X }, .failed e)
      | (X, .ret (.ok body2)) =>
        let r := s.heap.copyHeaders b.hdrs
        ({ s with heap := r.1, bodies := X, blds := s.blds ++ [{ b with hdrs := r.2, body := body2 }] }, .made s.blds.length)
  | .build h =>
    match s.blds[h]? with
    | none => (s, .panic .nilDeref)
    | some b =>
      match b.build E.store s.heap s.bodies with
      | none => (s, .panic .badArg)
      | some (H, b, r) => ({ s with heap := H, blds := s.blds.set h b, rsps := s.rsps ++ [r] }, .made s.rsps.length)
  | .respStatus j => match s.rsps[j]? with                                                     -- response.go:26-28
    | none => (s, .panic .nilDeref)
    | some r => (s, .int r.code)
  | .respHeaders j => match s.rsps[j]? with                                                    -- response.go:34-36
    | none => (s, .panic .nilDeref)
    | some r => (s, .hdrs (s.heap.lookup r.hdrs))
  | .respBody j => match s.rsps[j]? with                                                       -- response.go:43-45
    | none => (s, .panic .nilDeref)
    | some r => (s, .body r.body)
  | .respErr j => match s.rsps[j]? with                                                        -- response.go:48-50
    | none => (s, .panic .nilDeref)
    | some r => (s, .err r.err)
  | .respString j => match s.rsps[j]? with                                                     -- response.go:53-58
    | none => (s, .panic .nilDeref)
    | some r => match r.body with
      | none => (s, .panic .nilDeref)
      | some i => (s, .str (respString r.code (E.store.remaining s.bodies i)))
  | .respCopy j => match s.rsps[j]? with                                                       -- response.go:61-74
    | none => (s, .panic .nilDeref)
    | some r => match copyBody E.store s.bodies r.body with
      | (X, .panic p) => ({ s with bodies := X }, .panic p)
      | (X, .hang) => ({ s with bodies := X }, .hang)
      | (X, .ret (.error e)) => ({ s with bodies := X }, .failed e)
      | (X, .ret (.ok body2)) =>
        ({ s with bodies := X, rsps := s.rsps ++ [{ r with body := body2 }] }, .made s.rsps.length)
  | .ext m => ({ s with heap := s.heap.mutate m }, .unit)
  | .poke r k vals =>
    let a := s.heap.newArr vals
    ({ s with heap := a.1.put r k { arr := a.2, len := vals.length, cap := vals.length } }, .unit)

end Verif
