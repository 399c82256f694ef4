import Verif.Spec.Splitting
import Verif.Spec.Media
import Verif.Spec.Decimal
import Verif.Spec.Json
import Verif.Spec.Text

/-!
# What a handler says to a Builder, and what it means for the client

Nothing here depends on the model of Builders: there is no memory, and header names are compared as clients compare them, without regard to letter case.
-/

set_option autoImplicit false

namespace Verif.Spec.Told
open Verif.Spec.Wire

/-- A call in a chain `NewBuilder().….Build()`. -/
inductive Say where
  | status (code : Int)
  | header (name value : GoStr) (add : Bool)
  | withoutHeader (name : GoStr)
  | contentType (s : GoStr)
  | contentLanguage (s : GoStr)
  | contentEncoding (s : GoStr)
  | etag (tag : GoStr) (strong : Bool)
  | digest (algo : GoStr) (sum : List Byte)
  /-- `WithBody(body.FromBytes(data))` -/
  | bytes (data : List Byte)
  /-- `WithBody(b)` with a Body that exists; `none`: nil -/
  | body (b : Option Nat)
  | prettyJSON (v : JVal)
  /-- what `proto.Marshal(msg)` returns; `none`: the message is nil -/
  | proto (r : Option (Except Err (List Byte)))
  /-- what `prototext.MarshalOptions.Marshal(msg)` returns; `none`: the message is nil -/
  | protoText (r : Option (Except Err (List Byte)))
  | error (e : Option Err)
  /-- `WithHeaders` with a map of the program; `none`: nil -/
  | headers (m : Option Nat)
  /-- `WithPageGenerator`; 0 is the default one, `none` nil -/
  | generator (g : Option Nat)
  | redirectPage (code : Int) (location : GoStr)
  | errorPage (code : Int) (e : Option Err)

/-- What is to be sent: a status, the values of each header (by its name in lower case), a body. -/
structure Plan where
  status : Int := 200
  fields : GoStr → List GoStr := fun _ => []
  body : Option (List Byte) := none
  /-- who makes pages -/
  gen : Nat := 0

/-- The header has these values. -/
def Plan.put (p : Plan) (name : GoStr) (vs : List GoStr) : Plan := { p with fields := fun k => if k = lower name then vs else p.fields k }

/-- The page for a redirect, given the location as it is written in HTML. -/
def redirectPage (e : GoStr) : GoStr := lit "<!DOCTYPE html>\r\n<p>Redirecting to <a href=\"" ++ e ++ lit "\">" ++ e ++ lit "</a>...</p>\r\n"

/-- A page: the values of its headers (by name in lower case), and its body unless it has none. -/
structure Page where
  fields : GoStr → List GoStr
  body : Option (List Byte)

/-- The pages that a PageGenerator makes; `none`: it panics. -/
structure Pages where
  redirect : Int → GoStr → Option Page
  error : Int → Err → Option Page

/-- What there is around a handler. -/
structure Around where
  /-- the text for a status -/
  text : Int → GoStr := fun _ => []
  /-- what the Bodies of the program are going to deliver -/
  bodies : Nat → Option (List Byte) := fun _ => none
  /-- the values that header maps of the program have for names in lower case -/
  maps : Nat → GoStr → List GoStr := fun _ _ => []
  /-- the PageGenerators of the program (other than number 0) -/
  gens : Nat → Pages := fun _ => ⟨fun _ _ => none, fun _ _ => none⟩

/-- What a call makes of the plan. -/
inductive Leads (A : Around) (p : Plan) : Say → Plan → Prop
  | status {code : Int} : 200 ≤ code → code ≤ 999 → Leads A p (.status code) { p with status := code }
  | set {name : GoStr} (value : GoStr) : name ≠ [] → Leads A p (.header name value false) (p.put name [value])
  | add {name : GoStr} (value : GoStr) : name ≠ [] → Leads A p (.header name value true) (p.put name (p.fields (lower name) ++ [value]))
  | without {name : GoStr} : name ≠ [] → Leads A p (.withoutHeader name) (p.put name [])
  | contentType {s v t : GoStr} {M : GoStr → GoStr → Prop} : Media.Means s t M → (∀ x, ¬ M [] x) → Media.Means v t M →
      Leads A p (.contentType s) (p.put (lit "Content-Type") [v])
  | contentLanguage {s v : GoStr} : Trimmed s v → Leads A p (.contentLanguage s) (p.put (lit "Content-Language") [v])
  | contentEncoding {s v : GoStr} : Trimmed s v → Leads A p (.contentEncoding s) (p.put (lit "Content-Encoding") [v])
  | etag (tag : GoStr) (strong : Bool) : Leads A p (.etag tag strong) (p.put (lit "ETag") [(if strong then [] else lit "W/") ++ lit "\"" ++ tag ++ lit "\""])
  | digest {algo e : GoStr} {sum : List Byte} : algo ≠ [] → sum ≠ [] → unbase64 e = some sum →
      Leads A p (.digest algo sum) (p.put (lit "Digest") (p.fields (lit "digest") ++ [algo ++ lit "=" ++ e]))
  | bytes (data : List Byte) : Leads A p (.bytes data) { p with body := some data }
  | prettyJSON {v : JVal} {j : Json.J} {raw : List Byte} : Json.Means v j → Json.depth v ≤ 10000 → Json.Says raw j →
      Leads A p (.prettyJSON v) { p.put (lit "Content-Type") [lit "application/json"] with body := some raw }
  | body {i : Nat} {C : List Byte} : A.bodies i = some C → Leads A p (.body (some i)) { p with body := some C }
  | proto (raw : List Byte) : Leads A p (.proto (some (.ok raw))) { p.put (lit "Content-Type") [lit "application/vnd.google.protobuf"] with body := some raw }
  | protoText (raw : List Byte) : Leads A p (.protoText (some (.ok raw))) { p.put (lit "Content-Type") [lit "text/plain; charset=utf-8"] with body := some raw }
  | error (e : Option Err) : Leads A p (.error e) p
  | headers (m : Nat) : Leads A p (.headers (some m)) { p with fields := A.maps m }
  | noHeaders : Leads A p (.headers none) { p with fields := fun _ => [] }
  | generator (g : Nat) : Leads A p (.generator (some g)) { p with gen := g }
  | redirectPage {code : Int} {location v e n : GoStr} : p.gen = 0 → 300 ≤ code → code ≤ 399 → Trimmed location v → (¬ ∃ l : List GoStr, (∀ c ∈ l, c ∈ spaces) ∧ location = l.flatten) → Unescapes e v →
      decimal n = some ((Told.redirectPage e).length : Int) →
      Leads A p (.redirectPage code location)
        { (((({} : Plan).put (lit "Location") [v]).put (lit "Content-Type") [lit "text/html; charset=utf-8"]).put (lit "Content-Length") [n]).put (lit "Cache-Control")
            [lit "max-age=86400, must-revalidate"] with status := code, body := some (Told.redirectPage e) }
  | errorPage {code : Int} {d n page : GoStr} (e : Err) : p.gen = 0 → 200 ≤ code → code ≤ 999 → decimal d = some code → page = d ++ lit " " ++ A.text code ++ lit "\r\n" →
      decimal n = some (page.length : Int) →
      Leads A p (.errorPage code (some e))
        { ((({} : Plan).put (lit "Content-Type") [lit "text/plain; charset=utf-8"]).put (lit "Content-Length") [n]).put (lit "Cache-Control") [lit "no-cache"] with
          status := code, body := some page }
  | redirectBy {code : Int} {location v : GoStr} {page : Page} : p.gen ≠ 0 → 300 ≤ code → code ≤ 399 → Trimmed location v →
      (¬ ∃ l : List GoStr, (∀ c ∈ l, c ∈ spaces) ∧ location = l.flatten) → (A.gens p.gen).redirect code v = some page →
      Leads A p (.redirectPage code location) { status := code, fields := page.fields, body := page.body, gen := p.gen }
  | errorBy {code : Int} {e : Err} {page : Page} : p.gen ≠ 0 → 200 ≤ code → code ≤ 999 → (A.gens p.gen).error code e = some page →
      Leads A p (.errorPage code (some e)) { status := code, fields := page.fields, body := page.body, gen := p.gen }

/-- What a chain of calls makes of the plan. -/
inductive LeadsAll (A : Around) : Plan → List Say → Plan → Prop
  | nil (p : Plan) : LeadsAll A p [] p
  | cons {p q r : Plan} {x : Say} {l : List Say} : Leads A p x q → LeadsAll A q l r → LeadsAll A p (x :: l) r

/-- The values under a name, in whatever spelling. -/
def values (fs : List (GoStr × GoStr)) (k : GoStr) : List GoStr := (fs.filter fun f => lower f.1 = lower k).map (·.2)

/-- Names of headers that say how the message is sent, and that of headers that are not sent. -/
def transport : List GoStr := [lit "connection", lit "transfer-encoding", lit "content-length", lit "push"]

/-- The message is as planned, with the body `C`. -/
structure Fulfils (m : Message) (isHEAD : Bool) (p : Plan) (C : List Byte) : Prop where
  status : (m.status : Int) = p.status
  body : m.body = if isHEAD = true ∨ p.status = 204 then [] else C
  fields : ∀ k, isName k = true → lower k ∉ transport → lower k ≠ lit "date" → lower k ≠ lit "content-type" →
    values m.fields k = (p.fields (lower k)).map cleaned
  date : p.fields (lit "date") ≠ [] → values m.fields (lit "date") = (p.fields (lit "date")).map cleaned
  contentType : values m.fields (lit "content-type") =
    (if p.fields (lit "content-type") = [] then [lit "application/octet-stream"] else p.fields (lit "content-type")).map cleaned
  pushes : values m.fields (lit "push") = []

end Verif.Spec.Told
