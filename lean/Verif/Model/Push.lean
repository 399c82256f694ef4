import Verif.Model.NetHttp

/-!
# `Push` of the ResponseWriter of `net/http` over HTTP/2

Modelled from knowledge of Go 1.17 (`net/http/h2_bundle.go`, `http2responseWriter.Push` and `http2serverConn.startPush`; `net/url/url.go`, `Parse`).
A target is first checked by the goroutine of the handler.  What the goroutine of the connection answers then — nil, `http.ErrNotSupported` if the
client wants no pushes, `http2ErrPushLimitReached`, an error if the stream or the connection is closed — depends on the client and on other
streams: it is any function (`answer`) of how many targets of this request it was asked about before.  Which authorities `url.Parse` accepts, and which
host it finds in them, is a parameter, too.  All else is as in `netRW`.
-/

set_option autoImplicit false

namespace Verif

/-- `http2ErrRecursivePush` -/
def errRecursivePush : Err := .ext 5
/-- what `url.Parse` returns -/
def errParse : Err := .ext 6
/-- `fmt.Errorf("target must be an absolute URL or an absolute path: %q", target)` -/
def errNotAbsolute : Err := .ext 7
/-- `fmt.Errorf("cannot push URL with scheme %q from request with scheme %q", u.Scheme, wantScheme)` -/
def errPushScheme : Err := .ext 8
/-- `errors.New("URL must have a host")` -/
def errNoHost : Err := .ext 9

namespace Url

/-- `a` to `z`, `A` to `Z` -/
def letter (c : Byte) : Bool := (97 ≤ c && c ≤ 122) || (65 ≤ c && c ≤ 90)

/-- the other characters of a scheme -/
def schemeRest (c : Byte) : Bool := (48 ≤ c && c ≤ 57) || c = 43 || c = 45 || c = 46

/-- `getScheme`, having passed the characters `acc` (reversed) of `raw`: the scheme and the rest. -/
def getScheme (raw : GoStr) : GoStr → GoStr → Option (GoStr × GoStr)
  | _, [] => some ([], raw)
  | acc, c :: s =>
    if letter c then getScheme raw (c :: acc) s
    else if schemeRest c then
      if acc = [] then some ([], raw) else getScheme raw (c :: acc) s
    else if c = 58 then                                              -- ':'
      if acc = [] then none else some (acc.reverse, s)
    else some ([], raw)

/-- `strings.ToLower` of a scheme -/
def lower (s : GoStr) : GoStr := s.map fun c => if 65 ≤ c ∧ c ≤ 90 then c + 32 else c

/-- `ishex` -/
def isHex (c : Byte) : Bool := (48 ≤ c && c ≤ 57) || (97 ≤ c && c ≤ 102) || (65 ≤ c && c ≤ 70)

/-- Does `unescape` of a path or a fragment succeed? -/
def unescapes : GoStr → Bool
  | [] => true
  | c :: s =>
    if c = 37 then                                                   -- '%'
      match s with
      | a :: b :: s => isHex a && isHex b && unescapes s
      | _ => false
    else unescapes s

/-- `stringContainsCTLByte` -/
def hasCTL (s : GoStr) : Bool := s.any fun c => c < 32 || c = 127

/-- `split(s, c, true)`: what is before the first `c`, and what is after it. -/
def split (c : Byte) (s : GoStr) : GoStr × GoStr := (s.takeWhile (· ≠ c), (s.dropWhile (· ≠ c)).drop 1)

/-- `parse(rawURL, false)`: the scheme and the host. -/
def parse (authority : GoStr → Option GoStr) (raw : GoStr) : Option (GoStr × GoStr) :=
  if hasCTL raw then none
  else if raw = lit "*" then some ([], [])
  else match getScheme raw [] raw with
    | none => none
    | some (scheme, rest) =>
      let rest := (split 63 rest).1                                  -- '?'
      if rest.head? ≠ some 47 then
        if scheme ≠ [] then some (lower scheme, [])                  -- "rootless paths ... as opaque"
        else if 58 ∈ (split 47 rest).1 then none                     -- "first path segment in URL cannot contain colon"
        else if unescapes rest then some ([], []) else none
      else if (scheme ≠ [] ∨ rest.take 3 ≠ lit "///") ∧ rest.take 2 = lit "//" then
        match authority ((rest.drop 2).takeWhile (· ≠ 47)) with
        | none => none
        | some host => if unescapes ((rest.drop 2).dropWhile (· ≠ 47)) then some (lower scheme, host) else none
      else if unescapes rest then some (lower scheme, []) else none

/-- `url.Parse` -/
def Parse (authority : GoStr → Option GoStr) (raw : GoStr) : Option (GoStr × GoStr) :=
  match parse authority (split 35 raw).1 with                        -- '#'
  | none => none
  | some u => if unescapes (split 35 raw).2 then some u else none

end Url

/-- What a handler's request and connection are like, as far as `Push` is concerned. -/
structure H2 where
  /-- the request is itself one that the server has promised -/
  isPushed : Bool
  /-- `"https"`, or `"http"` without TLS -/
  scheme : GoStr
  /-- `parseAuthority`: the host -/
  authority : GoStr → Option GoStr
  answer : Nat → Option Err

/-- The checks of `Push`: the error, if there is one. -/
def H2.check (E : H2) (target : GoStr) : Option Err :=
  if E.isPushed then some errRecursivePush
  else match Url.Parse E.authority target with
    | none => some errParse
    | some (scheme, host) =>
      if scheme = [] then
        if target.head? ≠ some 47 then some errNotAbsolute else none
      else if scheme ≠ E.scheme then some errPushScheme
      else if host = [] then some errNoHost
      else none

/-- A response being written. -/
structure H2W where
  net : NetW
  /-- how many targets the goroutine of the connection was asked about -/
  asked : Nat := 0
  /-- the targets promised to the client -/
  promised : List GoStr := []
deriving DecidableEq, Repr

/-- `Push` -/
def H2W.push (E : H2) (w : H2W) (target : GoStr) : H2W × Res (Option Err) :=
  match E.check target with
  | some e => (w, .ret (some e))
  | none =>
    let a := E.answer w.asked
    ({ w with asked := w.asked + 1, promised := if a = none then w.promised ++ [target] else w.promised }, .ret a)

/-- The ResponseWriter of HTTP/2. -/
def h2RW (E : H2) : RW H2W where
  setHeader w k v := { w with net := (netRW false 0).setHeader w.net k v }
  writeHeader w c := let r := (netRW false 0).writeHeader w.net c; ({ w with net := r.1 }, r.2)
  write w d := let r := (netRW false 0).write w.net d; ({ w with net := r.1 }, r.2)
  flush w := let r := (netRW false 0).flush w.net; ({ w with net := r.1 }, r.2)
  push := H2W.push E
  readFrom w := .panic w .nilDeref                                   -- there is none
  isPusher := true
  isReaderFrom := false
  isFlusher := true
  isCloseNotifier := true
  isHijacker := false

end Verif
