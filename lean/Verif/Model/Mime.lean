import Verif.Model.Text

/-!
# Model of `mime.ParseMediaType` and `mime.FormatMediaType` (Go 1.17, mime/mediatype.go, mime/grammar.go, mime/encodedword.go)

Used by `WithContentType` (`/repo/response/builder.go:122-136`).  Strings are sequences of bytes; where Go decodes UTF-8 (`unicode.IsSpace`,
`strings.ToLower`, `isTokenChar`), the bytes are inspected to the same effect.  A map is a list of its entries; a key occurs once.  Errors are
not told apart.
-/

set_option autoImplicit false

namespace Verif
namespace Mime

/-- `isTSpecial` -/
def isTSpecial (c : Byte) : Bool := c ∈ lit "()<>@,;:\\\"/[]?="

/-- `isTokenChar`; no character outside ASCII is one, so that it can be applied to single bytes. -/
def isTokenChar (c : Byte) : Bool := 0x20 < c && c < 0x7F && !isTSpecial c

/-- `isToken` -/
def isToken (s : GoStr) : Bool := s ≠ [] && s.all isTokenChar

/-- `strings.ToLower`, for its effect here: the ASCII letters; and the two characters outside ASCII whose lower case is in ASCII, U+0130 and
U+212A.  Other characters outside ASCII become characters outside ASCII, which are refused like those that are left here as they are. -/
def lower : GoStr → GoStr
  | 0xC4 :: 0xB0 :: s => 105 :: lower s
  | 0xE2 :: 0x84 :: 0xAA :: s => 107 :: lower s
  | c :: s => (if 65 ≤ c ∧ c ≤ 90 then c + 32 else c) :: lower s
  | [] => []

/-- `strings.TrimLeftFunc(s, unicode.IsSpace)` -/
def trimLeft (s : GoStr) : GoStr := stripFront spaceCodes s.length s

/-- `consumeToken` -/
def consumeToken (v : GoStr) : GoStr × GoStr := (v.takeWhile isTokenChar, v.dropWhile isTokenChar)

/-- The loop of `consumeValue`, with what has been put into the buffer; `none`: there is no end quote, or a CR or LF before it. -/
def consumeQuoted : GoStr → GoStr → Option (GoStr × GoStr)
  | [], _ => none
  | [c], acc => if c = 34 then some (acc, []) else none
  | c :: d :: v, acc =>
    if c = 34 then some (acc, d :: v)
    else if c = 92 ∧ isTSpecial d then consumeQuoted v (acc ++ [d])
    else if c = 13 ∨ c = 10 then none
    else consumeQuoted (d :: v) (acc ++ [c])

/-- `consumeValue`: the value and the rest; `none` if it returns `"", v`, so that nothing was consumed. -/
def consumeValue (v : GoStr) : Option (GoStr × GoStr) :=
  match v with
  | [] => none
  | c :: w =>
    if c ≠ 34 then
      let r := consumeToken v
      if r.1 = [] then none else some r
    else consumeQuoted w []

/-- `consumeMediaParam`: the name, the value and the rest; `none` if it returns `"", "", v`. -/
def consumeMediaParam (v : GoStr) : Option (GoStr × GoStr × GoStr) :=
  match trimLeft v with
  | [] => none
  | c :: rest =>
    if c ≠ 59 then none                                             -- ';'
    else
      let t := consumeToken (trimLeft rest)
      let param := lower t.1
      if param = [] then none
      else match trimLeft t.2 with
        | [] => none
        | c :: rest =>
          if c ≠ 61 then none                                       -- '='
          else match consumeValue (trimLeft rest) with
            | none => none
            | some (value, rest) => some (param, value, rest)

/-- The value of a key in a map. -/
def get (m : List (GoStr × GoStr)) (k : GoStr) : Option GoStr := (m.find? fun e => e.1 = k).map (·.2)

/-- `m[k] = v` -/
def put (m : List (GoStr × GoStr)) (k v : GoStr) : List (GoStr × GoStr) :=
  if (get m k).isSome then m.map (fun e => if e.1 = k then (k, v) else e) else m ++ [(k, v)]

/-- The loop of `ParseMediaType` over the parameters.  `ps` is `params`; `cs` has the entries of all maps in `continuation` (the key of an
entry determines the map it is in).  The flag is false if the function returns at once because of a semicolon at the end.  Each round
consumes something, so that the length is enough for `fuel`. -/
def loop : Nat → GoStr → List (GoStr × GoStr) → List (GoStr × GoStr) → Option (List (GoStr × GoStr) × List (GoStr × GoStr) × Bool)
  | fuel, v, ps, cs =>
    let v := trimLeft v
    if v = [] then some (ps, cs, true)
    else match fuel with
      | 0 => none
      | fuel + 1 =>
        match consumeMediaParam v with
        | none => if trimSpace v = [59] then some (ps, cs, false) else none
        | some (key, value, rest) =>
          if 42 ∈ key then                                          -- '*'
            if (get cs key).isSome then none else loop fuel rest ps (put cs key value)
          else
            if (get ps key).isSome then none else loop fuel rest (put ps key value) cs

/-- The value of a hexadecimal digit (`ishex`, `unhex`). -/
def unhex (c : Byte) : Option Byte :=
  if 48 ≤ c ∧ c ≤ 57 then some (c - 48)
  else if 97 ≤ c ∧ c ≤ 102 then some (c - 97 + 10)
  else if 65 ≤ c ∧ c ≤ 70 then some (c - 65 + 10)
  else none

/-- `percentHexUnescape` -/
def unescape : GoStr → Option GoStr
  | [] => some []
  | c :: s =>
    if c = 37 then                                                  -- '%'
      match s with
      | a :: b :: s =>
        match unhex a, unhex b with
        | some x, some y => (unescape s).map ((x <<< 4 ||| y) :: ·)
        | _, _ => none
      | _ => none
    else (unescape s).map (c :: ·)

/-- `strings.SplitN(v, "'", 3)`, if there are three parts; without the second. -/
def splitQuotes (v : GoStr) : Option (GoStr × GoStr) :=
  match v.dropWhile (· ≠ 39) with
  | [] => none
  | _ :: w =>
    match w.dropWhile (· ≠ 39) with
    | [] => none
    | _ :: x => some (v.takeWhile (· ≠ 39), x)

/-- `decode2231Enc` -/
def decode2231 (v : GoStr) : Option GoStr :=
  match splitQuotes v with
  | none => none
  | some (charset, rest) =>
    if lower charset = lit "us-ascii" ∨ lower charset = lit "utf-8" then unescape rest else none

/-- The pieces of a continued parameter from number `n` on, put together (the loop `for n := 0; ; n++`); `none` if there is none.  The keys of
the pieces differ, so that the size of the map is enough for `fuel`. -/
def pieces (cs : List (GoStr × GoStr)) (base : GoStr) : Nat → Nat → Option GoStr
  | 0, _ => none
  | fuel + 1, n =>
    match get cs (base ++ lit "*" ++ itoa n) with
    | some v => some (v ++ (pieces cs base fuel (n + 1)).getD [])
    | none =>
      match get cs (base ++ lit "*" ++ itoa n ++ lit "*") with
      | none => none
      | some v =>
        let d := if n = 0 then (decode2231 v).getD [] else (unescape v).getD []
        some (d ++ (pieces cs base fuel (n + 1)).getD [])

/-- One round of the last loop of `ParseMediaType`, `for key, pieceMap := range continuation`. -/
def stitch (cs : List (GoStr × GoStr)) (ps : List (GoStr × GoStr)) (base : GoStr) : List (GoStr × GoStr) :=
  match get cs (base ++ lit "*") with
  | some v =>
    match decode2231 v with
    | some d => put ps base d
    | none => ps
  | none =>
    match pieces cs base cs.length 0 with
    | some d => put ps base d
    | none => ps

/-- Each element once. -/
def once : List GoStr → List GoStr
  | [] => []
  | a :: l => a :: (once l).filter (· ≠ a)

/-- The keys of `continuation`. -/
def bases (cs : List (GoStr × GoStr)) : List GoStr := once (cs.map fun e => e.1.takeWhile (· ≠ 42))

/-- `checkMediaTypeDisposition`: is it all right? -/
def checkType (s : GoStr) : Bool :=
  let r := consumeToken s
  if r.1 = [] then false
  else match r.2 with
    | [] => true
    | c :: rest =>
      if c ≠ 47 then false                                          -- '/'
      else
        let q := consumeToken rest
        q.1 ≠ [] && q.2 = []

/-- `ParseMediaType`; `none`: an error. -/
def parse (v : GoStr) : Option (GoStr × List (GoStr × GoStr)) :=
  let typ := trimSpace (lower (v.takeWhile (· ≠ 59)))
  let v := v.dropWhile (· ≠ 59)
  if !checkType typ then none
  else match loop v.length v [] [] with
    | none => none
    | some (ps, cs, finished) => some (typ, if finished then (bases cs).foldl (stitch cs) ps else ps)

/-- `needsEncoding`: a character that is neither printable ASCII nor a tab. -/
def needsEncoding (s : GoStr) : Bool := s.any fun c => (c < 32 || 126 < c) && c ≠ 9

/-- `upperhex[n]` -/
def upperhex (n : Byte) : Byte := if n < 10 then 48 + n else 55 + n

/-- The value as written by RFC 2231: `utf-8''` and the bytes, some of them as `%XX`. -/
def escape : GoStr → GoStr
  | [] => []
  | c :: s =>
    if c ≤ 32 ∨ 127 ≤ c ∨ c = 42 ∨ c = 39 ∨ c = 37 ∨ isTSpecial c then 37 :: upperhex (c >>> 4) :: upperhex (c &&& 15) :: escape s
    else c :: escape s

/-- The inside of a quoted string. -/
def quoteInside : GoStr → GoStr
  | [] => []
  | c :: s => if c = 34 ∨ c = 92 then 92 :: c :: quoteInside s else c :: quoteInside s

/-- One parameter, as written by `FormatMediaType`. -/
def formatParam (key value : GoStr) : GoStr :=
  lit "; " ++ lower key ++
    (if needsEncoding value then lit "*=utf-8''" ++ escape value
     else if isToken value then lit "=" ++ value
     else lit "=\"" ++ quoteInside value ++ lit "\"")

/-- The order of `sort.Strings`: is `a` at most `b`? -/
def le : GoStr → GoStr → Bool
  | [], _ => true
  | _ :: _, [] => false
  | a :: s, b :: t => if a < b then true else if b < a then false else le s t

/-- `sort.Strings`, applied to the names of parameters. -/
def insert (e : GoStr × GoStr) : List (GoStr × GoStr) → List (GoStr × GoStr)
  | [] => [e]
  | f :: l => if le e.1 f.1 then e :: f :: l else f :: insert e l

def sort (l : List (GoStr × GoStr)) : List (GoStr × GoStr) := l.foldr insert []

/-- The type, as written by `FormatMediaType`. -/
def formatType (t : GoStr) : GoStr :=
  match t.dropWhile (· ≠ 47) with
  | [] => if isToken t then lower t else []
  | _ :: sub =>
    let major := t.takeWhile (· ≠ 47)
    if isToken major && isToken sub then lower major ++ lit "/" ++ lower sub else []

/-- `FormatMediaType`; empty if something cannot be written. -/
def format (t : GoStr) (ps : List (GoStr × GoStr)) : GoStr :=
  if formatType t = [] then []
  else if (sort ps).all (fun e => isToken e.1) then formatType t ++ ((sort ps).map fun e => formatParam e.1 e.2).flatten
  else []

/-- What `WithContentType` does to its argument (`/repo/response/builder.go:123-131`): `none`: it cannot be parsed; empty: it cannot be
formatted. -/
def normal (str : GoStr) : Option GoStr := (parse str).map fun r => format r.1 r.2

end Mime
end Verif
