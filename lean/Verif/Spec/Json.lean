import Verif.Basic

/-!
# JSON

Reading a JSON text, as RFC 8259 says: a text is a sequence of Unicode characters, which is sent in UTF-8.  And what the JSON for a Go value is to mean, as the
documentation of `json.Marshal` says.
-/

set_option autoImplicit false

namespace Verif.Spec.Json

/-- A JSON value.  A number is `m * 10 ^ e`. -/
inductive J where
  | null
  | bool (b : Bool)
  | num (m e : Int)
  | str (s : List Char)
  | arr (l : List J)
  | obj (l : List (List Char × J))

def isSpace (c : Char) : Bool := c = ' ' || c = '\t' || c = '\n' || c = '\r'

def skip (s : List Char) : List Char := s.dropWhile isSpace

/-! ## Numbers -/

def isDigit (c : Char) : Bool := decide (48 ≤ c.toNat ∧ c.toNat ≤ 57)

def decimal (s : List Char) : Nat := s.foldl (fun a c => 10 * a + (c.toNat - 48)) 0

/-- The digits after the point, if there is one. -/
def fraction : List Char → Option (List Char × List Char)
  | [] => some ([], [])
  | c :: s =>
    if c = '.' then (if s.takeWhile isDigit = [] then none else some (s.takeWhile isDigit, s.dropWhile isDigit))
    else some ([], c :: s)

/-- An exponent without its sign. -/
def magnitude (s : List Char) : Option (Int × List Char) :=
  if s.takeWhile isDigit = [] then none else some (decimal (s.takeWhile isDigit), s.dropWhile isDigit)

def exponent : List Char → Option (Int × List Char)
  | [] => some (0, [])
  | c :: s =>
    if c = 'e' ∨ c = 'E' then
      match s with
      | [] => none
      | x :: s =>
        if x = '+' then magnitude s
        else if x = '-' then (magnitude s).map fun q => (-q.1, q.2)
        else magnitude (x :: s)
    else some (0, c :: s)

/-- A number without its sign: no leading zeros. -/
def unsigned (s : List Char) : Option ((Nat × Int) × List Char) :=
  let int := s.takeWhile isDigit
  if int = [] ∨ (int.head? = some '0' ∧ int ≠ ['0']) then none
  else (fraction (s.dropWhile isDigit)).bind fun f =>
    (exponent f.2).map fun e => ((decimal (int ++ f.1), e.1 - f.1.length), e.2)

def number : List Char → Option ((Int × Int) × List Char)
  | [] => none
  | c :: s =>
    if c = '-' then (unsigned s).map fun q => ((-q.1.1, q.1.2), q.2)
    else (unsigned (c :: s)).map fun q => ((q.1.1, q.1.2), q.2)

/-! ## Strings -/

def hex (c : Char) : Option Nat :=
  if 48 ≤ c.toNat ∧ c.toNat ≤ 57 then some (c.toNat - 48)
  else if 97 ≤ c.toNat ∧ c.toNat ≤ 102 then some (c.toNat - 87)
  else if 65 ≤ c.toNat ∧ c.toNat ≤ 70 then some (c.toNat - 55)
  else none

def hex4 : List Char → Option (Nat × List Char)
  | a :: b :: c :: d :: s => do
    let a ← hex a
    let b ← hex b
    let c ← hex c
    let d ← hex d
    some (4096 * a + 256 * b + 16 * c + d, s)
  | _ => none

/-- After `\u`: one code unit, or two if the first is the first half of a pair. -/
def codeUnits (s : List Char) : Option (Char × List Char) := do
  let (n, s) ← hex4 s
  if 0xD800 ≤ n ∧ n < 0xDC00 then
    match s with
    | '\\' :: 'u' :: s => do
      let (m, s) ← hex4 s
      if 0xDC00 ≤ m ∧ m < 0xE000 then some (Char.ofNat (0x10000 + (n - 0xD800) * 1024 + (m - 0xDC00)), s) else none
    | _ => none
  else if n.isValidChar then some (Char.ofNat n, s)
  else none

/-- What an escape stands for (without the backslash), and the rest. -/
def escape : List Char → Option (Char × List Char)
  | [] => none
  | c :: s =>
    if c = '"' ∨ c = '\\' ∨ c = '/' then some (c, s)
    else if c = 'b' then some (Char.ofNat 8, s)
    else if c = 'f' then some (Char.ofNat 12, s)
    else if c = 'n' then some ('\n', s)
    else if c = 'r' then some ('\r', s)
    else if c = 't' then some ('\t', s)
    else if c = 'u' then codeUnits s
    else none

/-- A string after its first quote; `fuel > length` is enough. -/
def stringBody : Nat → List Char → Option (List Char × List Char)
  | 0, _ => none
  | _ + 1, [] => none
  | fuel + 1, c :: s =>
    if c = '"' then some ([], s)
    else if c = '\\' then (escape s).bind fun q => (stringBody fuel q.2).map fun r => (q.1 :: r.1, r.2)
    else if c.toNat < 32 then none
    else (stringBody fuel s).map fun r => (c :: r.1, r.2)

def string (s : List Char) : Option (List Char × List Char) := stringBody (s.length + 1) s

/-! ## Values -/

/-- The rest after a word. -/
def word (w : List Char) (j : J) (s : List Char) : Option (J × List Char) := if s.take w.length = w then some (j, s.drop w.length) else none

mutual

/-- A value and the rest; `fuel > length` is enough. -/
def value : Nat → List Char → Option (J × List Char)
  | 0, _ => none
  | fuel + 1, s =>
    match skip s with
    | [] => none
    | c :: s =>
      if c = '"' then (string s).map fun q => (.str q.1, q.2)
      else if c = '[' then
        if (skip s).head? = some ']' then some (.arr [], (skip s).tail)
        else (elements fuel s).map fun q => (.arr q.1, q.2)
      else if c = '{' then
        if (skip s).head? = some '}' then some (.obj [], (skip s).tail)
        else (members fuel s).map fun q => (.obj q.1, q.2)
      else if c = 'n' then word ['u', 'l', 'l'] .null s
      else if c = 't' then word ['r', 'u', 'e'] (.bool true) s
      else if c = 'f' then word ['a', 'l', 's', 'e'] (.bool false) s
      else (number (c :: s)).map fun q => (.num q.1.1 q.1.2, q.2)

/-- Values up to the closing bracket. -/
def elements : Nat → List Char → Option (List J × List Char)
  | 0, _ => none
  | fuel + 1, s =>
    (value fuel s).bind fun q =>
      match skip q.2 with
      | [] => none
      | c :: s =>
        if c = ']' then some ([q.1], s)
        else if c = ',' then (elements fuel s).map fun r => (q.1 :: r.1, r.2)
        else none

/-- Names and values up to the closing brace. -/
def members : Nat → List Char → Option (List (List Char × J) × List Char)
  | 0, _ => none
  | fuel + 1, s =>
    match skip s with
    | [] => none
    | c :: s =>
      if c ≠ '"' then none
      else (string s).bind fun k =>
        match skip k.2 with
        | [] => none
        | c :: s =>
          if c ≠ ':' then none
          else (value fuel s).bind fun q =>
            match skip q.2 with
            | [] => none
            | c :: s =>
              if c = '}' then some ([(k.1, q.1)], s)
              else if c = ',' then (members fuel s).map fun r => ((k.1, q.1) :: r.1, r.2)
              else none

end

/-- The value of a JSON text. -/
def parse (s : List Char) : Option J :=
  (value (s.length + 1) s).bind fun q => if skip q.2 = [] then some q.1 else none

/-- Text in UTF-8. -/
def utf8 (s : List Char) : GoStr := s.flatMap String.utf8EncodeChar

/-- What these bytes mean as JSON. -/
def Says (d : GoStr) (j : J) : Prop := ∃ s, d = utf8 s ∧ parse s = some j

end Verif.Spec.Json

namespace Verif

/-- A Go value, as far as `encoding/json` can see it. -/
inductive JVal where
  /-- nil: a pointer, an interface, a slice, a map -/
  | null
  | bool (b : Bool)
  /-- an integer of any type -/
  | int (i : Int)
  /-- a `json.Number`, or a floating-point number, which is turned into text by `strconv` -/
  | number (text : GoStr)
  | str (s : GoStr)
  /-- a slice or an array -/
  | arr (l : List JVal)
  /-- a struct: the names and values of those fields that are not omitted -/
  | struct (l : List (GoStr × JVal))
  /-- a map: the keys and values in the order in which iteration yields them -/
  | map (l : List (GoStr × JVal))
  /-- a value that encodes itself as this text: a `json.RawMessage`, or any `json.Marshaler` (in UTF-8) -/
  | raw (s : List Char)
  /-- the same with any bytes, which need not be JSON -/
  | own (t : GoStr)
  /-- what cannot be encoded: channels, functions, infinities, what contains itself, or what says so -/
  | bad (e : Err)

end Verif

namespace Verif.Spec.Json

/-- The characters of a Go string, which need not be UTF-8: each byte that is not part of a character stands for U+FFFD. -/
inductive Runes : GoStr → List Char → Prop
  | nil : Runes [] []
  | char (c : Char) {s : GoStr} {cs : List Char} : Runes s cs → Runes (String.utf8EncodeChar c ++ s) (c :: cs)
  | broken (b : Byte) {s : GoStr} {cs : List Char} : (∀ c s', b :: s ≠ String.utf8EncodeChar c ++ s') → Runes s cs → Runes (b :: s) (Char.ofNat 0xFFFD :: cs)

/-- The JSON value for a Go value. -/
inductive Means : JVal → J → Prop
  | null : Means .null .null
  | bool (b : Bool) : Means (.bool b) (.bool b)
  | int (i : Int) : Means (.int i) (.num i 0)
  | zero : Means (.number []) (.num 0 0)
  | number {t : GoStr} {s : List Char} {m e : Int} : t = utf8 s → number s = some ((m, e), []) → Means (.number t) (.num m e)
  | str {s : GoStr} {cs : List Char} : Runes s cs → Means (.str s) (.str cs)
  | arrNil : Means (.arr []) (.arr [])
  | arrCons {v : JVal} {l : List JVal} {j : J} {js : List J} : Means v j → Means (.arr l) (.arr js) → Means (.arr (v :: l)) (.arr (j :: js))
  | structNil : Means (.struct []) (.obj [])
  | structCons {k : GoStr} {v : JVal} {l : List (GoStr × JVal)} {cs : List Char} {j : J} {js : List (List Char × J)} :
      Runes k cs → Means v j → Means (.struct l) (.obj js) → Means (.struct ((k, v) :: l)) (.obj ((cs, j) :: js))
  /-- in the order of the keys, which is that of their bytes -/
  | map {l l' : List (GoStr × JVal)} {j : J} : l'.Perm l → l'.Pairwise (fun a b => a.1 ≤ b.1) → Means (.struct l') j → Means (.map l) j
  | raw {s : List Char} {j : J} : parse s = some j → Means (.raw s) j

/-- Names of fields are characters that need not be escaped.  (`encoding/json` sees to that when it looks at the type.) -/
def FieldName (k : GoStr) : Prop := ∃ cs, k = utf8 cs ∧ ∀ c ∈ cs, 32 ≤ c.toNat ∧ c ≠ '"' ∧ c ≠ '\\'

/-- The names of fields in a value; and what encodes itself does so with a JSON text. -/
inductive WellNamed : JVal → Prop
  | null : WellNamed .null
  | bool (b : Bool) : WellNamed (.bool b)
  | int (i : Int) : WellNamed (.int i)
  | number (t : GoStr) : WellNamed (.number t)
  | str (s : GoStr) : WellNamed (.str s)
  | bad (e : Err) : WellNamed (.bad e)
  | arr {l : List JVal} : (∀ v ∈ l, WellNamed v) → WellNamed (.arr l)
  | struct {l : List (GoStr × JVal)} : (∀ p ∈ l, FieldName p.1) → (∀ p ∈ l, WellNamed p.2) → WellNamed (.struct l)
  | map {l : List (GoStr × JVal)} : (∀ p ∈ l, WellNamed p.2) → WellNamed (.map l)
  | raw {s : List Char} {j : J} : parse s = some j → WellNamed (.raw s)

/-! ## Layout -/

/-- A JSON text without its layout. -/
inductive Tree where
  | lit (t : GoStr)
  | arr (l : List Tree)
  | obj (l : List (GoStr × Tree))

mutual

/-- With a layout: `nl d` before each element at depth `d`, `sp` after a colon. -/
def lay (nl : Int → GoStr) (sp : GoStr) : Int → Tree → GoStr
  | _, .lit t => t
  | _, .arr [] => [91, 93]
  | d, .arr (v :: l) => [91] ++ nl (d + 1) ++ lay nl sp (d + 1) v ++ layRest nl sp (d + 1) l ++ nl d ++ [93]
  | _, .obj [] => [123, 125]
  | d, .obj ((k, v) :: l) => [123] ++ nl (d + 1) ++ k ++ [58] ++ sp ++ lay nl sp (d + 1) v ++ layMore nl sp (d + 1) l ++ nl d ++ [125]

/-- The elements after the first. -/
def layRest (nl : Int → GoStr) (sp : GoStr) : Int → List Tree → GoStr
  | _, [] => []
  | d, v :: l => [44] ++ nl d ++ lay nl sp d v ++ layRest nl sp d l

/-- The members after the first. -/
def layMore (nl : Int → GoStr) (sp : GoStr) : Int → List (GoStr × Tree) → GoStr
  | _, [] => []
  | d, (k, v) :: l => [44] ++ nl d ++ k ++ [58] ++ sp ++ lay nl sp d v ++ layMore nl sp d l

end

mutual

/-- How deep it is nested. -/
def Tree.nest : Tree → Nat
  | .lit _ => 0
  | .arr l => nestAll l + 1
  | .obj l => nestMems l + 1

def nestAll : List Tree → Nat
  | [] => 0
  | v :: l => max v.nest (nestAll l)

def nestMems : List (GoStr × Tree) → Nat
  | [] => 0
  | (_, v) :: l => max v.nest (nestMems l)

end

/-- On one line, without spaces. -/
def oneLine (T : Tree) : GoStr := lay (fun _ => []) [] 0 T

/-- Indented by two spaces per level, with CRLF line ends, as by `FromPrettyJSON`. -/
def indented (T : Tree) : GoStr := lay (fun d => [13, 10] ++ List.replicate (2 * d.toNat) 32) [32] 0 T ++ [13, 10]

mutual

/-- How deep arrays and objects are nested. -/
def J.nest : J → Nat
  | .arr l => nestJs l + 1
  | .obj l => nestJms l + 1
  | _ => 0

def nestJs : List J → Nat
  | [] => 0
  | j :: l => max j.nest (nestJs l)

def nestJms : List (List Char × J) → Nat
  | [] => 0
  | (_, j) :: l => max j.nest (nestJms l)

end

/-- How deep a text is nested. -/
def textNest (s : List Char) : Nat := ((parse s).map J.nest).getD 0

mutual

/-- How deep slices, structs and maps are nested, and what encodes itself. -/
def depth : JVal → Nat
  | .arr l => depthAll l + 1
  | .struct l => depthMems l + 1
  | .map l => depthMems l + 1
  | .raw s => textNest s
  | _ => 0

def depthAll : List JVal → Nat
  | [] => 0
  | v :: l => max (depth v) (depthAll l)

def depthMems : List (GoStr × JVal) → Nat
  | [] => 0
  | (_, v) :: l => max (depth v) (depthMems l)

end

mutual

/-- How deep the texts are nested that values in it encode themselves as. -/
def rawDepth : JVal → Nat
  | .arr l => rawDepthAll l
  | .struct l => rawDepthMems l
  | .map l => rawDepthMems l
  | .raw s => textNest s
  | _ => 0

def rawDepthAll : List JVal → Nat
  | [] => 0
  | v :: l => max (rawDepth v) (rawDepthAll l)

def rawDepthMems : List (GoStr × JVal) → Nat
  | [] => 0
  | (_, v) :: l => max (rawDepth v) (rawDepthMems l)

end

/-- No map has a key twice. -/
inductive Keyed : JVal → Prop
  | null : Keyed .null
  | bool (b : Bool) : Keyed (.bool b)
  | int (i : Int) : Keyed (.int i)
  | number (t : GoStr) : Keyed (.number t)
  | str (s : GoStr) : Keyed (.str s)
  | arr {l : List JVal} : (∀ v ∈ l, Keyed v) → Keyed (.arr l)
  | struct {l : List (GoStr × JVal)} : (∀ p ∈ l, Keyed p.2) → Keyed (.struct l)
  | map {l : List (GoStr × JVal)} : (l.map (·.1)).Nodup → (∀ p ∈ l, Keyed p.2) → Keyed (.map l)
  | raw (s : List Char) : Keyed (.raw s)

/-- The text has the shape of a JSON value. -/
inductive Outline : J → Tree → Prop
  | lit {j : J} (t : GoStr) : j.nest = 0 → Outline j (.lit t)
  | arrNil : Outline (.arr []) (.arr [])
  | arrCons {j : J} {l : List J} {T : Tree} {L : List Tree} : Outline j T → Outline (.arr l) (.arr L) → Outline (.arr (j :: l)) (.arr (T :: L))
  | objNil : Outline (.obj []) (.obj [])
  | objCons {j : J} {l : List (List Char × J)} {T : Tree} {L : List (GoStr × Tree)} (k : List Char) (name : GoStr) :
      Outline j T → Outline (.obj l) (.obj L) → Outline (.obj ((k, j) :: l)) (.obj ((name, T) :: L))

/-- The text has the shape of the value. -/
inductive Shape : JVal → Tree → Prop
  | lit {v : JVal} (t : GoStr) : depth v = 0 → (∀ s, v ≠ .raw s) → (∀ t, v ≠ .own t) → Shape v (.lit t)
  | arrNil : Shape (.arr []) (.arr [])
  | arrCons {v : JVal} {l : List JVal} {T : Tree} {L : List Tree} : Shape v T → Shape (.arr l) (.arr L) → Shape (.arr (v :: l)) (.arr (T :: L))
  | structNil : Shape (.struct []) (.obj [])
  | structCons {v : JVal} {l : List (GoStr × JVal)} {T : Tree} {L : List (GoStr × Tree)} (k name : GoStr) :
      Shape v T → Shape (.struct l) (.obj L) → Shape (.struct ((k, v) :: l)) (.obj ((name, T) :: L))
  | map {l l' : List (GoStr × JVal)} {T : Tree} : l'.Perm l → l'.Pairwise (fun a b => a.1 ≤ b.1) → Shape (.struct l') T → Shape (.map l) T
  | raw {s : List Char} {j : J} {T : Tree} : parse s = some j → Outline j T → Shape (.raw s) T

/-- The same value, except for the order in which maps yield their keys. -/
inductive Reordered : JVal → JVal → Prop
  | refl (v : JVal) : Reordered v v
  | trans {u v w : JVal} : Reordered u v → Reordered v w → Reordered u w
  | arr (a b : List JVal) {v w : JVal} : Reordered v w → Reordered (.arr (a ++ v :: b)) (.arr (a ++ w :: b))
  | struct (a b : List (GoStr × JVal)) (k : GoStr) {v w : JVal} : Reordered v w → Reordered (.struct (a ++ (k, v) :: b)) (.struct (a ++ (k, w) :: b))
  | map (a b : List (GoStr × JVal)) (k : GoStr) {v w : JVal} : Reordered v w → Reordered (.map (a ++ (k, v) :: b)) (.map (a ++ (k, w) :: b))
  | perm {l l' : List (GoStr × JVal)} : l.Perm l' → (l.map (·.1)).Nodup → Reordered (.map l) (.map l')

/-- One value is part of another, or the same. -/
inductive Within : JVal → JVal → Prop
  | here (v : JVal) : Within v v
  | arr {u v : JVal} {l : List JVal} : v ∈ l → Within u v → Within u (.arr l)
  | struct {u : JVal} {p : GoStr × JVal} {l : List (GoStr × JVal)} : p ∈ l → Within u p.2 → Within u (.struct l)
  | map {u : JVal} {p : GoStr × JVal} {l : List (GoStr × JVal)} : p ∈ l → Within u p.2 → Within u (.map l)

end Verif.Spec.Json
