import Verif.Model.Quote
import Verif.Model.Strconv
import Verif.Model.Construct
import Verif.Spec.Json

/-!
# `encoding/json`, as far as `FromJSON` and `FromPrettyJSON` use it

Follows Go 1.17: `Encoder.Encode` (stream.go), `encodeState` (encode.go), `Indent` (indent.go) and `scanner` (scanner.go).  `/repo/body/body.go:183-185` sets
`SetEscapeHTML(false)` and `SetIndent("", indent)`.  A Go value is a `JVal`: the choice of an encoder by type, pointers, tags and the conversion of floating-point
numbers are not modelled.
-/

set_option autoImplicit false

namespace Verif.Json

/-! ## encode.go -/

/-- `safeSet` -/
def safe (b : Byte) : Bool := 0x20 ≤ b && b ≠ 34 && b ≠ 92

/-- One ASCII character that is not in `safeSet`. -/
def escapeByte (b : Byte) : GoStr :=
  if b = 92 ∨ b = 34 then [92, b]
  else if b = 10 then lit "\\n"
  else if b = 13 then lit "\\r"
  else if b = 9 then lit "\\t"
  else lit "\\u00" ++ [lowerHex (b.toNat / 16), lowerHex (b.toNat % 16)]

/-- The loop of `encodeState.string(s, false)`; `fuel = len(s)` is enough. -/
def stringLoop : Nat → GoStr → GoStr
  | 0, _ => []
  | _ + 1, [] => []
  | fuel + 1, b :: rest =>
    if b.toNat < 0x80 then
      if safe b then b :: stringLoop fuel rest
      else escapeByte b ++ stringLoop fuel rest
    else
      let q := decodeRune (b :: rest)
      if q.1 = runeError ∧ q.2 = 1 then lit "\\ufffd" ++ stringLoop fuel ((b :: rest).drop q.2)
      else if q.1 = 0x2028 ∨ q.1 = 0x2029 then lit "\\u202" ++ [lowerHex (q.1 % 16)] ++ stringLoop fuel ((b :: rest).drop q.2)
      else (b :: rest).take q.2 ++ stringLoop fuel ((b :: rest).drop q.2)

def string (s : GoStr) : GoStr := [34] ++ stringLoop s.length s ++ [34]

def digit (b : Byte) : Bool := 48 ≤ b && b ≤ 57

/-- The digits at the beginning of a `json.Number`, and the rest. -/
def validInt : GoStr → Option GoStr
  | [] => none
  | b :: s => if b = 48 then some s else if 49 ≤ b && b ≤ 57 then some (s.dropWhile digit) else none

/-- `.` followed by digits. -/
def validFrac : GoStr → GoStr
  | a :: b :: s => if a = 46 && digit b then s.dropWhile digit else a :: b :: s
  | s => s

/-- `e` or `E` followed by an optional sign and digits. -/
def validExp : GoStr → Option GoStr
  | a :: b :: s =>
    if a = 101 ∨ a = 69 then
      if b = 43 ∨ b = 45 then (if s = [] then none else some (s.dropWhile digit))
      else some ((b :: s).dropWhile digit)
    else some (a :: b :: s)
  | s => some s

/-- `isValidNumber` -/
def isValidNumber (s : GoStr) : Bool :=
  let s := if s.head? = some 45 then s.tail else s
  match validInt s with
  | none => false
  | some s =>
    match validExp (validFrac s) with
    | none => false
    | some s => s = []

/-- The error for a `json.Number` that is none. -/
def badNumber : Err := .ext 0

/-- The error of the scanner. -/
def syntaxError : Err := .ext 1

/-! ## scanner.go -/

/-- The functions that `scanner.step` may be. -/
inductive St where
  | beginValueOrEmpty | beginValue | beginStringOrEmpty | beginString | endValue | endTop
  | inString | inStringEsc | inStringEscU | inStringEscU1 | inStringEscU12 | inStringEscU123
  | neg | one | zero | dot | dot0 | e | eSign | e0
  | t | tr | tru | f | fa | fal | fals | n | nu | nul
deriving DecidableEq, Repr

/-- What `scanner.step` returns. -/
inductive Code where
  | continue | beginLiteral | beginObject | objectKey | objectValue | endObject | beginArray | arrayValue | endArray | skipSpace | end | error
deriving DecidableEq, Repr

/-- `parseState` -/
inductive Ps where
  | objectKey | objectValue | arrayValue
deriving DecidableEq, Repr

/-- `scanner`; the last element of `parseState` comes first. -/
structure Scan where
  step : St := .beginValue
  stack : List Ps := []
  endTop : Bool := false
deriving DecidableEq, Repr

def isSpace (c : Byte) : Bool := c = 32 || c = 9 || c = 13 || c = 10

def isHex (c : Byte) : Bool := (48 ≤ c && c ≤ 57) || (97 ≤ c && c ≤ 102) || (65 ≤ c && c ≤ 70)

/-- `maxNestingDepth` -/
def maxNesting : Nat := 10000

/-- `pushParseState` -/
def Scan.push (s : Scan) (p : Ps) (step : St) (c : Code) : Scan × Code :=
  ({ s with step := step, stack := p :: s.stack }, if s.stack.length + 1 ≤ maxNesting then c else .error)

/-- `popParseState` -/
def Scan.pop (s : Scan) : Scan :=
  match s.stack with
  | [] => s                                                             -- does not happen
  | [_] => { step := .endTop, stack := [], endTop := true }
  | _ :: p => { s with step := .endValue, stack := p }

def stateEndTop (s : Scan) (c : Byte) : Scan × Code := (s, if isSpace c then .end else .error)

def stateEndValue (s : Scan) (c : Byte) : Scan × Code :=
  match s.stack with
  | [] => stateEndTop { s with step := .endTop, endTop := true } c
  | p :: ps =>
    if isSpace c then ({ s with step := .endValue }, .skipSpace)
    else match p with
      | .objectKey => if c = 58 then ({ s with step := .beginValue, stack := .objectValue :: ps }, .objectKey) else (s, .error)
      | .objectValue =>
        if c = 44 then ({ s with step := .beginString, stack := .objectKey :: ps }, .objectValue)
        else if c = 125 then (s.pop, .endObject)
        else (s, .error)
      | .arrayValue =>
        if c = 44 then ({ s with step := .beginValue }, .arrayValue)
        else if c = 93 then (s.pop, .endArray)
        else (s, .error)

def stateBeginValue (s : Scan) (c : Byte) : Scan × Code :=
  if isSpace c then (s, .skipSpace)
  else if c = 123 then s.push .objectKey .beginStringOrEmpty .beginObject
  else if c = 91 then s.push .arrayValue .beginValueOrEmpty .beginArray
  else if c = 34 then ({ s with step := .inString }, .beginLiteral)
  else if c = 45 then ({ s with step := .neg }, .beginLiteral)
  else if c = 48 then ({ s with step := .zero }, .beginLiteral)
  else if c = 116 then ({ s with step := .t }, .beginLiteral)
  else if c = 102 then ({ s with step := .f }, .beginLiteral)
  else if c = 110 then ({ s with step := .n }, .beginLiteral)
  else if 49 ≤ c && c ≤ 57 then ({ s with step := .one }, .beginLiteral)
  else (s, .error)

def stateBeginString (s : Scan) (c : Byte) : Scan × Code :=
  if isSpace c then (s, .skipSpace)
  else if c = 34 then ({ s with step := .inString }, .beginLiteral)
  else (s, .error)

def state0 (s : Scan) (c : Byte) : Scan × Code :=
  if c = 46 then ({ s with step := .dot }, .continue)
  else if c = 101 ∨ c = 69 then ({ s with step := .e }, .continue)
  else stateEndValue s c

def stateESign (s : Scan) (c : Byte) : Scan × Code := if digit c then ({ s with step := .e0 }, .continue) else (s, .error)

/-- One letter of a word, or one hexadecimal digit. -/
def want (s : Scan) (ok : Bool) (next : St) : Scan × Code := if ok then ({ s with step := next }, .continue) else (s, .error)

/-- `s.step(s, c)` -/
def Scan.next (s : Scan) (c : Byte) : Scan × Code :=
  match s.step with
  | .beginValueOrEmpty =>
    if isSpace c then (s, .skipSpace) else if c = 93 then stateEndValue s c else stateBeginValue s c
  | .beginValue => stateBeginValue s c
  | .beginStringOrEmpty =>
    if isSpace c then (s, .skipSpace)
    else if c = 125 then stateEndValue { s with stack := .objectValue :: s.stack.tail } c
    else stateBeginString s c
  | .beginString => stateBeginString s c
  | .endValue => stateEndValue s c
  | .endTop => stateEndTop s c
  | .inString =>
    if c = 34 then ({ s with step := .endValue }, .continue)
    else if c = 92 then ({ s with step := .inStringEsc }, .continue)
    else if c < 0x20 then (s, .error)
    else (s, .continue)
  | .inStringEsc =>
    if c = 117 then ({ s with step := .inStringEscU }, .continue)
    else want s (decide (c ∈ lit "bfnrt\\/\"")) .inString
  | .inStringEscU => want s (isHex c) .inStringEscU1
  | .inStringEscU1 => want s (isHex c) .inStringEscU12
  | .inStringEscU12 => want s (isHex c) .inStringEscU123
  | .inStringEscU123 => want s (isHex c) .inString
  | .neg =>
    if c = 48 then ({ s with step := .zero }, .continue)
    else want s (49 ≤ c && c ≤ 57) .one
  | .one => if digit c then ({ s with step := .one }, .continue) else state0 s c
  | .zero => state0 s c
  | .dot => want s (digit c) .dot0
  | .dot0 =>
    if digit c then (s, .continue)
    else if c = 101 ∨ c = 69 then ({ s with step := .e }, .continue)
    else stateEndValue s c
  | .e => if c = 43 ∨ c = 45 then ({ s with step := .eSign }, .continue) else stateESign s c
  | .eSign => stateESign s c
  | .e0 => if digit c then (s, .continue) else stateEndValue s c
  | .t => want s (c = 114) .tr
  | .tr => want s (c = 117) .tru
  | .tru => want s (c = 101) .endValue
  | .f => want s (c = 97) .fa
  | .fa => want s (c = 108) .fal
  | .fal => want s (c = 115) .fals
  | .fals => want s (c = 101) .endValue
  | .n => want s (c = 117) .nu
  | .nu => want s (c = 108) .nul
  | .nul => want s (c = 108) .endValue

/-- `scanner.eof()`: whether a value is complete. -/
def Scan.eof (s : Scan) : Bool := s.endTop || (s.next 32).1.endTop

/-! ## indent.go -/

/-- The loop of `compact` with `escape` false: what is copied, and the scanner after it; none if it finds an error. -/
def Scan.squeeze : Scan → GoStr → Option (Scan × GoStr)
  | s, [] => some (s, [])
  | s, c :: t =>
    let r := s.next c
    if r.2 = .error then none
    else (r.1.squeeze t).map fun q => (q.1, if r.2 = .skipSpace ∨ r.2 = .end then q.2 else c :: q.2)

/-- `compact(dst, src, false)` -/
def squeezed (src : GoStr) : Except Err GoStr :=
  match ({} : Scan).squeeze src with
  | none => .error syntaxError
  | some q => if q.1.eof then .ok q.2 else .error syntaxError

/-! ## encode.go, again -/

/-- `mapEncoder` sorts by key. -/
def insertKey {α : Type} (p : GoStr × α) : List (GoStr × α) → List (GoStr × α)
  | [] => [p]
  | q :: l => if p.1 ≤ q.1 then p :: q :: l else q :: insertKey p l

def sortKeys {α : Type} (l : List (GoStr × α)) : List (GoStr × α) := l.foldr insertKey []

/-- The members of an object; the first error ends it. -/
def joinFields (name : GoStr → GoStr) : Bool → List (GoStr × Except Err GoStr) → Except Err GoStr
  | _, [] => .ok []
  | first, (k, t) :: l =>
    match t with
    | .error e => .error e
    | .ok t =>
      match joinFields name false l with
      | .error e => .error e
      | .ok r => .ok ((if first then [] else [44]) ++ name k ++ [58] ++ t ++ r)

mutual

/-- `encodeState.marshal` with `escapeHTML` false. -/
def marshal : JVal → Except Err GoStr
  | .null => .ok (lit "null")
  | .bool b => .ok (if b then lit "true" else lit "false")
  | .int i => .ok (itoa i)
  | .number t =>
    let t := if t = [] then lit "0" else t
    if isValidNumber t then .ok t else .error badNumber
  | .str s => .ok (string s)
  | .arr l => (marshalAll true l).map fun t => [91] ++ t ++ [93]
  | .struct l => (joinFields (fun k => [34] ++ k ++ [34]) true (marshalFields l)).map fun t => [123] ++ t ++ [125]
  | .map l => (joinFields string true (sortKeys (marshalFields l))).map fun t => [123] ++ t ++ [125]
  | .raw s => squeezed (Spec.Json.utf8 s)                               -- `marshalerEncoder`
  | .own t => squeezed t
  | .bad e => .error e

/-- The loop of `arrayEncoder.encode`. -/
def marshalAll : Bool → List JVal → Except Err GoStr
  | _, [] => .ok []
  | first, v :: l =>
    match marshal v with
    | .error e => .error e
    | .ok t =>
      match marshalAll false l with
      | .error e => .error e
      | .ok r => .ok ((if first then [] else [44]) ++ t ++ r)

def marshalFields : List (GoStr × JVal) → List (GoStr × Except Err GoStr)
  | [] => []
  | p :: l => (p.1, marshal p.2) :: marshalFields l

end

/-! ## indent.go, again -/

/-- The variables of `Indent`. -/
structure Ind where
  scan : Scan := {}
  needIndent : Bool := false
  depth : Int := 0
  dst : GoStr := []

/-- `newline(dst, "", indent, depth)` -/
def newline (indent : GoStr) (depth : Int) : GoStr := 10 :: (List.replicate depth.toNat indent).flatten

/-- One turn of the loop of `Indent`; none if the scanner finds an error. -/
def Ind.next (indent : GoStr) (i : Ind) (c : Byte) : Option Ind :=
  let r := i.scan.next c
  let i := { i with scan := r.1 }
  if r.2 = .skipSpace then some i
  else if r.2 = .error then none
  else
    let i := if i.needIndent && r.2 ≠ .endObject && r.2 ≠ .endArray then
        { i with needIndent := false, depth := i.depth + 1, dst := i.dst ++ newline indent (i.depth + 1) }
      else i
    if r.2 = .continue then some { i with dst := i.dst ++ [c] }
    else if c = 123 ∨ c = 91 then some { i with needIndent := true, dst := i.dst ++ [c] }
    else if c = 44 then some { i with dst := i.dst ++ [c] ++ newline indent i.depth }
    else if c = 58 then some { i with dst := i.dst ++ [c] ++ [32] }
    else if c = 125 ∨ c = 93 then
      if i.needIndent then some { i with needIndent := false, dst := i.dst ++ [c] }
      else some { i with depth := i.depth - 1, dst := i.dst ++ newline indent (i.depth - 1) ++ [c] }
    else some { i with dst := i.dst ++ [c] }

def Ind.run (indent : GoStr) : Ind → GoStr → Option Ind
  | i, [] => some i
  | i, c :: s => match i.next indent c with
    | none => none
    | some i => i.run indent s

/-- `Indent(dst, src, "", indent)` -/
def indent (src ind : GoStr) : Except Err GoStr :=
  match ({} : Ind).run ind src with
  | none => .error syntaxError
  | some i => if i.scan.eof then .ok i.dst else .error syntaxError

/-! ## stream.go -/

/-- `Encoder.Encode` into a buffer, with `SetEscapeHTML(false)` and `SetIndent("", ind)`. -/
def encode (ind : GoStr) (v : JVal) : Except Err GoStr :=
  match marshal v with
  | .error e => .error e
  | .ok t => if ind = [] then .ok (t ++ [10]) else indent (t ++ [10]) ind

/-- What `fromJSONImpl` uses (`/repo/body/body.go:174-187`). -/
def encoder (v : JVal) (isPretty : Bool) : Except Err GoStr := encode (if isPretty then lit "  " else []) v

end Verif.Json

namespace Verif

/-- `FromJSON(v)` -/
def fromJSONOf (v : JVal) : Res MemFam := fromJSON (Json.encoder v)

/-- `FromPrettyJSON(v)` -/
def fromPrettyJSONOf (v : JVal) : Res MemFam := fromPrettyJSON (Json.encoder v)

end Verif
