import Verif.Spec.Text
import Verif.Spec.Literal

/-!
# Media types

The grammar of RFC 2045 (section 5.1) as far as it goes, with optional white space, and what may be sent in a header.
-/

set_option autoImplicit false

namespace Verif.Spec.Media

/-- May be sent in a header, on its own line: printable ASCII and tabs. -/
def HeaderSafe (s : GoStr) : Prop := ∀ c ∈ s, c = 9 ∨ (32 ≤ c ∧ c ≤ 126)

/-- RFC 2045: "must be in quoted-string, to use within parameter values". -/
def tspecials : GoStr := lit "()<>@,;:\\\"/[]?="

/-- RFC 2045: "any (US-ASCII) CHAR except SPACE, CTLs, or tspecials". -/
def TokenByte (c : Byte) : Prop := 32 < c ∧ c < 127 ∧ c ∉ tspecials

def Token (s : GoStr) : Prop := s ≠ [] ∧ ∀ c ∈ s, TokenByte c

/-- White space, or none. -/
def Spaces (s : GoStr) : Prop := ∃ l : List GoStr, (∀ c ∈ l, c ∈ spaces) ∧ s = l.flatten

/-- `t` is `s` in lower case.  There are two characters outside ASCII whose lower case is in ASCII: U+0130 and U+212A. -/
inductive Lowers : GoStr → GoStr → Prop
  | nil : Lowers [] []
  | byte (c : Byte) {s t : GoStr} : Lowers s t → Lowers (c :: s) (lowerByte c :: t)
  | dotted {s t : GoStr} : Lowers s t → Lowers (String.utf8EncodeChar (Char.ofNat 0x130) ++ s) (105 :: t)
  | kelvin {s t : GoStr} : Lowers s t → Lowers (String.utf8EncodeChar (Char.ofNat 0x212A) ++ s) (107 :: t)

/-- A media type, or a token alone (as in Content-Disposition). -/
def TypeName (t : GoStr) : Prop := Token t ∨ ∃ a b, Token a ∧ Token b ∧ t = a ++ lit "/" ++ b

/-- The inside of a quoted string and what it means.  A backslash before another character than those that need one stands for itself. -/
inductive Inside : GoStr → GoStr → Prop
  | nil : Inside [] []
  | plain {c : Byte} {s v : GoStr} : c ≠ 34 → c ≠ 92 → c ≠ 13 → c ≠ 10 → Inside s v → Inside (c :: s) (c :: v)
  | escaped {c : Byte} {s v : GoStr} : c ∈ tspecials → Inside s v → Inside (92 :: c :: s) (c :: v)
  | backslash {c : Byte} {s v : GoStr} : c ∉ tspecials → Inside (c :: s) v → Inside (92 :: c :: s) (92 :: v)

/-- A value and what it means. -/
inductive Value : GoStr → GoStr → Prop
  | token {s : GoStr} : Token s → Value s s
  | quoted {s v : GoStr} : Inside s v → Value (lit "\"" ++ s ++ lit "\"") v

/-- Parameters, as names (in lower case) and values; the flag tells whether there is a semicolon after the last. -/
inductive Params : GoStr → List (GoStr × GoStr) → Bool → Prop
  | none {s : GoStr} : Spaces s → Params s [] false
  | semicolon {s s' : GoStr} : Spaces s → Spaces s' → Params (s ++ lit ";" ++ s') [] true
  | param {s₁ s₂ s₃ s₄ key text value rest : GoStr} {ps : List (GoStr × GoStr)} {semi : Bool} :
      Spaces s₁ → Spaces s₂ → Spaces s₃ → Spaces s₄ → Token key → Value text value → Params rest ps semi →
      Params (s₁ ++ lit ";" ++ s₂ ++ key ++ s₃ ++ lit "=" ++ s₄ ++ text ++ rest) ((lower key, value) :: ps) semi

/-- The string `v` gives the media type `t` with these parameters. -/
def Reads (v t : GoStr) (ps : List (GoStr × GoStr)) (semi : Bool) : Prop :=
  ∃ s₁ typ s₂ rest, Spaces s₁ ∧ Spaces s₂ ∧ v = s₁ ++ typ ++ s₂ ++ rest ∧ Lowers typ t ∧ TypeName t ∧ Params rest ps semi

/-- No parameter is given twice. -/
def Distinct (ps : List (GoStr × GoStr)) : Prop := ps.Pairwise fun a b => a.1 ≠ b.1

/-- Names of ordinary parameters: those with an asterisk are for long values and other alphabets (RFC 2231). -/
def Plain (ps : List (GoStr × GoStr)) : Prop := ∀ e ∈ ps, 42 ∉ e.1

/-! ## Long values and other alphabets (RFC 2231) -/

/-- `text` with `%XX` for some of the bytes of `v`. -/
inductive Unescapes : GoStr → GoStr → Prop
  | nil : Unescapes [] []
  | plain {c : Byte} {s v : GoStr} : c ≠ 37 → Unescapes s v → Unescapes (c :: s) (c :: v)
  | code {a b : Byte} {x y : Nat} {s v : GoStr} : hexDigit a = some x → hexDigit b = some y → Unescapes s v →
      Unescapes (37 :: a :: b :: s) ((16 * x + y).toUInt8 :: v)

/-- An alphabet (UTF-8 or ASCII), a language and the text. -/
def Decodes (s v : GoStr) : Prop :=
  ∃ charset language text, s = charset ++ lit "'" ++ language ++ lit "'" ++ text ∧ 39 ∉ charset ∧ 39 ∉ language ∧
    (Lowers charset (lit "us-ascii") ∨ Lowers charset (lit "utf-8")) ∧ Unescapes text v

/-- There is a parameter with this name. -/
def Named (raw : List (GoStr × GoStr)) (k : GoStr) : Prop := ∃ v, (k, v) ∈ raw

/-- The name of a piece of a value. -/
def pieceName (k : GoStr) (n : Nat) : GoStr := k ++ lit "*" ++ lit (toString n)

/-- What an encoded piece means; nothing if it is not well-formed.  Only the first tells the alphabet. -/
def Piece (n : Nat) (s v : GoStr) : Prop :=
  let Means := if n = 0 then Decodes s else Unescapes s
  Means v ∨ (v = [] ∧ ∀ w, ¬ Means w)

/-- The pieces of a value from number `n` up to the first that is missing. -/
inductive Pieces (raw : List (GoStr × GoStr)) (k : GoStr) : Nat → GoStr → Prop
  | stop {n : Nat} : ¬ Named raw (pieceName k n) → ¬ Named raw (pieceName k n ++ lit "*") → Pieces raw k n []
  | plain {n : Nat} {v w : GoStr} : (pieceName k n, v) ∈ raw → Pieces raw k (n + 1) w → Pieces raw k n (v ++ w)
  | coded {n : Nat} {s v w : GoStr} : ¬ Named raw (pieceName k n) → (pieceName k n ++ lit "*", s) ∈ raw → Piece n s v → Pieces raw k (n + 1) w →
      Pieces raw k n (v ++ w)

/-- The value is in pieces. -/
def InPieces (raw : List (GoStr × GoStr)) (k : GoStr) : Prop :=
  ¬ Named raw (k ++ lit "*") ∧ (Named raw (pieceName k 0) ∨ Named raw (pieceName k 0 ++ lit "*"))

/-- The parameter `k` is `v`. -/
inductive Has (raw : List (GoStr × GoStr)) (k : GoStr) : GoStr → Prop
  | coded {s v : GoStr} : (k ++ lit "*", s) ∈ raw → Decodes s v → Has raw k v
  | pieces {v : GoStr} : InPieces raw k → Pieces raw k 0 v → Has raw k v
  | plain {v : GoStr} : (k, v) ∈ raw → (∀ s w, (k ++ lit "*", s) ∈ raw → ¬ Decodes s w) → ¬ InPieces raw k → Has raw k v

/-- The string `v` means: the media type `t` with the parameters `M`.  If there is a semicolon after the last parameter those of RFC 2231 are
left out. -/
def Means (v t : GoStr) (M : GoStr → GoStr → Prop) : Prop :=
  ∃ raw semi, Reads v t raw semi ∧ Distinct raw ∧ ∀ k x, M k x ↔ 42 ∉ k ∧ if semi then (k, x) ∈ raw else Has raw k x

/-- How the parameter `k` with value `v` is written: as a token if it is one, in quotes if it may be sent in a header, and else encoded. -/
inductive Writes (k : GoStr) : GoStr → GoStr → Prop
  | token {v : GoStr} : Token v → Writes k v (lit "; " ++ k ++ lit "=" ++ v)
  | quoted {v s : GoStr} : ¬ Token v → HeaderSafe v → Inside s v → Writes k v (lit "; " ++ k ++ lit "=\"" ++ s ++ lit "\"")
  | coded {v s : GoStr} : ¬ HeaderSafe v → Unescapes s v → (∀ c ∈ s, TokenByte c) → Writes k v (lit "; " ++ k ++ lit "*=utf-8''" ++ s)

/-- The parameters one after another. -/
inductive WritesAll : List (GoStr × GoStr) → GoStr → Prop
  | nil : WritesAll [] []
  | cons {k v s rest : GoStr} {l : List (GoStr × GoStr)} : Writes k v s → WritesAll l rest → WritesAll ((k, v) :: l) (s ++ rest)

end Verif.Spec.Media
