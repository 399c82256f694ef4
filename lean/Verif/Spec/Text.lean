import Verif.Basic

/-! # What is expected of the string functions

Nothing here mentions the model. -/

set_option autoImplicit false

namespace Verif.Spec

/-- ASCII lower case. -/
def lowerByte (c : Byte) : Byte := if 65 ≤ c && c ≤ 90 then c + 32 else c
@[inherit_doc lowerByte] def lower (s : GoStr) : GoStr := s.map lowerByte

/-- A character of a token (RFC 7230). -/
def tokenChar (c : Byte) : Prop := c ∈ lit "!#$%&'*+-.^_`|~0123456789ABCDEFGHIJKLMNOPQRSTUVWXYZabcdefghijklmnopqrstuvwxyz"

/-- The white space characters (Unicode property White_Space), encoded in UTF-8. -/
def spaces : List GoStr :=
  ([0x09, 0x0A, 0x0B, 0x0C, 0x0D, 0x20, 0x85, 0xA0, 0x1680, 0x2000, 0x2001, 0x2002, 0x2003, 0x2004, 0x2005, 0x2006, 0x2007,
    0x2008, 0x2009, 0x200A, 0x2028, 0x2029, 0x202F, 0x205F, 0x3000].map Char.ofNat).map String.utf8EncodeChar

/-- `v` is `s` without the white space around it. -/
def Trimmed (s v : GoStr) : Prop :=
  (∃ l r : List GoStr, (∀ c ∈ l, c ∈ spaces) ∧ (∀ c ∈ r, c ∈ spaces) ∧ s = l.flatten ++ v ++ r.flatten) ∧
  ∀ c ∈ spaces, ¬ c <+: v ∧ ¬ c <:+ v

/-- The bits a base64 character stands for. -/
def dec6 (c : Byte) : Option Nat :=
  if 65 ≤ c.toNat ∧ c.toNat ≤ 90 then some (c.toNat - 65)
  else if 97 ≤ c.toNat ∧ c.toNat ≤ 122 then some (c.toNat - 71)
  else if 48 ≤ c.toNat ∧ c.toNat ≤ 57 then some (c.toNat + 4)
  else if c = 43 then some 62
  else if c = 47 then some 63
  else none

/-- The bytes a base64 text (RFC 4648, with padding) stands for. -/
def unbase64 : GoStr → Option (List Byte)
  | [] => some []
  | [a, b, 61, 61] => do
    let a ← dec6 a
    let b ← dec6 b
    some [((a * 64 + b) / 16).toUInt8]
  | [a, b, c, 61] => do
    let a ← dec6 a
    let b ← dec6 b
    let c ← dec6 c
    some [((a * 4096 + b * 64 + c) / 1024).toUInt8, ((a * 4096 + b * 64 + c) / 4 % 256).toUInt8]
  | a :: b :: c :: d :: s => do
    let a ← dec6 a
    let b ← dec6 b
    let c ← dec6 c
    let d ← dec6 d
    let n := a * 262144 + b * 4096 + c * 64 + d
    let s ← unbase64 s
    some ((n / 65536).toUInt8 :: (n / 256 % 256).toUInt8 :: (n % 256).toUInt8 :: s)
  | _ => none

/-- The entities used in escaped text, and the characters they stand for. -/
def entities : List (GoStr × Byte) :=
  [(lit "&amp;", 38), (lit "&#39;", 39), (lit "&lt;", 60), (lit "&gt;", 62), (lit "&#34;", 34)]

/-- Text in which no character is special to HTML, except that `&` begins one of the entities; and what it stands for. -/
inductive Unescapes : GoStr → GoStr → Prop where
  | nil : Unescapes [] []
  | entity {e : GoStr} {c : Byte} {s t : GoStr} : (e, c) ∈ entities → Unescapes s t → Unescapes (e ++ s) (c :: t)
  | plain {c : Byte} {s t : GoStr} : c ∉ lit "&'<>\"" → Unescapes s t → Unescapes (c :: s) (c :: t)

end Verif.Spec
