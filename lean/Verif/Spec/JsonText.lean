import Verif.Spec.Json

/-!
# The grammar of JSON texts

RFC 8259, sections 2 to 7, rule by rule, for bytes.  The RFC speaks of characters; here the characters of a string that are not escaped are bytes, so
that a text need not be UTF-8.  `n` counts how many arrays and objects are inside one another.
-/

set_option autoImplicit false

namespace Verif.Spec.Json

/-- `ws` -/
def Ws (w : GoStr) : Prop := ∀ b ∈ w, b = 32 ∨ b = 9 ∨ b = 10 ∨ b = 13

/-- `*DIGIT` -/
def Digs (d : GoStr) : Prop := ∀ b ∈ d, 48 ≤ b.toNat ∧ b.toNat ≤ 57

/-- `int`: no leading zeros -/
inductive IsInt : GoStr → Prop
  | zero : IsInt [48]
  | pos {b : Byte} {d : GoStr} : 49 ≤ b.toNat → b.toNat ≤ 57 → Digs d → IsInt (b :: d)

/-- `[ frac ]` -/
inductive IsFrac : GoStr → Prop
  | no : IsFrac []
  | yes {d : GoStr} : Digs d → d ≠ [] → IsFrac (46 :: d)

/-- `[ exp ]` -/
inductive IsExp : GoStr → Prop
  | no : IsExp []
  | yes {e : Byte} {s d : GoStr} : e = 101 ∨ e = 69 → s = [] ∨ s = [43] ∨ s = [45] → Digs d → d ≠ [] → IsExp (e :: (s ++ d))

/-- `number` -/
def IsNumber (t : GoStr) : Prop := ∃ s i f x, t = s ++ i ++ f ++ x ∧ (s = [] ∨ s = [45]) ∧ IsInt i ∧ IsFrac f ∧ IsExp x

/-- `HEXDIG` -/
def Hexdig (b : Byte) : Prop := (48 ≤ b.toNat ∧ b.toNat ≤ 57) ∨ (97 ≤ b.toNat ∧ b.toNat ≤ 102) ∨ (65 ≤ b.toNat ∧ b.toNat ≤ 70)

/-- `*char` -/
inductive IsChars : GoStr → Prop
  | nil : IsChars []
  | plain {b : Byte} {t : GoStr} : 32 ≤ b.toNat → b ≠ 34 → b ≠ 92 → IsChars t → IsChars (b :: t)
  | escape {b : Byte} {t : GoStr} : b ∈ lit "\"\\/bfnrt" → IsChars t → IsChars (92 :: b :: t)
  | unit {a b c d : Byte} {t : GoStr} : Hexdig a → Hexdig b → Hexdig c → Hexdig d → IsChars t → IsChars (92 :: 117 :: a :: b :: c :: d :: t)

mutual

/-- `value` -/
inductive IsValue : Nat → GoStr → Prop
  | null : IsValue 0 (lit "null")
  | yes : IsValue 0 (lit "true")
  | no : IsValue 0 (lit "false")
  | number {t : GoStr} : IsNumber t → IsValue 0 t
  | string {t : GoStr} : IsChars t → IsValue 0 ([34] ++ t ++ [34])
  | noElement {w : GoStr} : Ws w → IsValue 1 ([91] ++ w ++ [93])
  | array {n : Nat} {t : GoStr} : IsElements n t → IsValue (n + 1) ([91] ++ t ++ [93])
  | noMember {w : GoStr} : Ws w → IsValue 1 ([123] ++ w ++ [125])
  | object {n : Nat} {t : GoStr} : IsMembers n t → IsValue (n + 1) ([123] ++ t ++ [125])

/-- `value *( value-separator value )`, with blanks -/
inductive IsElements : Nat → GoStr → Prop
  | one {n : Nat} {w v w' : GoStr} : Ws w → IsValue n v → Ws w' → IsElements n (w ++ v ++ w')
  | more {n m : Nat} {w v w' t : GoStr} : Ws w → IsValue n v → Ws w' → IsElements m t → IsElements (max n m) (w ++ v ++ w' ++ [44] ++ t)

/-- `member *( value-separator member )`, with blanks -/
inductive IsMembers : Nat → GoStr → Prop
  | one {n : Nat} {w k w1 w2 v w' : GoStr} : Ws w → IsChars k → Ws w1 → Ws w2 → IsValue n v → Ws w' →
      IsMembers n (w ++ ([34] ++ k ++ [34]) ++ w1 ++ [58] ++ w2 ++ v ++ w')
  | more {n m : Nat} {w k w1 w2 v w' t : GoStr} : Ws w → IsChars k → Ws w1 → Ws w2 → IsValue n v → Ws w' → IsMembers m t →
      IsMembers (max n m) (w ++ ([34] ++ k ++ [34]) ++ w1 ++ [58] ++ w2 ++ v ++ w' ++ [44] ++ t)

end

/-- `JSON-text` -/
def IsText (n : Nat) (t : GoStr) : Prop := ∃ w v w', t = w ++ v ++ w' ∧ Ws w ∧ IsValue n v ∧ Ws w'

/-! ## Blanks -/

/-- Outside of strings, in one, or in one after a backslash. -/
inductive Place where
  | out
  | inside
  | escaped
deriving DecidableEq

def Place.next : Place → Byte → Place
  | .out, c => if c = 34 then .inside else .out
  | .inside, c => if c = 34 then .out else if c = 92 then .escaped else .inside
  | .escaped, _ => .inside

/-- A text without the blanks outside of its strings. -/
def bare : Place → GoStr → GoStr
  | _, [] => []
  | p, c :: t => if p = .out ∧ (c = 32 ∨ c = 9 ∨ c = 10 ∨ c = 13) then bare (p.next c) t else c :: bare (p.next c) t

/-- The texts differ at most in blanks outside of strings. -/
def SameButBlanks (t u : GoStr) : Prop := bare .out t = bare .out u

/-! ## Values -/

/-- The names of fields in a value. -/
inductive FieldNamed : JVal → Prop
  | null : FieldNamed .null
  | bool (b : Bool) : FieldNamed (.bool b)
  | int (i : Int) : FieldNamed (.int i)
  | number (t : GoStr) : FieldNamed (.number t)
  | str (s : GoStr) : FieldNamed (.str s)
  | bad (e : Err) : FieldNamed (.bad e)
  | raw (s : List Char) : FieldNamed (.raw s)
  | own (t : GoStr) : FieldNamed (.own t)
  | arr {l : List JVal} : (∀ v ∈ l, FieldNamed v) → FieldNamed (.arr l)
  | struct {l : List (GoStr × JVal)} : (∀ p ∈ l, FieldName p.1) → (∀ p ∈ l, FieldNamed p.2) → FieldNamed (.struct l)
  | map {l : List (GoStr × JVal)} : (∀ p ∈ l, FieldNamed p.2) → FieldNamed (.map l)

/-- A value has a JSON text, which is nested at most `n` levels: its numbers are numbers, what encodes itself does so as a text. -/
inductive Fits : Nat → JVal → Prop
  | null (n : Nat) : Fits n .null
  | bool (n : Nat) (b : Bool) : Fits n (.bool b)
  | int (n : Nat) (i : Int) : Fits n (.int i)
  | zero (n : Nat) : Fits n (.number [])
  | number (n : Nat) {t : GoStr} : IsNumber t → Fits n (.number t)
  | str (n : Nat) (s : GoStr) : Fits n (.str s)
  | arr {n : Nat} {l : List JVal} : (∀ v ∈ l, Fits n v) → Fits (n + 1) (.arr l)
  | struct {n : Nat} {l : List (GoStr × JVal)} : (∀ p ∈ l, Fits n p.2) → Fits (n + 1) (.struct l)
  | map {n : Nat} {l : List (GoStr × JVal)} : (∀ p ∈ l, Fits n p.2) → Fits (n + 1) (.map l)
  | raw {m n : Nat} {s : List Char} : m ≤ n → IsText m (utf8 s) → Fits n (.raw s)
  | own {m n : Nat} {t : GoStr} : m ≤ n → IsText m t → Fits n (.own t)

/-- A value without parts. -/
def Simple : JVal → Prop
  | .arr _ | .struct _ | .map _ => False
  | _ => True

end Verif.Spec.Json
