import Verif.Basic

/-! # Reading Go string literals

As in "String literals" and "Rune literals" of the Go language specification (interpreted string literals, without octal escapes). -/

set_option autoImplicit false

namespace Verif.Spec

/-- The value of a hexadecimal digit. -/
def hexDigit (b : Byte) : Option Nat :=
  if 48 ≤ b.toNat ∧ b.toNat ≤ 57 then some (b.toNat - 48)
  else if 97 ≤ b.toNat ∧ b.toNat ≤ 102 then some (b.toNat - 87)
  else if 65 ≤ b.toNat ∧ b.toNat ≤ 70 then some (b.toNat - 55)
  else none

/-- The value of the first `k` hexadecimal digits, and the rest. -/
def hexNum : Nat → Nat → GoStr → Option (Nat × GoStr)
  | 0, a, s => some (a, s)
  | _ + 1, _, [] => none
  | k + 1, a, b :: s => (hexDigit b).bind fun d => hexNum k (16 * a + d) s

/-- The escapes with one character. -/
def simpleEscape : List (Byte × Byte) := [(97, 7), (98, 8), (102, 12), (110, 10), (114, 13), (116, 9), (118, 11), (92, 92), (34, 34)]

/-- What an escape stands for (without the backslash), and the rest. -/
def escape : GoStr → Option (List Byte × GoStr)
  | [] => none
  | c :: s =>
    if c = 120 then (hexNum 2 0 s).map fun q => ([q.1.toUInt8], q.2)
    else if c = 117 then (hexNum 4 0 s).bind fun q => if q.1.isValidChar then some (String.utf8EncodeChar (Char.ofNat q.1), q.2) else none
    else if c = 85 then (hexNum 8 0 s).bind fun q => if q.1.isValidChar then some (String.utf8EncodeChar (Char.ofNat q.1), q.2) else none
    else (simpleEscape.lookup c).map fun v => ([v], s)

/-- The bytes up to the closing quote, and the rest; `fuel > len(s)` is enough. -/
def literalBody : Nat → GoStr → Option (GoStr × GoStr)
  | 0, _ => none
  | _ + 1, [] => none
  | fuel + 1, b :: s =>
    if b = 34 then some ([], s)
    else if b = 92 then (escape s).bind fun q => (literalBody fuel q.2).map fun r => (q.1 ++ r.1, r.2)
    else (literalBody fuel s).map fun r => (b :: r.1, r.2)

/-- The string which the text begins with, as a literal, and the rest of the text. -/
def literal : GoStr → Option (GoStr × GoStr)
  | [] => none
  | b :: s => if b = 34 then literalBody (s.length + 1) s else none

end Verif.Spec
