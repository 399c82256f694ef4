import Verif.Basic

/-!
# `strconv.Quote`

Used at `/repo/internal/mockreader/mockreader.go:105, 160`.  Follows Go 1.17: `appendQuotedWith` and `appendEscapedRune`
(strconv/quote.go) with the quote `"`, `utf8.DecodeRuneInString` and `utf8.EncodeRune` (unicode/utf8/utf8.go).  Which runes are
printable (`strconv.IsPrint`) is a parameter.  Bit masks and shifts are written as remainders and multiplications.
-/

set_option autoImplicit false

namespace Verif

/-- `utf8.RuneError`. -/
def runeError : Nat := 0xFFFD

/-- `utf8.DecodeRuneInString`: the rune and the number of bytes.  The table `first` and `acceptRanges` are spelled out. -/
def decodeRune : List Byte → Nat × Nat
  | [] => (runeError, 0)
  | b0 :: rest =>
    let x := b0.toNat
    if x < 0x80 then (x, 1)
    else if x < 0xC2 ∨ 0xF4 < x then (runeError, 1)
    else match rest with
      | [] => (runeError, 1)
      | b1 :: rest =>
        let lo := if x = 0xE0 then 0xA0 else if x = 0xF0 then 0x90 else 0x80
        let hi := if x = 0xED then 0x9F else if x = 0xF4 then 0x8F else 0xBF
        if b1.toNat < lo ∨ hi < b1.toNat then (runeError, 1)
        else if x < 0xE0 then (x % 32 * 64 + b1.toNat % 64, 2)
        else match rest with
          | [] => (runeError, 1)
          | b2 :: rest =>
            if b2.toNat < 0x80 ∨ 0xBF < b2.toNat then (runeError, 1)
            else if x < 0xF0 then (x % 16 * 4096 + b1.toNat % 64 * 64 + b2.toNat % 64, 3)
            else match rest with
              | [] => (runeError, 1)
              | b3 :: _ =>
                if b3.toNat < 0x80 ∨ 0xBF < b3.toNat then (runeError, 1)
                else (x % 8 * 262144 + b1.toNat % 64 * 4096 + b2.toNat % 64 * 64 + b3.toNat % 64, 4)

/-- `utf8.EncodeRune`. -/
def encodeRune (r : Nat) : List Byte :=
  if r < 0x80 then [r.toUInt8]
  else if r < 0x800 then [(0xC0 + r / 64).toUInt8, (0x80 + r % 64).toUInt8]
  else if r > 0x10FFFF ∨ (0xD800 ≤ r ∧ r ≤ 0xDFFF) then [0xEF, 0xBF, 0xBD]
  else if r < 0x10000 then [(0xE0 + r / 4096).toUInt8, (0x80 + r / 64 % 64).toUInt8, (0x80 + r % 64).toUInt8]
  else [(0xF0 + r / 262144).toUInt8, (0x80 + r / 4096 % 64).toUInt8, (0x80 + r / 64 % 64).toUInt8, (0x80 + r % 64).toUInt8]

/-- `lowerhex[n]`, for `n < 16`. -/
def lowerHex (n : Nat) : Byte := (if n < 10 then 48 + n else 87 + n).toUInt8

/-- `appendEscapedRune`. -/
def escapeRune (isPrint : Nat → Bool) (r : Nat) : List Byte :=
  if r = 34 ∨ r = 92 then [92, r.toUInt8]
  else if isPrint r then encodeRune r
  else if r = 7 then lit "\\a"
  else if r = 8 then lit "\\b"
  else if r = 12 then lit "\\f"
  else if r = 10 then lit "\\n"
  else if r = 13 then lit "\\r"
  else if r = 9 then lit "\\t"
  else if r = 11 then lit "\\v"
  else if r < 32 then lit "\\x" ++ [lowerHex (r / 16), lowerHex (r % 16)]
  else
    let r := if r > 0x10FFFF then 0xFFFD else r
    if r < 0x10000 then lit "\\u" ++ [lowerHex (r / 4096 % 16), lowerHex (r / 256 % 16), lowerHex (r / 16 % 16), lowerHex (r % 16)]
    else lit "\\U" ++ [lowerHex (r / 268435456 % 16), lowerHex (r / 16777216 % 16), lowerHex (r / 1048576 % 16), lowerHex (r / 65536 % 16),
      lowerHex (r / 4096 % 16), lowerHex (r / 256 % 16), lowerHex (r / 16 % 16), lowerHex (r % 16)]

/-- The loop of `appendQuotedWith`; `fuel = len(s)` is enough. -/
def quoteLoop (isPrint : Nat → Bool) : Nat → List Byte → List Byte
  | 0, _ => []
  | _ + 1, [] => []
  | fuel + 1, b0 :: rest =>
    let q := if b0.toNat ≥ 0x80 then decodeRune (b0 :: rest) else (b0.toNat, 1)
    if q.2 = 1 ∧ q.1 = runeError then
      lit "\\x" ++ [lowerHex (b0.toNat / 16), lowerHex (b0.toNat % 16)] ++ quoteLoop isPrint fuel ((b0 :: rest).drop q.2)
    else escapeRune isPrint q.1 ++ quoteLoop isPrint fuel ((b0 :: rest).drop q.2)

/-- `strconv.Quote(s)`. -/
def quote (isPrint : Nat → Bool) (s : GoStr) : GoStr := [34] ++ quoteLoop isPrint s.length s ++ [34]

end Verif
