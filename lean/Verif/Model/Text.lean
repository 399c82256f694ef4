import Verif.Model.Strconv

/-!
# Functions of Go's library on strings, as used by `/repo/response`

Go's own code is followed where it matters (`CanonicalMIMEHeaderKey`), otherwise only what it computes.
-/

set_option autoImplicit false

namespace Verif

/-! ## `textproto.CanonicalMIMEHeaderKey` (Go 1.17, net/textproto/reader.go), used by `http.Header.Set`, `Add`, `Del` -/

/-- `validHeaderFieldByte`: the characters of a token (RFC 7230). -/
def isToken (c : Byte) : Bool :=
  (48 ≤ c && c ≤ 57) || (65 ≤ c && c ≤ 90) || (97 ≤ c && c ≤ 122) || c ∈ lit "!#$%&'*+-.^_`|~"

/-- The second loop of `canonicalMIMEHeaderKey`. -/
def canonLoop : Bool → GoStr → GoStr
  | _, [] => []
  | upper, c :: s =>
    let c := if upper && 97 ≤ c && c ≤ 122 then c - 32 else if !upper && 65 ≤ c && c ≤ 90 then c + 32 else c
    c :: canonLoop (c == 45) s

/-- `canonicalMIMEHeaderKey`. -/
def canonSlow (a : GoStr) : GoStr := if a.all isToken then canonLoop true a else a

/-- The loop of `CanonicalMIMEHeaderKey`, at the rest `t` of the string `s`. -/
def canonScan (s : GoStr) : Bool → GoStr → GoStr
  | _, [] => s
  | upper, c :: t =>
    if !isToken c then s
    else if upper && 97 ≤ c && c ≤ 122 then canonSlow s
    else if !upper && 65 ≤ c && c ≤ 90 then canonSlow s
    else canonScan s (c == 45) t

/-- `http.CanonicalHeaderKey`, `textproto.CanonicalMIMEHeaderKey`. -/
def canon (s : GoStr) : GoStr := canonScan s true s

/-! ## `strings.TrimSpace` -/

/-- The UTF-8 encodings of the code points with the property White_Space (`unicode.IsSpace`). -/
def spaceCodes : List GoStr :=
  [[9], [10], [11], [12], [13], [32], [0xC2, 0x85], [0xC2, 0xA0], [0xE1, 0x9A, 0x80],
   [0xE2, 0x80, 0x80], [0xE2, 0x80, 0x81], [0xE2, 0x80, 0x82], [0xE2, 0x80, 0x83], [0xE2, 0x80, 0x84], [0xE2, 0x80, 0x85],
   [0xE2, 0x80, 0x86], [0xE2, 0x80, 0x87], [0xE2, 0x80, 0x88], [0xE2, 0x80, 0x89], [0xE2, 0x80, 0x8A],
   [0xE2, 0x80, 0xA8], [0xE2, 0x80, 0xA9], [0xE2, 0x80, 0xAF], [0xE2, 0x81, 0x9F], [0xE3, 0x80, 0x80]]

/-- Remove one of `codes` from the front, as long as there is one (`fuel`: the length is enough). -/
def stripFront (codes : List GoStr) : Nat → GoStr → GoStr
  | 0, s => s
  | fuel + 1, s =>
    match codes.find? (fun c => c.isPrefixOf s) with
    | some c => stripFront codes fuel (s.drop c.length)
    | none => s

/-- `strings.TrimSpace`.  A space at the end is one of the encodings as a suffix: the encodings are such that
`utf8.DecodeLastRune` then yields it. -/
def trimSpace (s : GoStr) : GoStr :=
  let s := stripFront spaceCodes s.length s
  (stripFront (spaceCodes.map List.reverse) s.length s.reverse).reverse

/-! ## `base64.StdEncoding.EncodeToString` -/

/-- The character for six bits. -/
def enc6 (n : Nat) : Byte :=
  (if n < 26 then 65 + n else if n < 52 then 71 + n else if n < 62 then n - 4 else if n = 62 then 43 else 47).toUInt8

/-- `base64.StdEncoding.EncodeToString`. -/
def base64 : List Byte → GoStr
  | a :: b :: c :: s =>
    let n := a.toNat * 65536 + b.toNat * 256 + c.toNat
    enc6 (n / 262144) :: enc6 (n / 4096 % 64) :: enc6 (n / 64 % 64) :: enc6 (n % 64) :: base64 s
  | [a, b] =>
    let n := a.toNat * 65536 + b.toNat * 256
    [enc6 (n / 262144), enc6 (n / 4096 % 64), enc6 (n / 64 % 64), 61]
  | [a] =>
    let n := a.toNat * 65536
    [enc6 (n / 262144), enc6 (n / 4096 % 64), 61, 61]
  | [] => []

/-! ## `html.EscapeString` -/

/-- What one byte is replaced by (Go 1.17, html/escape.go: `htmlEscaper`). -/
def escapeByte (c : Byte) : GoStr :=
  if c = 38 then lit "&amp;"
  else if c = 39 then lit "&#39;"
  else if c = 60 then lit "&lt;"
  else if c = 62 then lit "&gt;"
  else if c = 34 then lit "&#34;"
  else [c]

/-- `html.EscapeString`. -/
def escapeHTML (s : GoStr) : GoStr := s.flatMap escapeByte

/-! ## `fmt.Sprintf("%03d", i)` -/

/-- `%03d`: the sign counts for the width. -/
def fmt03d (i : Int) : GoStr :=
  if i < 0 then 45 :: (List.replicate (2 - (digits (i.natAbs + 1) i.natAbs).length) 48 ++ digits (i.natAbs + 1) i.natAbs)
  else List.replicate (3 - (itoa i).length) 48 ++ itoa i

end Verif
