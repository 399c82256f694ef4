import Verif.Spec.Text
import Verif.Spec.Decimal
import Verif.Spec.Literal

/-!
# How a client reads responses (RFC 7230)

`strict`: a line ends with CR LF; otherwise with LF, perhaps after CR.
-/

set_option autoImplicit false

namespace Verif.Spec.Wire

structure Message where
  status : Nat
  fields : List (GoStr × GoStr)
  body : List Byte
deriving DecidableEq, Repr

/-- A line without its end, and the rest. -/
def line (strict : Bool) (s : GoStr) : Option (GoStr × GoStr) :=
  match s.dropWhile (· ≠ 10) with
  | [] => none
  | _ :: rest =>
    let l := s.takeWhile (· ≠ 10)
    if l.getLast? = some 13 then (if strict && decide (13 ∈ l.dropLast) then none else some (l.dropLast, rest))
    else if strict then none
    else some (l, rest)

/-- Space or tab. -/
def ows (c : Byte) : Bool := c = 32 || c = 9

def strip (s : GoStr) : GoStr := ((s.dropWhile ows).reverse.dropWhile ows).reverse

def isName (k : GoStr) : Bool := k ≠ [] && k.all fun c => c ∈ lit "!#$%&'*+-.^_`|~0123456789ABCDEFGHIJKLMNOPQRSTUVWXYZabcdefghijklmnopqrstuvwxyz"

/-- A field: a name, a colon and a value. -/
def field (l : GoStr) : Option (GoStr × GoStr) :=
  match l.dropWhile (· ≠ 58) with
  | [] => none
  | _ :: v => if isName (l.takeWhile (· ≠ 58)) then some (l.takeWhile (· ≠ 58), strip v) else none

/-- The fields up to an empty line, and the rest. -/
def fields (strict : Bool) : Nat → GoStr → Option (List (GoStr × GoStr) × GoStr)
  | 0, _ => none
  | fuel + 1, s => do
    let (l, rest) ← line strict s
    if l = [] then some ([], rest)
    else
      let f ← field l
      let (fs, rest) ← fields strict fuel rest
      some (f :: fs, rest)

/-- The code in a status line. -/
def statusCode (l : GoStr) : Option Nat :=
  if l.take 9 = lit "HTTP/1.1 " ∧ ((l.drop 9).takeWhile (· ≠ 32)).length = 3 then natValue ((l.drop 9).takeWhile (· ≠ 32)) else none

/-- The values of a field; names are compared without regard to case. -/
def valuesOf (fs : List (GoStr × GoStr)) (name : GoStr) : List GoStr := (fs.filter fun f => lower f.1 = name).map (·.2)

def hexValue (s : GoStr) : Option Nat :=
  if s = [] then none else s.foldl (fun a c => do return 16 * (← a) + (← hexDigit c)) (some 0)

/-- Chunks, up to and with the trailer. -/
def chunks (strict : Bool) : Nat → GoStr → Option (List Byte × GoStr)
  | 0, _ => none
  | fuel + 1, s => do
    let (l, rest) ← line strict s
    let n ← hexValue (strip (l.takeWhile (· ≠ 59)))
    if n = 0 then
      let (_, rest) ← fields strict (fuel + 1) rest
      some ([], rest)
    else if rest.length < n then none
    else
      let (e, after) ← line strict (rest.drop n)
      if e ≠ [] then none
      else
        let (d, after) ← chunks strict fuel after
        some (rest.take n ++ d, after)

/-- The number of bytes that a Content-Length field gives. -/
def lengthOf (v : GoStr) : Option Nat := if v = [] then none else natValue v

/-- What comes after the fields (RFC 7230, section 3.3.3). -/
def body (strict isHEAD : Bool) (status : Nat) (fs : List (GoStr × GoStr)) (s : GoStr) : Option (List Byte × GoStr) :=
  if isHEAD ∨ status < 200 ∨ status = 204 ∨ status = 304 then some ([], s)
  else
    match valuesOf fs (lit "transfer-encoding") with
    | [] =>
      match valuesOf fs (lit "content-length") with
      | [] => some (s, [])                                                -- up to the end of the connection
      | v :: vs => do
        let n ← lengthOf v
        if vs.all (fun u => lengthOf u = some n) ∧ n ≤ s.length then some (s.take n, s.drop n) else none
    | [v] =>
      if lower v = lit "chunked" ∧ valuesOf fs (lit "content-length") = [] then chunks strict (s.length + 1) s else none
    | _ => none                                                           -- other encodings, not for us

/-- A response, and what follows it on the connection. -/
def receive (strict isHEAD : Bool) (s : GoStr) : Option (Message × GoStr) := do
  let (l, rest) ← line strict s
  let status ← statusCode l
  let (fs, rest) ← fields strict (s.length + 1) rest
  let (b, rest) ← body strict isHEAD status fs rest
  some ({ status, fields := fs, body := b }, rest)

/-- One response after the other, for requests of which some are HEAD, and nothing after them. -/
def receiveAll (strict : Bool) : List Bool → GoStr → Option (List Message)
  | [], s => if s = [] then some [] else none
  | isHEAD :: l, s => do
    let (m, s) ← receive strict isHEAD s
    let ms ← receiveAll strict l s
    some (m :: ms)

end Verif.Spec.Wire
