import Verif.Model.Push
import Verif.Spec.Delivery

/-! # What may be pushed to a client of HTTP/2 -/

set_option autoImplicit false

namespace Verif.Spec.Push

/-- Every `%` is followed by two hexadecimal digits. -/
inductive Escaped : GoStr → Prop
  | nil : Escaped []
  | plain {c : Byte} {s : GoStr} : c ≠ 37 → Escaped s → Escaped (c :: s)
  | code {a b : Byte} {s : GoStr} : a ∈ lit "0123456789abcdefABCDEF" → b ∈ lit "0123456789abcdefABCDEF" → Escaped s → Escaped (37 :: a :: b :: s)

/-- `authority` and `path`, as after `//`. -/
structure Parts (auth path : GoStr) : Prop where
  auth : 47 ∉ auth
  rooted : path = [] ∨ path.head? = some 47
  escaped : Escaped path

/-- An absolute path on the host of the request. -/
structure Local (s : GoStr) : Prop where
  absolute : s.head? = some 47
  single : s.take 2 ≠ lit "//" ∨ s.take 3 = lit "///"
  escaped : Escaped s

/-- A target without its query and fragment: an absolute path, a URL without a scheme whose authority is accepted, or a URL of the scheme of the request (in
small or capital letters) with a host. -/
def Place (scheme : GoStr) (authority : GoStr → Option GoStr) (s : GoStr) : Prop :=
  Local s ∨
  (∃ auth path, s = lit "//" ++ (auth ++ path) ∧ Parts auth path ∧ ¬ (auth = [] ∧ path ≠ []) ∧ authority auth ≠ none) ∨
  (∃ sch auth path host, s = sch ++ lit "://" ++ (auth ++ path) ∧ sch.map (fun c => if 65 ≤ c ∧ c ≤ 90 then c + 32 else c) = scheme ∧ Parts auth path ∧
    authority auth = some host ∧ host ≠ [])

/-- What a server of the scheme may push: a place with, possibly, a query and a fragment. -/
def Pushable (scheme : GoStr) (authority : GoStr → Option GoStr) (t : GoStr) : Prop :=
  ∃ place query frag : GoStr, t = place ++ query ++ frag ∧ 63 ∉ place ∧ 35 ∉ place ∧ Place scheme authority place ∧
    (query = [] ∨ query.head? = some 63) ∧ 35 ∉ query ∧ (∀ c ∈ place ++ query, 32 ≤ c ∧ c ≠ 127) ∧
    (frag = [] ∨ ∃ f, frag = 35 :: f ∧ Escaped f)

/-- No push fails: the request is not itself a pushed one, all targets are such, and the connection has accepted each of them, or does not do pushes. -/
def GoWell (E : H2) (urls : List GoStr) : Prop :=
  (urls ≠ [] → E.isPushed = false) ∧ (∀ t ∈ urls, Pushable E.scheme E.authority t) ∧
  ∀ k < urls.length, E.answer k = none ∨ E.answer k = some .notSupported

/-- The targets that the connection has accepted. -/
def accepted (E : H2) : Nat → List GoStr → List GoStr
  | _, [] => []
  | k, t :: l => if E.answer k = none then t :: accepted E (k + 1) l else accepted E (k + 1) l

end Verif.Spec.Push
