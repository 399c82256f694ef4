import Verif.Spec.Mock
import Verif.Spec.Literal
import Verif.Spec.Describe

/-! # Reading the texts of scripted calls back -/

set_option autoImplicit false

namespace Verif.Spec

/-- The numeral that the text begins with, and the rest. -/
def number (s : GoStr) : Option (Int × GoStr) :=
  let num (b : Byte) : Bool := b = 45 || (48 ≤ b.toNat && b.toNat ≤ 57)
  (decimal (s.takeWhile num)).map fun n => (n, s.dropWhile num)

/-- A number of bytes. -/
def count (s : GoStr) : Option (Nat × GoStr) := (number s).bind fun q => if 0 ≤ q.1 then some (q.1.toNat, q.2) else none

/-- The second argument of `Seek`: a name or a number. -/
def whence (s : GoStr) : Option (Int × GoStr) :=
  ((afterPrefix (lit "io.SeekStart") s).map fun s => (0, s)) <|>
  ((afterPrefix (lit "io.SeekCurrent") s).map fun s => (1, s)) <|>
  ((afterPrefix (lit "io.SeekEnd") s).map fun s => (2, s)) <|>
  number s

/-- Read a call: `Mark("…")`, `Stat()`, `Read([n bytes])`, `ReadAt([n bytes], off)`, `Seek(off, whence)`, `Close()`, or `Nothing`; the
rest follows. -/
def readCall (s : GoStr) : Option (Option Request × GoStr) :=
  (do let s ← afterPrefix (lit "Mark(") s
      let q ← literal s
      let s ← afterPrefix (lit ")") q.2
      some (some (.mark q.1), s)) <|>
  (do let s ← afterPrefix (lit "Stat()") s
      some (some .stat, s)) <|>
  (do let s ← afterPrefix (lit "Read([") s
      let q ← count s
      let s ← afterPrefix (lit " bytes])") q.2
      some (some (.read q.1), s)) <|>
  (do let s ← afterPrefix (lit "ReadAt([") s
      let q ← count s
      let s ← afterPrefix (lit " bytes], ") q.2
      let r ← number s
      let s ← afterPrefix (lit ")") r.2
      some (some (.readAt q.1 r.1), s)) <|>
  (do let s ← afterPrefix (lit "Seek(") s
      let q ← number s
      let s ← afterPrefix (lit ", ") q.2
      let r ← whence s
      let s ← afterPrefix (lit ")") r.2
      some (some (.seek q.1 r.1), s)) <|>
  (do let s ← afterPrefix (lit "Close()") s
      some (some .close, s)) <|>
  (do let s ← afterPrefix (lit "Nothing") s
      some (none, s))

/-- Read `0x…,0x…,…]`: the bytes, and what follows; `fuel > len(s)` is enough. -/
def readBytes : Nat → GoStr → Option (List Byte × GoStr)
  | 0, _ => none
  | fuel + 1, s =>
    ((afterPrefix (lit "]") s).map fun s => ([], s)) <|>
    (do let s ← afterPrefix (lit "0x") s <|> afterPrefix (lit ",0x") s
        let q ← hexNum 2 0 s
        let r ← readBytes fuel q.2
        some (q.1.toUInt8 :: r.1, r.2))

/-- Read `[0x…,0x…,…]`. -/
def readSlice (s : GoStr) : Option (List Byte × GoStr) := (afterPrefix (lit "[") s).bind fun t => readBytes (t.length + 1) t

/-- Read a call in Go syntax, after `Expectation{`: the call, the bytes of its buffer, and the rest. -/
def readGoCall (s : GoStr) : Option (Option Request × List Byte × GoStr) :=
  (do let s ← afterPrefix (lit "MarkOp | ") s
      let q ← literal s
      some (some (.mark q.1), [], q.2)) <|>
  (do let s ← afterPrefix (lit "StatOp | ") s
      let s ← afterPrefix [0xE2, 0x88, 0x85] s
      some (some .stat, [], s)) <|>
  (do let s ← afterPrefix (lit "ReadOp | ") s
      let q ← readSlice s
      some (some (.read q.1.length), q.1, q.2)) <|>
  (do let s ← afterPrefix (lit "ReadAtOp | ") s
      let q ← readSlice s
      let s ← afterPrefix (lit ", ") q.2
      let r ← number s
      some (some (.readAt q.1.length r.1), q.1, r.2)) <|>
  (do let s ← afterPrefix (lit "SeekOp | ") s
      let q ← number s
      let s ← afterPrefix (lit ", ") q.2
      let r ← number s
      some (some (.seek q.1 r.1), [], r.2)) <|>
  (do let s ← afterPrefix (lit "CloseOp | ") s
      let s ← afterPrefix [0xE2, 0x88, 0x85] s
      some (some .close, [], s)) <|>
  (do let s ← afterPrefix (lit "UnknownOp | ") s
      some (none, [], s))

/-- What is shown of an error or a FileInfo. -/
def shownAny {α : Type} (text : α → GoStr) (a : Option α) : GoStr := a.elim (lit "nil") text

/-- `t` shows the answer. -/
def Shows {F : Type} (fi : F → GoStr) (err : Err → GoStr) (nothing : GoStr) : Answer F → GoStr → Prop
  | .marked, t => t = nothing
  | .stat f e, t => t = shownAny fi f ++ lit ", " ++ shownAny err e
  | .read d e, t => ∃ n, decimal n = some (d.length : Int) ∧ t = n ++ lit ", " ++ shownAny err e
  | .seek n e, t => ∃ k, decimal k = some n ∧ t = k ++ lit ", " ++ shownAny err e
  | .closed e, t => t = shownAny err e

end Verif.Spec
