import Verif.Spec.Observe
import Verif.Model.Reader

/-! # What is expected of Bodies over an `io.ReaderAt` or an `io.ReadSeeker`

Nothing here mentions the model of these bodies. -/

set_option autoImplicit false

namespace Verif.Spec
variable {σ : Type}

/-- Kind of family made from an `io.ReaderAt` or `io.Seeker`, of length `L`. -/
def posCfg (L : Int) : Cfg := { fin := .eof, seekable := true, drains := false, backed := true, declared := L }

/-- `R` honours the contract of `io.ReaderAt` on the unchanging content `F` and does not fail: it delivers
what exists of the requested range, with `io.EOF` if that is less than was asked for; `io.EOF` may also
come with the last bytes.  `Inv` holds of all its states. -/
structure IsReaderAt (R : Rdr σ) (F : List Byte) (Inv : σ → Prop) : Prop where
  closeOk : R.CloseOk
  readAt : ∀ st x (off : Int), Inv st → 0 ≤ off → off < 2 ^ 63 → ∃ st' e,
    R.readAt st x off = (st', .got ((F.drop off.toNat).take x) e) ∧ Inv st' ∧
    (((F.drop off.toNat).take x).length < x → e = some .eof) ∧ (off.toNat + x < F.length → e = none) ∧
    (e = none ∨ e = some .eof)

/-- `R` is an `io.ReadSeeker` over the unchanging content `F` which does not fail and whose `Read` fills the
buffer while there is data.  `At st p`: it stands at `p`. -/
structure IsFullSeeker (R : Rdr σ) (F : List Byte) (At : σ → Nat → Prop) : Prop where
  closeOk : R.CloseOk
  seek : ∀ st p (off : Int), At st p → 0 ≤ off → off < 2 ^ 63 → ∃ st' n, R.seek st off 0 = (st', .ok (n, none)) ∧ At st' off.toNat
  read : ∀ st p x, At st p → ∃ st' e, R.read st x = (st', .got ((F.drop p).take x) e) ∧
    At st' (p + ((F.drop p).take x).length) ∧ (p + x < F.length → e = none) ∧ (e = none ∨ e = some .eof)

/-- `R` is an `io.ReadSeeker` over the unchanging content `F` which does not fail and honours the contract of
`io.Reader`: while there is data and room, `Read` delivers at least one byte (but maybe fewer than fit); `io.EOF`
comes at the end, possibly with the last bytes. -/
structure IsSeeker (R : Rdr σ) (F : List Byte) (At : σ → Nat → Prop) : Prop where
  closeOk : R.CloseOk
  seek : ∀ st p (off : Int), At st p → 0 ≤ off → off < 2 ^ 63 → ∃ st' n, R.seek st off 0 = (st', .ok (n, none)) ∧ At st' off.toNat
  read : ∀ st p x, At st p → 0 < x → ∃ st' d e, R.read st x = (st', .got d e) ∧ d.length ≤ x ∧
    d = (F.drop p).take d.length ∧ At st' (p + d.length) ∧ (p < F.length → 0 < d.length) ∧
    (p + d.length < F.length → e = none) ∧ (F.length ≤ p → e = some .eof) ∧ (e = none ∨ e = some .eof)

/-- `R` may fail at any time and in any way, return short counts, break its contract or panic, but what
it delivers from position `off` is what `F` has there. -/
structure IsHonestReaderAt (R : Rdr σ) (F : List Byte) (Inv : σ → Prop) : Prop where
  readAt : ∀ st x (off : Int), Inv st → Inv (R.readAt st x off).1 ∧
    ∀ d e, (R.readAt st x off).2 = .got d e → d.length ≤ x → 0 ≤ off → d = (F.drop off.toNat).take d.length

/-- The same for an `io.ReadSeeker`: after a successful `Seek` it stands at the given position, and reads
what `F` has there; it may fail at any time and read short. -/
structure IsHonestSeeker (R : Rdr σ) (F : List Byte) (Inv : σ → Prop) (At : σ → Nat → Prop) : Prop where
  seek : ∀ st (off : Int), Inv st → Inv (R.seek st off 0).1 ∧
    (0 ≤ off → (∃ n, (R.seek st off 0).2 = .ok (n, none)) → At (R.seek st off 0).1 off.toNat)
  read : ∀ st x, Inv st → Inv (R.read st x).1 ∧
    ∀ p d e, At st p → (R.read st x).2 = .got d e → d.length ≤ x → d = (F.drop p).take d.length

/-- `ReadAt` on `h` answers as a positional read of `data` does: the bytes that exist of the requested range,
`io.EOF` if they are fewer than asked for (it may also come with the last byte); negative offsets are rejected. -/
def ReadAtExact {S : Type} (step : S → Op → S × Out) (data : List Byte) (s : S) (h : Nat) : Prop :=
  ∀ (k : Nat) (off : Int), IsI64 off →
    (off < 0 → (step s (.readAt h k off)).2 = .read [] (some (.negReadAt off))) ∧
    (0 ≤ off → (step s (.readAt h k off)).2 =
        .read ((data.drop off.toNat).take k) (if data.length - off.toNat < k then some .eof else none) ∨
      (0 < k ∧ data.length = off.toNat + k ∧
        (step s (.readAt h k off)).2 = .read ((data.drop off.toNat).take k) (some .eof)))

/-- A panic passed on from, or reporting an impossible count of, the reader: its last answer in the log. -/
def BlamePos (p : Panic) (ext : List Call) : Prop :=
  (∃ pre n c r, ext = pre ++ [c] ∧ (c = .read n r ∨ ∃ off, c = .readAt n off r) ∧
    ((p = .badReader ∧ (r = .negative ∨ ∃ d e, r = .got d e ∧ n < d.length)) ∨ r = .panics p)) ∨
  (∃ pre off wh, ext = pre ++ [.seek off wh (.panics p)]) ∨ (∃ pre, ext = pre ++ [.close (.panics p)])

/-- Where the Bodies of a family stand, judging by what the calls returned: a `Read` moves on by the number of
bytes delivered, a successful `Seek` to the position it returned, a copy starts where the original stands. -/
def trackPos (ps : List Nat) : Op → Out → List Nat
  | .read h _, .read d _ => ps.modify h (· + d.length)
  | .seek h _ _, .seek n none => ps.set h n.toNat
  | .copy h, .copied _ => ps ++ [(ps[h]?).getD 0]
  | _, _ => ps

/-- The same for a history. -/
def track (ps : List Nat) : List Op → List Out → List Nat
  | op :: ops, o :: os => track (trackPos ps op o) ops os
  | _, _ => ps

/-- The call may take Body `h` out of the state in which it keeps reporting an error: a successful `Seek` on it,
or closing it. -/
def Revives (h : Nat) : Op → Out → Prop
  | .seek h' _ _, .seek _ none => h' = h
  | .close h', _ => h' = h
  | _, _ => False

end Verif.Spec
