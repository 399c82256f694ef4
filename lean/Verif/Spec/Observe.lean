import Verif.Spec.Cursor

/-! # Observations and the vocabulary of the property statements

Everything here is parameterised by an arbitrary step function: nothing refers to the model. -/

set_option autoImplicit false

namespace Verif.Spec

/-- The bytes delivered by the `Read`/`ReadAt` results in a list of observations, concatenated. -/
def delivered : List Out → List Byte
  | [] => []
  | .read d _ :: os => d ++ delivered os
  | _ :: os => delivered os

/-- The documented answer of `Seek(off, whence)` on an open body of length `n` at position `q`:
the new position, or the error. -/
def seekAnswer (n q : Nat) (off whence : Int) : Except Err Nat :=
  if whence = 0 then
    if off < 0 then .error (.negStart off) else .ok (min off.toNat n)
  else if whence = 1 ∨ whence = 2 then
    let t := off + (if whence = 1 then q else n)
    if t < 0 then .error (.negComputed t)
    else if t < 2 ^ 63 then .ok (min t.toNat n)
    else .error (.negComputed (t - 2 ^ 64))     -- not representable as int64
  else .error (.unknownWhence whence)

section
variable {S : Type} (step : S → Op → S × Out)

/-- The Body with handle `h` exists and is open: `Copy` returns a fresh Body. -/
def IsOpen (s : S) (h : Nat) : Prop := ∃ m, (step s (.copy h)).2 = .copied m

/-- There is a Body with handle `h`. -/
def Exists (s : S) (h : Nat) : Prop := (step s (.remaining h)).2 ≠ .unsupported

/-- From `s` every history of acceptable calls that all return has the observations of the cursors
`f`, for some admissible choices of the environment. -/
def Refines (cfg : Cfg) (Ok : Op → Prop) (Allowed : Choice → Prop) (s : S) (f : List Cursor) : Prop :=
  ∀ ops : List Op, (∀ op ∈ ops, Ok op) → Out.hang ∉ (Verif.run step s ops).2 →
    ∃ chs : List Choice, chs.length = ops.length ∧ (∀ ch ∈ chs, Allowed ch) ∧
      (Verif.run step s ops).2 = (Spec.run cfg f (chs.zip ops)).2

/-- `Seek` on the open Body `h`, of length `data.length` and at position
`q = data.length - BytesRemaining`, moves to `min target length` and the Body then delivers the
content from there; or it fails with the documented error and changes nothing. -/
def SeekClamped (data : List Byte) (s : S) (h : Nat) : Prop :=
  ∃ q : Nat, q ≤ data.length ∧ (step s (.remaining h)).2 = .remaining (data.length - q : Int) ∧
    ∀ off whence : Int, IsI64 off →
      let s' := (step s (.seek h off whence)).1
      match seekAnswer data.length q off whence with
      | .ok p =>
        (step s (.seek h off whence)).2 = .seek p none ∧
        (step s' (.remaining h)).2 = .remaining (data.length - p : Int) ∧
        ∀ ks : List Nat,
          delivered (Verif.run step s' (ks.map (Op.read h))).2 = (data.drop p).take ks.sum
      | .error e => (step s (.seek h off whence)).2 = .seek (-1) (some e) ∧ s' = s

/-- `Seek` on the open Body `h` follows the documented arithmetic for some length `n` (at most `cap`) and position `q`, which
`BytesRemaining` reflects as long as `q ≤ n`; after a successful `Seek` to `p` the position is `p` and the length still `n`; a
failed one changes nothing.  (For Bodies whose reader may misbehave, so that nothing is said about the bytes.) -/
def SeekArith (cap : Nat) (s : S) (h : Nat) : Prop :=
  ∃ n q : Nat, n ≤ cap ∧ (q ≤ n → (step s (.remaining h)).2 = .remaining (n - q : Int)) ∧
    ∀ off whence : Int, IsI64 off →
      match seekAnswer n q off whence with
      | .ok p =>
        (step s (.seek h off whence)).2 = .seek p none ∧
        (step (step s (.seek h off whence)).1 (.remaining h)).2 = .remaining (n - p : Int) ∧
        ∀ off' whence' : Int, IsI64 off' → (step (step s (.seek h off whence)).1 (.seek h off' whence')).2 =
          match seekAnswer n p off' whence' with
          | .ok p' => .seek p' none
          | .error e => .seek (-1) (some e)
      | .error e => step s (.seek h off whence) = (s, .seek (-1) (some e))

/-- `ReadAt` on `h` is a positional read of `data` and has no effect whatsoever on the state. -/
def ReadAtPure (data : List Byte) (s : S) (h : Nat) : Prop :=
  ∀ (k : Nat) (off : Int), IsI64 off →
    (step s (.readAt h k off)).1 = s ∧
    (off < 0 → (step s (.readAt h k off)).2 = .read [] (some (.negReadAt off))) ∧
    (0 ≤ off → (step s (.readAt h k off)).2 =
      .read ((data.drop off.toNat).take k) (if data.length - off.toNat < k then some .eof else none)
      ∨ (data ≠ [] ∧ 0 < k ∧ data.length = off.toNat + k ∧ (step s (.readAt h k off)).2 =
      .read ((data.drop off.toNat).take k) (some .eof)))

/-- Every call on `h` is answered as on a closed Body, and changes nothing. -/
def Inert (seekable drains : Bool) (s : S) (h : Nat) : Prop :=
  (∀ op : Op, op.h = h → (step s op).1 = s) ∧
  (∀ k, (step s (.read h k)).2 = .read [] (some .closed)) ∧
  (∀ k off, (step s (.readAt h k off)).2 = if seekable then .read [] (some .closed) else .unsupported) ∧
  (∀ off wh, (step s (.seek h off wh)).2 = if seekable then .seek (-1) (some .closed) else .unsupported) ∧
  (∀ w, (step s (.writeTo h w)).2 = if drains then .wrote none 0 (some .closed) else .unsupported) ∧
  (step s (.remaining h)).2 = .remaining 0 ∧
  (step s (.copy h)).2 = .copiedClosed ∧
  (step s (.close h)).2 = .closed (some .closed) ∧
  (step s (.unwrap h)).2 = .unwrap false

/-- The value `n` of `BytesRemaining` on `h` is exact: reading delivers `n` bytes, no more, no fewer. -/
def RemainingExact (s : S) (h : Nat) : Prop :=
  ∃ n : Nat, (step s (.remaining h)).2 = .remaining n ∧
    ∀ ks : List Nat, (delivered (Verif.run step s (ks.map (Op.read h))).2).length = min n ks.sum

/-- The call cannot shorten what is still to be read without delivering it: a `WriteTo` whose writer
neither accepts everything nor reports an impossible count nor panics is excluded. -/
def NoPartialWrite : Op → Prop
  | .writeTo _ w => ∀ (d : List Byte) n e, w d = .ok (n, e) → ¬ (0 ≤ n ∧ n < d.length)
  | _ => True

end
end Verif.Spec
