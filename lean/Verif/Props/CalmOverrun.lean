import Verif.Props.CalmAdaptor

/-!
# C60: a Body that claims to have read more than it was asked for

Such a Body breaks the contract of `io.Reader`, so that the other theorems of C60 do not apply.  `io.Copy` slices its buffer with
the count it was given: `Serve` panics with the run-time error of the slicing, and nothing of that read is sent.
-/

set_option autoImplicit false

namespace Verif
open Spec
variable {β ω : Type}

/-- The Body delivers the given pieces, one by one, without an error, and claims then to have read more than 32 KiB; `b'` is its state after that. -/
inductive Spec.Overruns (B : BodyOps β) : β → List (List Byte) → β → Prop
  | now {b b' : β} {d : List Byte} {err : Option Err} : B.read b 32768 = (b', .ret (d, err)) → 32768 < d.length → Overruns B b [] b'
  | later {b b₁ b' : β} {d : List Byte} {ds : List (List Byte)} : B.read b 32768 = (b₁, .ret (d, none)) → d ≠ [] → d.length ≤ 32768 →
      Overruns B b₁ ds b' → Overruns B b (d :: ds) b'

/-- The client after it has been given the pieces. -/
def Spec.given (D : RW ω) (w : ω) (ds : List (List Byte)) : ω := ds.foldl (fun w d => (D.write w d).1) w

theorem copyLoop_overrun {D : RW ω} (hD : ∀ w d, (D.write w d).2 = .ret (d.length, none)) {B : BodyOps β} {b b' : β} {ds : List (List Byte)}
    (h : Overruns B b ds b') : ∀ (fuel : Nat) (w : ω) (c : Int), ds.length < fuel → copyLoop D B fuel b w c = (b', given D w ds, .panic .bounds) := by
  induction h with
  | now h1 h2 =>
    intro fuel w c hf
    obtain ⟨fuel, rfl⟩ : ∃ k, fuel = k + 1 := ⟨fuel - 1, by omega⟩
    unfold copyLoop
    rw [h1]
    dsimp only
    rw [if_pos (by omega), if_pos (by omega)]
    rfl
  | @later b b₁ b' d ds h1 h2 h3 _ ih =>
    intro fuel w c hf
    simp only [List.length_cons] at hf
    obtain ⟨fuel, rfl⟩ : ∃ k, fuel = k + 1 := ⟨fuel - 1, by omega⟩
    have hl : 0 < d.length := List.length_pos_iff.2 h2
    unfold copyLoop
    rw [h1]
    dsimp only
    rw [if_pos (by omega), if_neg (by omega)]
    have hw := hD w d
    rcases hq : D.write w d with ⟨w', r⟩
    rw [hq] at hw
    dsimp only at hw
    subst hw
    have hbad : decide ((d.length : Int) < 0 ∨ (d.length : Int) < (d.length : Int)) = false := by simp
    simp only [hbad, Bool.false_and, Bool.false_eq_true, if_false, ne_eq, not_true_eq_false]
    rw [ih fuel w' _ (by omega)]
    simp [given, hq]

/-- **C60.** A Body that claims to have read more than it was asked for, and a client that takes everything (and has no `ReadFrom`): the client gets the
pieces up to then, and `Serve` panics with the run-time error for a slice index that is out of range.  The Body is not closed. -/
theorem C60_overrun {D : RW ω} (hD : ∀ w d, (D.write w d).2 = .ret (d.length, none)) (hr : D.isReaderFrom = false) {B : BodyOps β}
    (hw : B.isWriterTo = false) {r : Resp β} {w w₁ w₂ : ω}
    (h1 : (if D.isPusher then pushAll D (hdrGet r.hdrs headerPush) w else (w, none)) = (w₁, none))
    (h2 : D.writeHeader (setAll D r.hdrs w₁) r.code = (w₂, .ret ())) {b' : β} {ds : List (List Byte)} (h : Overruns B r.body ds b') {fuel : Nat}
    (hf : ds.length < fuel) : serve D B fuel r w = (b', given D w₂ ds, .panic .bounds) := by
  unfold serve
  rw [h1]
  dsimp only
  rw [h2]
  dsimp only
  have : ioCopy D B fuel r.body w₂ = (b', given D w₂ ds, .panic .bounds) := by
    unfold ioCopy
    simp only [hw, hr, Bool.false_eq_true, if_false]
    exact copyLoop_overrun hD h fuel w₂ 0 hf
  rw [this]

/-! Example: a Body that delivers `[1, 2]` and then claims to have read 32769 bytes. -/

def overBody : BodyOps Nat where
  isWriterTo := false
  writeTo b := .hang b
  read b _ := match b with
    | 0 => (1, .ret ([1, 2], none))
    | _ => (2, .ret (List.replicate 32769 7, none))
  close b := (b, .ret none)
  remaining _ := -1

def allRW : RW (List Byte) where
  setHeader w _ _ := w
  isPusher := false
  push w _ := (w, .ret none)
  writeHeader w _ := (w, .ret ())
  write w d := (w ++ d, .ret (d.length, none))
  isFlusher := false
  flush w := (w, .ret ())
  isReaderFrom := false
  readFrom w := .hang w
  isCloseNotifier := false
  isHijacker := false

example (fuel : Nat) (hf : 1 < fuel) : serve allRW overBody fuel { code := 200, hdrs := [], body := 0 } [] = (2, [1, 2], .panic .bounds) :=
  C60_overrun (D := allRW) (B := overBody) (w₁ := []) (w₂ := []) (r := { code := 200, hdrs := [], body := 0 }) (fun _ _ => rfl) rfl rfl rfl rfl
    (ds := [[1, 2]]) (.later rfl (by simp) (by simp) (.now (d := List.replicate 32769 7) (err := none) rfl (by rw [List.length_replicate]; omega))) hf

end Verif
