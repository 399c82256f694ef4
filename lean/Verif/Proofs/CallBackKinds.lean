import Verif.Proofs.CallBack

/-!
# Readers that call back: the methods of the three kinds of Reader-backed Bodies
-/

set_option autoImplicit false

namespace Verif
open Spec
variable {σ : Type}

namespace ConcBuf
variable {h : Nat} {H : List Lk}

abbrev Pl (H : List Lk) (p : P σ) : Prop := Plain (Γ := bufSig σ) BufC.rdr H p

theorem plain_quit (o : Out) : Pl (σ := σ) [.body h] (quit h o) := by simp [quit, Plain]

theorem plain_done (o : Out) : Pl (σ := σ) [.common, .body h] (done h o) := by simp [done, quit, Plain]

theorem plain_scan {k : Int → Int → P σ} (hk : ∀ a b, Pl H (k a b)) (is : List Nat) : ∀ a b, Pl H (scan k is a b) := by
  induction is with
  | nil => exact hk
  | cons i is ih =>
    intro a b
    refine ⟨(fun e => by cases e), fun v => ?_⟩
    dsimp only
    repeat' split
    all_goals exact ih _ _

theorem plain_updateStart {k : P σ} (hk : Pl [.common, .body h] k) : Pl [.common, .body h] (updateStart h k) := by
  refine ⟨fun _ => by simp, fun v => plain_scan (fun a b => ?_) _ _ _⟩
  refine ⟨fun _ => by simp, fun v => ?_⟩
  dsimp only
  split
  · exact plain_done _
  split
  · exact plain_done _
  refine ⟨fun _ => by simp, fun v => ?_⟩
  dsimp only
  split
  · exact plain_done _
  · exact hk

theorem plain_dropRef {k : P σ} (hk : Pl [.common, .body h] k) : Pl [.common, .body h] (dropRef h k) := by
  refine ⟨fun _ => by simp, fun v => ⟨fun _ => by simp, fun v => ?_⟩⟩
  dsimp only
  split
  · exact plain_updateStart hk
  · exact hk

theorem plain_advance (a b : Int) {k : P σ} (hk : Pl [.common, .body h] k) : Pl [.common, .body h] (advance h a b k) := by
  refine ⟨fun _ => by simp, fun v => ⟨fun _ => by simp, fun v => ?_⟩⟩
  dsimp only
  split
  · exact plain_done _
  split
  · exact plain_done _
  split
  · exact plain_done _
  split
  · exact plain_dropRef hk
  · exact hk

theorem plain_remaining : Pl (σ := σ) [] (remaining h) := by
  refine ⟨(fun e => by cases e), fun v => ?_⟩
  dsimp only
  split
  · exact plain_quit _
  refine ⟨(fun e => by cases e), fun v => ?_⟩
  dsimp only
  split
  · exact plain_quit _
  refine ⟨fun _ => by simp, fun v => ?_⟩
  dsimp only
  split
  · exact plain_done _
  exact ⟨fun _ => by simp, fun v => ⟨fun _ => by simp, fun v => plain_done _⟩⟩

theorem plain_readLoop (R : Rdr σ) (start : Int) {k : List Byte → P σ} (hk : ∀ b, Pl [.common, .body h] (k b)) (fuel : Nat) :
    ∀ buf n, Pl [.common, .body h] (readLoop R h start k fuel buf n) := by
  induction fuel with
  | zero =>
    intro buf n
    unfold readLoop
    split
    · exact hk _
    · trivial
  | succ fuel ih =>
    intro buf n
    unfold readLoop
    split
    · exact hk _
    refine ⟨fun _ => by simp, fun v => ?_⟩
    dsimp only
    split
    · exact plain_done _
    refine ⟨fun _ => by simp, fun v => ?_⟩
    simp only [Plain]
    split
    · exact plain_done _
    · exact plain_done _
    · split
      · exact plain_done _
      · simp only [Plain]
        split
        · exact hk _
        · exact ih _ _

theorem plain_fill (R : Rdr σ) (fuel : Nat) (a b e : Int) {k : Int → P σ} (hk : ∀ b, Pl [.common, .body h] (k b)) :
    Pl [.common, .body h] (fill R fuel h a b e k) := by
  refine ⟨fun _ => by simp, fun v => ?_⟩
  dsimp only
  split
  · refine ⟨fun _ => by simp, fun v => ?_⟩
    dsimp only
    split
    · exact plain_done _
    refine ⟨fun _ => by simp, fun v => ?_⟩
    refine plain_readLoop R _ (fun buf => ?_) _ _ _
    refine ⟨fun _ => by simp, fun v => ?_⟩
    dsimp only
    split
    · exact hk _
    · exact hk _
  · exact hk _

theorem plain_deliver (k : Nat) (a b e : Int) (err : Option Err) : Pl (σ := σ) [.common, .body h] (deliver h k a b e err) := by
  refine ⟨fun _ => by simp, fun v => ?_⟩
  dsimp only
  split
  · exact plain_advance _ _ (plain_done _)
  · exact plain_done _

theorem plain_read (R : Rdr σ) (fuel k : Nat) : Pl [] (read R fuel h k) := by
  refine ⟨(fun e => by cases e), fun v => ?_⟩
  dsimp only
  split
  · exact plain_quit _
  refine ⟨fun _ => by simp, fun v => ?_⟩
  dsimp only
  split
  · exact ⟨fun _ => by simp, fun v => plain_done _⟩
  refine ⟨fun _ => by simp, fun v => ⟨fun _ => by simp, fun v => ⟨fun _ => by simp, fun v => ?_⟩⟩⟩
  dsimp only
  split
  · exact plain_done _
  refine plain_fill _ _ _ _ _ fun b => ?_
  split
  · exact ⟨fun _ => by simp, fun v => plain_deliver _ _ _ _ _⟩
  · exact plain_deliver _ _ _ _ _

theorem plain_closeEnd (e : Option Err) : Pl (σ := σ) [.common, .body h] (closeEnd h e) := by
  simp [closeEnd, quit, Plain]

theorem plain_close (R : Rdr σ) : Pl [] (close R h) := by
  refine ⟨(fun e => by cases e), fun v => ?_⟩
  dsimp only
  split
  · exact plain_quit _
  refine ⟨fun _ => by simp, fun v => ⟨fun _ => by simp, fun v => ?_⟩⟩
  dsimp only
  split
  · refine ⟨fun _ => by simp, fun v => ⟨fun _ => by simp, fun v => ?_⟩⟩
    dsimp only
    split
    · exact plain_dropRef (plain_closeEnd _)
    · exact plain_closeEnd _
  · refine ⟨fun _ => by simp, fun v => ?_⟩
    simp only [Plain]
    split
    · refine ⟨fun _ => by simp, fun v => ?_⟩
      simp only [Plain]
      split
      · exact plain_closeEnd _
      · exact plain_done _
    · exact plain_closeEnd _

theorem plain_copy : Pl (σ := σ) [] (copy h) := by
  refine ⟨(fun e => by cases e), fun v => ?_⟩
  dsimp only
  split
  · exact plain_quit _
  refine ⟨(fun e => by cases e), fun v => ⟨(fun e => by cases e), fun v => ⟨(fun e => by cases e), fun v => ⟨fun _ => by simp, fun v => ?_⟩⟩⟩⟩
  dsimp only
  split
  · exact plain_done _
  refine ⟨fun _ => by simp, fun v => ⟨fun _ => by simp, fun v => ⟨fun _ => by simp, fun v => ⟨fun _ => by simp, fun v => ?_⟩⟩⟩⟩
  dsimp only
  split
  · exact ⟨fun _ => by simp, fun v => plain_done _⟩
  · exact plain_done _

theorem plain_unwrap : Pl (σ := σ) [] (unwrap h) := by
  refine ⟨(fun e => by cases e), fun v => ?_⟩
  dsimp only
  split
  · exact plain_quit _
  exact ⟨fun _ => by simp, fun v => plain_done _⟩

theorem plain (R : Rdr σ) (fuel : Nat) (op : Op) : Pl [] (prog R fuel op) := by
  cases op with
  | read h k => exact plain_read R fuel k
  | remaining h => exact plain_remaining
  | copy h => exact plain_copy
  | close h => exact plain_close R
  | unwrap h => exact plain_unwrap
  | readAt => rfl
  | seek => rfl
  | writeTo => rfl

theorem locks (R : Rdr σ) (fuel : Nat) {op : Op} (ho : OfStreams op) : ∃ q, prog R fuel op = .lock (.body op.h) q := by
  cases op <;> first | exact ho.elim | exact ⟨_, rfl⟩

theorem needs (R : Rdr σ) (fuel : Nat) {op : Op} (ho : OfStreams op) : Needs (· = .common) (StreamApart op) (prog R fuel op) := by
  cases op with
  | read h k => exact .inr fun v => by cases v with | true => exact .inl fun M hM => .inl hM | false => exact .inr (.inl rfl)
  | remaining h =>
    exact .inr fun v => by
      cases v with
      | true => exact .inl fun M hM => .inl hM
      | false => exact .inr fun v => by cases v with | true => exact .inl fun M hM => .inr ⟨⟨h, rfl⟩, hM⟩ | false => exact .inr (.inl rfl)
  | copy h =>
    exact .inr fun v => by
      cases v with
      | true => exact .inl fun M hM => .inl hM
      | false => exact .inr fun v => .inr fun v => .inr fun v => .inr (.inl rfl)
  | close h => exact .inr fun v => by cases v with | true => exact .inl fun M hM => .inl hM | false => exact .inr (.inl rfl)
  | unwrap h => exact .inr fun v => by cases v with | true => exact .inl fun M hM => .inl hM | false => exact .inr (.inl rfl)
  | readAt => exact ho.elim
  | seek => exact ho.elim
  | writeTo => exact ho.elim

/-- A call that does without the shared part only locks its Body and reads. -/
theorem apart (R : Rdr σ) (fuel : Nat) {op : Op} (ho : OfStreams op) {M : Mem (bufSig σ)} (ha : StreamApart op M) :
    ∃ q o, prog R fuel op = .lock (.body op.h) q ∧ ReadsOut M op.h q o := by
  cases hc : (M (.b op.h .closed) : Bool) with
  | true =>
    cases op <;> first | exact ho.elim | skip
    all_goals
      refine ⟨_, ?_, rfl, .get ?_⟩
      rotate_left
      · simp only [Op.h] at hc
        rw [hc]
        exact .unlock _
  | false =>
    rcases ha with ha | ⟨⟨h, rfl⟩, ha⟩
    · rw [hc] at ha; cases ha
    · refine ⟨_, .remaining 0, rfl, .get ?_⟩
      simp only [Op.h] at hc ha
      rw [hc]
      refine .get ?_
      rw [ha]
      exact .unlock _

end ConcBuf

namespace ConcPos
variable {h : Nat} {H : List Lk}

abbrev Pl (H : List Lk) (p : P σ) : Prop := Plain (Γ := posSig σ) PosC.rdr H p

theorem plain_quit (o : Out) : Pl (σ := σ) [.body h] (quit h o) := by simp [quit, Plain]

theorem plain_done (o : Out) : Pl (σ := σ) [.common, .body h] (done h o) := by simp [done, quit, Plain]

/-- A call of the Reader, whatever follows. -/
def PlainCall (call : Nat → Int → (Res (List Byte × Option Err) → P σ) → P σ) : Prop :=
  ∀ (h x : Nat) (off : Int) (k : Res (List Byte × Option Err) → P σ), (∀ a, Pl [.common, .body h] (k a)) → Pl [.common, .body h] (call x off k)

theorem plain_readerAtCall (R : Rdr σ) : PlainCall (readerAtCall R) := by
  intro h x off k hk
  refine ⟨fun _ => by simp, fun v => ?_⟩
  dsimp only
  split
  · exact hk _
  refine ⟨fun _ => by simp, fun v => ?_⟩
  simp only [Plain]
  repeat' split
  all_goals exact hk _

theorem plain_seekerCall (R : Rdr σ) : PlainCall (seekerCall R) := by
  intro h x off k hk
  refine ⟨fun _ => by simp, fun v => ?_⟩
  dsimp only
  split
  · exact hk _
  refine ⟨fun _ => by simp, fun v => ?_⟩
  simp only [Plain]
  split
  · exact hk _
  · exact hk _
  refine ⟨fun _ => by simp, fun v => ?_⟩
  simp only [Plain]
  repeat' split
  all_goals exact hk _

theorem plain_readEnd (off : Int) (eof : Bool) (a : Res (List Byte × Option Err)) : Pl (σ := σ) [.common, .body h] (readEnd h off eof a) := by
  rcases a with ⟨d, err⟩ | p | _
  · simp only [readEnd, Plain]
    split
    · exact plain_done _
    refine ⟨fun _ => by simp, fun v => ?_⟩
    dsimp only
    split
    · exact plain_done _
    · exact plain_done _
  · exact plain_done _
  · trivial

theorem plain_readAtEnd (eof : Bool) (a : Res (List Byte × Option Err)) : Pl (σ := σ) [.common, .body h] (readAtEnd h eof a) := by
  rcases a with ⟨d, err⟩ | p | _
  · exact plain_done _
  · exact plain_done _
  · trivial

theorem plain_read {call : Nat → Int → (Res (List Byte × Option Err) → P σ) → P σ} (hc : PlainCall call) (k : Nat) : Pl [] (read call h k) := by
  refine ⟨(fun e => by cases e), fun v => ?_⟩
  dsimp only
  split
  · exact plain_quit _
  refine ⟨(fun e => by cases e), fun v => ?_⟩
  cases v with
  | some e => exact plain_quit _
  | none =>
    refine ⟨fun _ => by simp, fun v => ⟨fun _ => by simp, fun w => ?_⟩⟩
    dsimp only
    generalize (if v > w then w else v) = x
    split
    · split
      · exact plain_readEnd _ _ _
      · exact hc _ _ _ _ fun a => plain_readEnd _ _ _
    · exact plain_readEnd _ _ _

theorem plain_readAt {call : Nat → Int → (Res (List Byte × Option Err) → P σ) → P σ} (hc : PlainCall call) (k : Nat) (off : Int) :
    Pl [] (readAt call h k off) := by
  refine ⟨(fun e => by cases e), fun v => ?_⟩
  dsimp only
  split
  · exact plain_quit _
  split
  · exact plain_quit _
  refine ⟨fun _ => by simp, fun w => ?_⟩
  dsimp only
  generalize (if off > w then w else off) = x
  split
  · split
    · exact plain_readAtEnd _ _
    · exact hc _ _ _ _ fun a => plain_readAtEnd _ _
  · exact plain_readAtEnd _ _

theorem plain_seek (off wh : Int) : Pl (σ := σ) [] (seek h off wh) := by
  refine ⟨(fun e => by cases e), fun v => ?_⟩
  dsimp only
  split
  · exact plain_quit _
  refine ⟨fun _ => by simp, fun w => ⟨by simp, ?_⟩⟩
  rw [show [Lk.common, Lk.body h].filter (· ≠ .common) = [.body h] by simp]
  split
  · exact plain_quit _
  split
  · exact plain_quit _
  refine ⟨(fun e => by cases e), fun v => ?_⟩
  dsimp only
  repeat' split
  all_goals exact plain_quit _

theorem plain_close (R : Rdr σ) : Pl [] (close R h) := by
  refine ⟨(fun e => by cases e), fun v => ?_⟩
  dsimp only
  split
  · exact plain_quit _
  refine ⟨fun _ => by simp, fun v => ⟨fun _ => by simp, fun v => ?_⟩⟩
  dsimp only
  split
  · exact plain_done _
  refine ⟨fun _ => by simp, fun v => ?_⟩
  dsimp only
  split
  · refine ⟨fun _ => by simp, fun v => ?_⟩
    simp only [Plain]
    split
    · exact plain_done _
    · exact plain_done _
  · exact plain_done _

theorem plain_copy : Pl (σ := σ) [] (copy h) := by
  refine ⟨(fun e => by cases e), fun v => ?_⟩
  dsimp only
  split
  · exact plain_quit _
  exact ⟨(fun e => by cases e), fun v => ⟨(fun e => by cases e), fun v => ⟨(fun e => by cases e), fun v => ⟨fun _ => by simp, fun v =>
    ⟨fun _ => by simp, fun v => plain_done _⟩⟩⟩⟩⟩

theorem plain_unwrap : Pl (σ := σ) [] (unwrap h) := by
  refine ⟨(fun e => by cases e), fun v => ?_⟩
  dsimp only
  split
  · exact plain_quit _
  exact ⟨fun _ => by simp, fun v => plain_done _⟩

theorem plain_readerAtRemaining : Pl (σ := σ) [] (readerAtRemaining h) := by
  refine ⟨(fun e => by cases e), fun v => ?_⟩
  dsimp only
  split
  · exact plain_quit _
  refine ⟨fun _ => by simp, fun w => ⟨by simp, ?_⟩⟩
  rw [show [Lk.common, Lk.body h].filter (· ≠ .common) = [.body h] by simp]
  refine ⟨(fun e => by cases e), fun v => ?_⟩
  dsimp only
  split
  · exact plain_quit _
  · exact plain_quit _

theorem plain_seekerRemaining : Pl (σ := σ) [] (seekerRemaining h) := by
  refine ⟨(fun e => by cases e), fun v => ?_⟩
  dsimp only
  split
  · exact plain_quit _
  exact ⟨(fun e => by cases e), fun v => ⟨(fun e => by cases e), fun v => plain_quit _⟩⟩

theorem plain_readerAt (R : Rdr σ) (op : Op) : Pl [] (readerAtProg R op) := by
  cases op with
  | read h k => exact plain_read (plain_readerAtCall R) k
  | readAt h k off => exact plain_readAt (plain_readerAtCall R) k off
  | seek h off wh => exact plain_seek off wh
  | remaining h => exact plain_readerAtRemaining
  | copy h => exact plain_copy
  | close h => exact plain_close R
  | unwrap h => exact plain_unwrap
  | writeTo => rfl

theorem plain_seeker (R : Rdr σ) (op : Op) : Pl [] (seekerProg R op) := by
  cases op with
  | read h k => exact plain_read (plain_seekerCall R) k
  | readAt h k off => exact plain_readAt (plain_seekerCall R) k off
  | seek h off wh => exact plain_seek off wh
  | remaining h => exact plain_seekerRemaining
  | copy h => exact plain_copy
  | close h => exact plain_close R
  | unwrap h => exact plain_unwrap
  | writeTo => rfl

theorem locks_readerAt (R : Rdr σ) {op : Op} (ho : OfPositional op) : ∃ q, readerAtProg R op = .lock (.body op.h) q := by
  cases op <;> first | exact ho.elim | exact ⟨_, rfl⟩

theorem locks_seeker (R : Rdr σ) {op : Op} (ho : OfPositional op) : ∃ q, seekerProg R op = .lock (.body op.h) q := by
  cases op <;> first | exact ho.elim | exact ⟨_, rfl⟩

theorem _root_.Verif.Needs.weaken {Γ : Sig} {S : Lk → Prop} {E E' : Mem Γ → Prop} (hE : ∀ M, E M → E' M) {p : Prog Γ} (h : Needs S E p) : Needs S E' p := by
  induction p with
  | ret o => exact h
  | stuck => trivial
  | get l k' ih => exact fun v => (h v).imp (fun h M hM => hE M (h M hM)) (ih v)
  | put l v k' ih => exact ih h
  | lock m k' ih => exact h.imp id ih
  | unlock m k' ih => exact ⟨h.1, ih h.2⟩

theorem needs_read (call : Nat → Int → (Res (List Byte × Option Err) → P σ) → P σ) (h k : Nat) :
    Needs (· = .common) (ReaderAtApart (.read h k)) (read call h k) :=
  .inr fun v => by
    cases v with
    | true => exact .inl fun M hM => .inl hM
    | false =>
      refine .inr fun v => ?_
      cases v with
      | some e => exact .inl fun M hM => .inr (.inl ⟨⟨h, k, rfl⟩, fun (hn : M (.b h .err) = none) => by rw [hM] at hn; cases hn⟩)
      | none => exact .inr (.inl rfl)

theorem needs_readAt (call : Nat → Int → (Res (List Byte × Option Err) → P σ) → P σ) (h k : Nat) (off : Int) :
    Needs (· = .common) (ReaderAtApart (.readAt h k off)) (readAt call h k off) :=
  .inr fun v => by
    cases v with
    | true => exact .inl fun M hM => .inl hM
    | false =>
      by_cases e : off < 0
      · exact .inl fun M hM => .inr (.inr ⟨h, k, off, rfl, e⟩)
      · refine .inr ?_
        simp only [Bool.false_eq_true, ↓reduceIte, if_neg e]
        exact .inl rfl

theorem needs_seek (h : Nat) (off wh : Int) : Needs (Γ := posSig σ) (· = .common) (ReaderAtApart (.seek h off wh)) (seek h off wh) :=
  .inr fun v => by cases v with | true => exact .inl fun M hM => .inl hM | false => exact .inr (.inl rfl)

theorem needs_copy (h : Nat) : Needs (Γ := posSig σ) (· = .common) (ReaderAtApart (.copy h)) (copy h) :=
  .inr fun v => by
    cases v with
    | true => exact .inl fun M hM => .inl hM
    | false => exact .inr fun v => .inr fun v => .inr fun v => .inr (.inl rfl)

theorem needs_close (R : Rdr σ) (h : Nat) : Needs (· = .common) (ReaderAtApart (.close h)) (close R h) :=
  .inr fun v => by cases v with | true => exact .inl fun M hM => .inl hM | false => exact .inr (.inl rfl)

theorem needs_unwrap (h : Nat) : Needs (Γ := posSig σ) (· = .common) (ReaderAtApart (.unwrap h)) (unwrap h) :=
  .inr fun v => by cases v with | true => exact .inl fun M hM => .inl hM | false => exact .inr (.inl rfl)

theorem needs_readerAt (R : Rdr σ) {op : Op} (ho : OfPositional op) : Needs (· = .common) (ReaderAtApart op) (readerAtProg R op) := by
  cases op with
  | read h k => exact needs_read _ h k
  | readAt h k off => exact needs_readAt _ h k off
  | seek h off wh => exact needs_seek h off wh
  | remaining h => exact .inr fun v => by cases v with | true => exact .inl fun M hM => .inl hM | false => exact .inr (.inl rfl)
  | copy h => exact needs_copy h
  | close h => exact needs_close R h
  | unwrap h => exact needs_unwrap h
  | writeTo => exact ho.elim

theorem needs_seeker (R : Rdr σ) {op : Op} (ho : OfPositional op) : Needs (· = .common) (SeekerApart op) (seekerProg R op) := by
  cases op with
  | read h k => exact (needs_read _ h k).weaken fun M => .inl
  | readAt h k off => exact (needs_readAt _ h k off).weaken fun M => .inl
  | seek h off wh => exact (needs_seek h off wh).weaken fun M => .inl
  | remaining h => exact .inr fun v => .inl fun M hM => .inr ⟨h, rfl⟩
  | copy h => exact (needs_copy h).weaken fun M => .inl
  | close h => exact (needs_close R h).weaken fun M => .inl
  | unwrap h => exact (needs_unwrap h).weaken fun M => .inl
  | writeTo => exact ho.elim

/-- A closed Body. -/
theorem apart_closed {prog : Op → P σ} (hl : ∀ op, OfPositional op → ∃ g : Bool → P σ, ∃ o, prog op = .lock (.body op.h) (.get (.b op.h .closed) g) ∧
    g true = quit op.h o) {op : Op} (ho : OfPositional op) {M : Mem (posSig σ)} (hc : M (.b op.h .closed) = true) :
    ∃ q o, prog op = .lock (.body op.h) q ∧ ReadsOut M op.h q o := by
  obtain ⟨g, o, h1, h2⟩ := hl op ho
  refine ⟨_, o, h1, .get ?_⟩
  rw [hc, h2]
  exact .unlock _

theorem apart_readerAt (R : Rdr σ) {op : Op} (ho : OfPositional op) {M : Mem (posSig σ)} (ha : ReaderAtApart op M) :
    ∃ q o, readerAtProg R op = .lock (.body op.h) q ∧ ReadsOut M op.h q o := by
  cases hc : (M (.b op.h .closed) : Bool) with
  | true => exact apart_closed (fun op ho => by cases op <;> first | exact ho.elim | exact ⟨_, _, rfl, rfl⟩) ho hc
  | false =>
    rcases ha with ha | ⟨⟨h, k, rfl⟩, ha⟩ | ⟨h, k, off, rfl, ha⟩
    · rw [hc] at ha; cases ha
    · cases he : (M (.b h .err) : Option Err) with
      | none => exact absurd he ha
      | some e =>
        refine ⟨_, .read [] (some e), rfl, .get ?_⟩
        simp only [Op.h] at hc
        rw [hc]
        refine .get ?_
        rw [he]
        exact .unlock _
    · refine ⟨_, .read [] (some (.negReadAt off)), rfl, .get ?_⟩
      simp only [Op.h] at hc
      rw [hc]
      simp only [Bool.false_eq_true, ↓reduceIte, if_pos ha]
      exact .unlock _

theorem apart_seeker (R : Rdr σ) {op : Op} (ho : OfPositional op) {M : Mem (posSig σ)} (ha : SeekerApart op M) :
    ∃ q o, seekerProg R op = .lock (.body op.h) q ∧ ReadsOut M op.h q o := by
  cases hc : (M (.b op.h .closed) : Bool) with
  | true => exact apart_closed (fun op ho => by cases op <;> first | exact ho.elim | exact ⟨_, _, rfl, rfl⟩) ho hc
  | false =>
    rcases ha with (ha | ⟨⟨h, k, rfl⟩, ha⟩ | ⟨h, k, off, rfl, ha⟩) | ⟨h, rfl⟩
    · rw [hc] at ha; cases ha
    · cases he : (M (.b h .err) : Option Err) with
      | none => exact absurd he ha
      | some e =>
        refine ⟨_, .read [] (some e), rfl, .get ?_⟩
        simp only [Op.h] at hc
        rw [hc]
        refine .get ?_
        rw [he]
        exact .unlock _
    · refine ⟨_, .read [] (some (.negReadAt off)), rfl, .get ?_⟩
      simp only [Op.h] at hc
      rw [hc]
      simp only [Bool.false_eq_true, ↓reduceIte, if_pos ha]
      exact .unlock _
    · refine ⟨_, .remaining (M (.c .length) - M (.b h .offset)), rfl, .get ?_⟩
      simp only [Op.h] at hc
      rw [hc]
      exact .get (.get (.unlock _))

end ConcPos
end Verif
