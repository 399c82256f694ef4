import Verif.Proofs.PosFacts
import Verif.Proofs.PosSeek
import Verif.Spec.Stream

/-!
# C03–C05, C15–C21, C47: bodies over an `io.ReaderAt` or an `io.ReadSeeker`
-/

set_option linter.unusedSimpArgs false
set_option autoImplicit false

namespace Verif
open Spec

variable {σ : Type}

/-- State of a ReaderAt-backed family after the calls `ops`. -/
abbrev atAfter (R : Rdr σ) (st : σ) (n : Nat) (ops : List Op) : PosSys σ :=
  (run (ReaderAtBody.step R) (ReaderAtBody.init st n) ops).1

/-- Observations of the calls `ops` on a ReaderAt-backed family. -/
abbrev atOuts (R : Rdr σ) (st : σ) (n : Nat) (ops : List Op) : List Out :=
  (run (ReaderAtBody.step R) (ReaderAtBody.init st n) ops).2

/-- State of a Seeker-backed family after the calls `ops`. -/
abbrev seekAfter (R : Rdr σ) (st : σ) (n : Nat) (ops : List Op) : PosSys σ :=
  (run (SeekerBody.step R) (SeekerBody.init st n) ops).1

/-- Observations of the calls `ops` on a Seeker-backed family. -/
abbrev seekOuts (R : Rdr σ) (st : σ) (n : Nat) (ops : List Op) : List Out :=
  (run (SeekerBody.step R) (SeekerBody.init st n) ops).2

/-! ## Examples of readers -/

/-- A well-behaved file: the state is the position. -/
def fileRdr (F : List Byte) : Rdr Nat where
  read p n := (p + ((F.drop p).take n).length, .got ((F.drop p).take n) (if F.length < p + n then some .eof else none))
  readAt p n off := (p, .got ((F.drop off.toNat).take n) (if F.length < off.toNat + n then some .eof else none))
  seek p off wh :=
    let t := if wh = 0 then off else if wh = 1 then p + off else F.length + off
    (t.toNat, .ok (t, none))
  stat p := (p, .ok (F.length, none))
  close p := (p, .ok (some (.ext 7)))
  isReaderAt := true
  isSeeker := true
  isFile := true
  isCloser := true

instance (F : List Byte) : (fileRdr F).CloseOk := ⟨fun _ _ => ⟨_, rfl⟩⟩

theorem fileRdr_readerAt (F : List Byte) : IsReaderAt (fileRdr F) F (fun _ => True) := by
  refine ⟨inferInstance, fun st x off _ h0 _ => ⟨st, _, rfl, trivial, ?_, ?_, ?_⟩⟩
  · intro h; rw [if_pos]; simp at h; omega
  · intro h; rw [if_neg]; omega
  · split <;> simp

theorem fileRdr_seeker (F : List Byte) : IsFullSeeker (fileRdr F) F (fun st p => st = p) := by
  refine ⟨inferInstance, fun st p off _ h0 _ => ⟨_, _, rfl, rfl⟩, ?_⟩
  rintro st p x rfl
  refine ⟨_, _, rfl, rfl, ?_, ?_⟩
  · intro h; rw [if_neg]; omega
  · split <;> simp

/-- The same file, but the first `Read` or `ReadAt` fails with an I/O error (`ext 3`), once. -/
def flakyRdr (F : List Byte) : Rdr (Bool × Nat) where
  read s n := if s.1 then ((true, ((fileRdr F).read s.2 n).1), ((fileRdr F).read s.2 n).2)
    else ((true, s.2), .got [] (some (.ext 3)))
  readAt s n off := if s.1 then ((true, s.2), ((fileRdr F).readAt s.2 n off).2)
    else ((true, s.2), .got [] (some (.ext 3)))
  seek s off wh := ((s.1, ((fileRdr F).seek s.2 off wh).1), ((fileRdr F).seek s.2 off wh).2)
  stat s := (s, .ok (F.length, none))
  close s := (s, .ok none)
  isReaderAt := true
  isSeeker := true
  isFile := true
  isCloser := true

/-- The same file, but `Read` delivers one byte at a time. -/
def shortRdr (F : List Byte) : Rdr Nat where
  read p n := (p + ((F.drop p).take (min n 1)).length,
    .got ((F.drop p).take (min n 1)) (if F.length ≤ p then some .eof else none))
  readAt p n off := (fileRdr F).readAt p n off
  seek p off wh := (fileRdr F).seek p off wh
  stat p := (p, .ok (F.length, none))
  close p := (p, .ok none)
  isReaderAt := false
  isSeeker := true
  isFile := false
  isCloser := false

theorem shortRdr_seeker (F : List Byte) : IsSeeker (shortRdr F) F (fun st p => st = p) := by
  refine ⟨⟨fun _ _ => ⟨_, rfl⟩⟩, fun st p off _ h0 _ => ⟨_, _, rfl, rfl⟩, ?_⟩
  rintro st p x rfl hx
  refine ⟨_, _, _, rfl, ?_, ?_, rfl, ?_, ?_, ?_, ?_⟩
  · simp; omega
  · rw [List.length_take, List.length_drop, List.take_eq_take_iff]; simp
  · intro h; simp; omega
  · intro h; rw [if_neg]; simp at h; omega
  · intro h; rw [if_pos h]
  · split <;> simp

/-! ## Lifting -/

theorem psim_init {F : List Byte} {Inv : σ → Prop} {st : σ} (hi : Inv st) {n : Nat} (hn : n ≤ F.length) :
    PSim (F.take n) Inv (ReaderAtBody.init st n) [{ content := F.take n }] := by
  refine ⟨⟨rfl, ?_⟩, rfl, ?_⟩
  · intro i b c hb hc
    cases i with
    | zero =>
      simp only [ReaderAtBody.init, List.getElem?_cons_zero, Option.some.injEq] at hb hc
      subst hb hc
      exact ⟨rfl, rfl, Nat.zero_le _, fun _ => rfl, fun _ => rfl⟩
    | succ i => simp [ReaderAtBody.init] at hb
  · intro _
    refine ⟨rfl, ?_, hi⟩
    simp [ReaderAtBody.init, ReaderAtBody.ref]
    omega

theorem posInv_init (st : σ) (n : Nat) : PosInv (ReaderAtBody.init st n) := by
  refine ⟨by simp [ReaderAtBody.init, ReaderAtBody.ref], ?_, rfl, fun _ => rfl⟩
  intro b hb
  simp only [ReaderAtBody.init, List.mem_singleton] at hb
  subst hb
  decide

theorem checked_ne_hang (x : Nat) (r : RResp) : checked x r ≠ .hang := by
  cases r with
  | got d e => simp only [checked]; split <;> simp
  | _ => simp [checked]

/-- The step function never hangs if fetching does not. -/
theorem pos_noHang {K : PosKind σ} (hK : ∀ st x off, (K.get st x off).2 ≠ .hang) (s : PosSys σ) (op : Op) :
    (Pos.step K s op).2 ≠ .hang := by
  have att : ∀ k off, (Pos.attempt K s.common k off).2 ≠ .hang := by
    intro k off
    unfold Pos.attempt
    simp only
    generalize (if off > s.common.length then s.common.length else off) = o
    generalize (if decide ((k : Int) > s.common.length - o) = true then s.common.length - o else (k : Int)) = x
    by_cases h : s.common.length - o > 0
    · rw [if_pos h]
      cases goSlice (List.replicate k (0 : Byte)) 0 x with
      | none => simp
      | some p =>
        simp only [Pos.fetch]
        cases s.common.hasR with
        | false => simp
        | true =>
          simp only [Bool.not_true, Bool.false_eq_true, if_false]
          have := hK s.common.rdr p.length o
          generalize (K.get s.common.rdr p.length o).2 = r at *
          cases r <;> simp_all
    · rw [if_neg h]; simp
  unfold Pos.step
  cases s.heap[op.h]? with
  | none => simp
  | some b =>
    cases op with
    | read h k =>
      simp only [Pos.read]
      split
      · simp
      · split
        · simp
        · have := att k b.offset
          generalize Pos.attempt K s.common k b.offset = r at *
          obtain ⟨c, r⟩ := r
          cases r with
          | ret de => simp only; rw [(served_heap _ _ _ _ _ _ _).2]; simp
          | panic p => simp
          | hang => simp at this
    | readAt h k off =>
      simp only [Pos.readAt]
      split
      · simp
      · split
        · simp
        · have := att k off
          generalize Pos.attempt K s.common k off = r at *
          obtain ⟨c, r⟩ := r
          cases r with
          | ret de => simp
          | panic p => simp
          | hang => simp at this
    | seek h off wh =>
      simp only [Pos.seek, ReaderAtBody.seek]
      repeat' split
      all_goals simp
    | copy h => simp only; split <;> simp
    | close h => simp only; split; · simp
                 · generalize (Pos.unref K.R s.common).2 = r; cases r <;> simp [passedOn]
    | _ => simp

theorem at_noHang (R : Rdr σ) (s : PosSys σ) (op : Op) : (ReaderAtBody.step R s op).2 ≠ .hang := by
  rw [at_step]; exact pos_noHang (fun _ _ _ => checked_ne_hang _ _) s op

theorem seek_noHang (R : Rdr σ) (s : PosSys σ) (op : Op) : (SeekerBody.step R s op).2 ≠ .hang := by
  rw [seek_step]
  refine pos_noHang (fun st x off => ?_) s op
  simp only [seekKind]
  split
  · simp
  · simp
  · exact checked_ne_hang _ _

theorem psim_step' {K : PosKind σ} [K.R.CloseOk] {F : List Byte} {Inv : σ → Prop} (hG : GoodGet K F Inv) {n : Nat}
    (hn : n ≤ F.length) (hn63 : n < 2 ^ 63) (s : PosSys σ) (f : List Cursor) (op : Op)
    (hs : PSim (F.take n) Inv s f) (hv : op.Valid) (_ : (Pos.step K s op).2 ≠ .hang) :
    ∃ ch, PosAllowed ch ∧ (Pos.step K s op).2 = (Spec.step (posCfg n) ch f op).2 ∧
      PSim (F.take n) Inv (Pos.step K s op).1 (Spec.step (posCfg n) ch f op).1 :=
  psim_step hG hn hn63 s f op hv hs

/-- After any history over a well-behaved source: the cursors the family behaves as. -/
theorem pos_after {K : PosKind σ} [K.R.CloseOk] {F : List Byte} {Inv : σ → Prop} (hG : GoodGet K F Inv) {n : Nat}
    (hn : n ≤ F.length) (hn63 : n < 2 ^ 63) {st : σ} (hi : Inv st) (hN : ∀ s op, (Pos.step K s op).2 ≠ .hang)
    (ops : List Op) (hv : ∀ op ∈ ops, op.Valid) :
    ∃ f, PSim (F.take n) Inv (run (Pos.step K) (ReaderAtBody.init st n) ops).1 f ∧ FamTight (F.take n) f ∧
      Refines (Pos.step K) (posCfg n) Op.Valid PosAllowed (run (Pos.step K) (ReaderAtBody.init st n) ops).1 f := by
  obtain ⟨chs, _, h1, h2⟩ := refines_after (Allowed := PosAllowed) (PSim (F.take n) Inv) (psim_step' hG hn hn63)
    (psim_init hi hn) ops hv (noHang_run hN _ _)
  refine ⟨_, h1, famTight_run_nd rfl _ (famTight_init _), h2⟩

theorem pos_seek_fail (K : PosKind σ) {s : PosSys σ} (hs : PosInv s) (h : Nat) (off wh : Int) (e : Err)
    (he : (Pos.step K s (.seek h off wh)).2 = .seek (-1) (some e)) : (Pos.step K s (.seek h off wh)).1 = s := by
  unfold Pos.step at he ⊢
  cases hb : s.heap[h]? with
  | none => simp [Op.h, hb]
  | some b =>
    simp only [Op.h, hb] at he ⊢
    rcases pos_seek_cases s h b off wh hs.len with ⟨e, h1⟩ | ⟨_, o, _, _, h2⟩
    · rw [h1]
    · rw [h2] at he; simp at he

/-! ## C16, C18: cursors -/

/-- **C16**: over a source whose `ReadAt` honours the contract of `io.ReaderAt` on the content `F`, a Body of length
`n` (at most that of `F`) and all its copies behave as independent cursors over the first `n` bytes of `F`,
whatever the history of calls.  (`PosAllowed`: nothing panics and `BytesRemaining` is exact; whether `io.EOF` comes
with the last byte or after it is up to the source.) -/
theorem C16_readerAt_refines_cursors {R : Rdr σ} {F : List Byte} {Inv : σ → Prop} (hR : IsReaderAt R F Inv) (st : σ)
    (hi : Inv st) (n : Nat) (hn : n ≤ F.length) (hn63 : n < 2 ^ 63) :
    Refines (ReaderAtBody.step R) (posCfg n) Op.Valid PosAllowed (ReaderAtBody.init st n) [{ content := F.take n }] := by
  rw [at_step]
  haveI := hR.closeOk
  exact refines_of_sim (PSim (F.take n) Inv) (psim_step' (goodGet_at hR) hn hn63) (psim_init hi hn)

/-- **C16**: no call fails to return. -/
theorem C16_calls_return (R : Rdr σ) (st : σ) (n : Nat) (ops : List Op) : Out.hang ∉ atOuts R st n ops :=
  noHang_run (at_noHang R) _ _

/-- Non-vacuity: every content, every length; and a history. -/
example (F : List Byte) : IsReaderAt (fileRdr F) F (fun _ => True) := fileRdr_readerAt F
example : atOuts (fileRdr [1, 2, 3, 4, 5]) 0 4 [.read 0 2, .copy 0, .read 0 9, .read 1 1, .seek 0 1 0, .close 1,
      .read 0 3, .read 1 1, .readAt 0 2 3, .remaining 0, .unwrap 0, .unwrap 1, .close 0] =
    [.read [1, 2] none, .copied 1, .read [3, 4] (some .eof), .read [3] none, .seek 1 none, .closed none,
      .read [2, 3, 4] none, .read [] (some .closed), .read [4] (some .eof), .remaining 0, .unwrap true, .unwrap false,
      .closed (some (.ext 7))] := by decide +kernel

/-- **C18**, restricted to seekers whose `Read` fills the buffer while data remains.  The full statement, without that
restriction, is `∀ R F At, IsSeeker R F At → …` and is refuted by `C18_false`. -/
theorem C18_seeker_refines_cursors_partial {R : Rdr σ} {F : List Byte} {At : σ → Nat → Prop} (hR : IsFullSeeker R F At)
    (st : σ) (p : Nat) (hi : At st p) (n : Nat) (hn : n ≤ F.length) (hn63 : n < 2 ^ 63) :
    Refines (SeekerBody.step R) (posCfg n) Op.Valid PosAllowed (SeekerBody.init st n) [{ content := F.take n }] := by
  rw [seek_step]
  haveI := hR.closeOk
  exact refines_of_sim (PSim (F.take n) (fun st => ∃ p, At st p)) (psim_step' (goodGet_seek hR) hn hn63)
    (psim_init ⟨p, hi⟩ hn)

/-- **C18**: no call fails to return. -/
theorem C18_calls_return (R : Rdr σ) (st : σ) (n : Nat) (ops : List Op) : Out.hang ∉ seekOuts R st n ops :=
  noHang_run (seek_noHang R) _ _

example (F : List Byte) : IsFullSeeker (fileRdr F) F (fun st p => st = p) := fileRdr_seeker F
example : seekOuts (fileRdr [1, 2, 3, 4, 5]) 3 4 [.read 0 2, .copy 0, .read 0 9, .read 1 1, .seek 0 1 0, .close 1,
      .read 0 3, .read 1 1, .readAt 0 2 3, .remaining 0, .close 0] =
    [.read [1, 2] none, .copied 1, .read [3, 4] (some .eof), .read [3] none, .seek 1 none, .closed none,
      .read [2, 3, 4] none, .read [] (some .closed), .read [4] (some .eof), .remaining 0,
      .closed (some (.ext 7))] := by decide +kernel

/-- **C18 is false** for seekers that honour the `io.Reader` contract but return short counts: over the two bytes
`[1, 2]`, delivered one at a time, a `Read` with a buffer of four returns one byte together with `io.EOF`, and the
second byte is never delivered, to no copy. -/
theorem C18_false : ¬ ∀ (σ : Type) (R : Rdr σ) (F : List Byte) (At : σ → Nat → Prop) (st : σ),
    IsSeeker R F At → At st 0 →
    Refines (SeekerBody.step R) (posCfg F.length) Op.Valid PosAllowed (SeekerBody.init st F.length) [{ content := F }] := by
  intro h
  have := h Nat (shortRdr [1, 2]) [1, 2] _ 0 (shortRdr_seeker _) rfl [.read 0 4] (by simp [Op.Valid]) (by decide +kernel)
  obtain ⟨chs, h1, h2, h3⟩ := this
  match chs, h1 with
  | [ch], _ =>
    have hch := h2 ch (by simp)
    have e1 : (run (SeekerBody.step (shortRdr [1, 2])) (SeekerBody.init 0 ([1, 2] : List Byte).length) [.read 0 4]).2 =
      [.read [1] (some .eof)] := by decide +kernel
    rw [e1] at h3
    simp [Spec.run, Spec.step, Op.h, Cursor.read, hch.2, posCfg] at h3

/-- What the witness does: the second byte is lost to both copies, and is no longer counted. -/
example : seekOuts (shortRdr [1, 2]) 0 2 [.copy 0, .read 0 4, .remaining 1, .read 1 1, .read 1 1] =
    [.copied 1, .read [1] (some .eof), .remaining 1, .read [1] none, .read [] (some .eof)] := by decide +kernel

/-! ## C03, C04, C19, C20: seeking, positional reads, lengths -/

theorem pos_seekClamped {K : PosKind σ} [K.R.CloseOk] {F : List Byte} {Inv : σ → Prop} (hG : GoodGet K F Inv) {n : Nat}
    (hn : n ≤ F.length) (hn63 : n < 2 ^ 63) {st : σ} (hi : Inv st) (hN : ∀ s op, (Pos.step K s op).2 ≠ .hang)
    (ops : List Op) (hv : ∀ op ∈ ops, op.Valid) (h : Nat)
    (ho : IsOpen (Pos.step K) (run (Pos.step K) (ReaderAtBody.init st n) ops).1 h) :
    SeekClamped (Pos.step K) (F.take n) (run (Pos.step K) (ReaderAtBody.init st n) ops).1 h := by
  obtain ⟨f, _, h2, h3⟩ := pos_after hG hn hn63 hi hN ops hv
  exact seekClamped_of_refines h3 hN h2.1 rfl (fun ch h => h) (by simp [Op.Valid]) (by simp [Op.Valid])
    (by simp [Op.Valid]) (by simp [Op.Valid])
    (fun off wh e => pos_seek_fail K (posInv_run K ops (posInv_init st n)) h off wh e) ho

/-- **C03** over an `io.ReaderAt`. -/
theorem C03_seek_readerAt {R : Rdr σ} {F : List Byte} {Inv : σ → Prop} (hR : IsReaderAt R F Inv) (st : σ) (hi : Inv st)
    (n : Nat) (hn : n ≤ F.length) (hn63 : n < 2 ^ 63) (ops : List Op) (hv : ∀ op ∈ ops, op.Valid) (h : Nat)
    (ho : IsOpen (ReaderAtBody.step R) (atAfter R st n ops) h) :
    SeekClamped (ReaderAtBody.step R) (F.take n) (atAfter R st n ops) h := by
  have hN := at_noHang R
  simp only [atAfter, at_step] at *
  haveI := hR.closeOk
  exact pos_seekClamped (goodGet_at hR) hn hn63 hi hN ops hv h ho

/-- **C03** over an `io.ReadSeeker`. -/
theorem C03_seek_seeker {R : Rdr σ} {F : List Byte} {At : σ → Nat → Prop} (hR : IsFullSeeker R F At) (st : σ) (p : Nat)
    (hi : At st p) (n : Nat) (hn : n ≤ F.length) (hn63 : n < 2 ^ 63) (ops : List Op) (hv : ∀ op ∈ ops, op.Valid) (h : Nat)
    (ho : IsOpen (SeekerBody.step R) (seekAfter R st n ops) h) :
    SeekClamped (SeekerBody.step R) (F.take n) (seekAfter R st n ops) h := by
  have hN := seek_noHang R
  simp only [seekAfter, seek_step] at *
  haveI := hR.closeOk
  exact pos_seekClamped (goodGet_seek hR) hn hn63 ⟨p, hi⟩ hN ops hv h ho

/-- **C03** for every reader, however it misbehaves: a `Seek` that fails changes nothing. -/
theorem C03_failed_seek_changes_nothing (R : Rdr σ) (st : σ) (n : Nat) (ops : List Op) (h : Nat) (off wh : Int) (e : Err) :
    ((ReaderAtBody.step R (atAfter R st n ops) (.seek h off wh)).2 = .seek (-1) (some e) →
      (ReaderAtBody.step R (atAfter R st n ops) (.seek h off wh)).1 = atAfter R st n ops) ∧
    ((SeekerBody.step R (seekAfter R st n ops) (.seek h off wh)).2 = .seek (-1) (some e) →
      (SeekerBody.step R (seekAfter R st n ops) (.seek h off wh)).1 = seekAfter R st n ops) := by
  simp only [atAfter, seekAfter, at_step, seek_step]
  exact ⟨pos_seek_fail _ (posInv_run _ ops (posInv_init st n)) h off wh e,
    pos_seek_fail _ (posInv_run _ ops (posInv_init st n)) h off wh e⟩

example : IsOpen (ReaderAtBody.step (fileRdr [1, 2, 3])) (atAfter (fileRdr [1, 2, 3]) 0 3 [.copy 0, .read 1 9, .close 0]) 1 ∧
    IsOpen (SeekerBody.step (fileRdr [1, 2, 3])) (seekAfter (fileRdr [1, 2, 3]) 0 3 [.copy 0, .read 1 9, .close 0]) 1 :=
  ⟨⟨2, by decide +kernel⟩, ⟨2, by decide +kernel⟩⟩

theorem pos_readAt {K : PosKind σ} [K.R.CloseOk] {F : List Byte} {Inv : σ → Prop} (hG : GoodGet K F Inv) {n : Nat}
    (hn : n ≤ F.length) (hn63 : n < 2 ^ 63) {st : σ} (hi : Inv st) (hN : ∀ s op, (Pos.step K s op).2 ≠ .hang)
    (ops : List Op) (hv : ∀ op ∈ ops, op.Valid) (h : Nat)
    (ho : IsOpen (Pos.step K) (run (Pos.step K) (ReaderAtBody.init st n) ops).1 h) :
    ReadAtExact (Pos.step K) (F.take n) (run (Pos.step K) (ReaderAtBody.init st n) ops).1 h ∧
    ∃ f, Refines (Pos.step K) (posCfg n) Op.Valid PosAllowed (run (Pos.step K) (ReaderAtBody.init st n) ops).1 f ∧
      ∀ k off, IsI64 off → Refines (Pos.step K) (posCfg n) Op.Valid PosAllowed
        (Pos.step K (run (Pos.step K) (ReaderAtBody.init st n) ops).1 (.readAt h k off)).1 f := by
  obtain ⟨f, h1, h2, h3⟩ := pos_after hG hn hn63 hi hN ops hv
  obtain ⟨c, hc, hop⟩ := isOpen_get h3 (by simp [Op.Valid]) ho
  obtain ⟨hct, hp⟩ := h2.1 c (List.mem_of_getElem? hc)
  refine ⟨?_, f, h3, ?_⟩
  · intro k off hoff
    obtain ⟨ch, hch, e⟩ := h3.one (.readAt h k off) hoff (hN _ _)
    rw [e]
    refine ⟨?_, ?_⟩
    · intro hn
      simp [Spec.step, Op.h, hc, posCfg, Cursor.readAt, hop, hn]
    · intro hn
      have hn' : ¬ off < 0 := by omega
      simp only [Spec.step, Op.h, hc, posCfg, if_true, Cursor.readAt, hop, Bool.not_true, Bool.false_eq_true, if_false, hn',
        hch.2, hct]
      generalize F.take n = C
      generalize off.toNat = o
      have hdr : (C.drop (min o C.length)).take k = (C.drop o).take k := by
        by_cases hle : o ≤ C.length
        · rw [Nat.min_eq_left hle]
        · rw [Nat.min_eq_right (by omega), List.drop_eq_nil_of_le (Nat.le_refl _), List.drop_eq_nil_of_le (by omega)]
      rw [hdr]
      by_cases hlast : C.length < min o C.length + k
      · left
        have : C.length - o < k := by omega
        simp [hlast, this]
      · have hsh : ¬ C.length - o < k := by omega
        by_cases he : (ch.early && decide (0 < k) && decide (min o C.length + k = C.length)) = true
        · right
          simp only [Bool.and_eq_true, decide_eq_true_eq] at he
          refine ⟨he.1.2, by omega, ?_⟩
          simp [he.1.1, he.1.2, he.2]
        · left
          simp only [Bool.not_eq_true] at he
          rw [he]
          simp [hlast, hsh]
  · intro k off hoff
    obtain ⟨ch, _, e, h4⟩ := psim_step hG hn hn63 _ f (.readAt h k off) hoff h1
    have : (Spec.step (posCfg n) ch f (.readAt h k off)).1 = f := by
      simp only [Spec.step, Op.h, hc, posCfg, if_true]
    rw [this] at h4
    exact refines_of_sim (PSim (F.take n) Inv) (psim_step' hG hn hn63) h4

/-- **C04** over an `io.ReaderAt`: on every open Body, after every history, `ReadAt` is a positional read of the
content; and the family behaves afterwards as the same cursors as before. -/
theorem C04_readAt_readerAt {R : Rdr σ} {F : List Byte} {Inv : σ → Prop} (hR : IsReaderAt R F Inv) (st : σ) (hi : Inv st)
    (n : Nat) (hn : n ≤ F.length) (hn63 : n < 2 ^ 63) (ops : List Op) (hv : ∀ op ∈ ops, op.Valid) (h : Nat)
    (ho : IsOpen (ReaderAtBody.step R) (atAfter R st n ops) h) :
    ReadAtExact (ReaderAtBody.step R) (F.take n) (atAfter R st n ops) h ∧
    ∃ f, Refines (ReaderAtBody.step R) (posCfg n) Op.Valid PosAllowed (atAfter R st n ops) f ∧
      ∀ k off, IsI64 off → Refines (ReaderAtBody.step R) (posCfg n) Op.Valid PosAllowed
        (ReaderAtBody.step R (atAfter R st n ops) (.readAt h k off)).1 f := by
  have hN := at_noHang R
  simp only [atAfter, at_step] at *
  haveI := hR.closeOk
  exact pos_readAt (goodGet_at hR) hn hn63 hi hN ops hv h ho

/-- **C19** (and C04), for seekers whose `Read` fills the buffer: the same.  The full statement of C19, for all
well-behaved seekers, is refuted by `C19_false`. -/
theorem C19_readAt_seeker_partial {R : Rdr σ} {F : List Byte} {At : σ → Nat → Prop} (hR : IsFullSeeker R F At) (st : σ)
    (p : Nat) (hi : At st p) (n : Nat) (hn : n ≤ F.length) (hn63 : n < 2 ^ 63) (ops : List Op) (hv : ∀ op ∈ ops, op.Valid)
    (h : Nat) (ho : IsOpen (SeekerBody.step R) (seekAfter R st n ops) h) :
    ReadAtExact (SeekerBody.step R) (F.take n) (seekAfter R st n ops) h ∧
    ∃ f, Refines (SeekerBody.step R) (posCfg n) Op.Valid PosAllowed (seekAfter R st n ops) f ∧
      ∀ k off, IsI64 off → Refines (SeekerBody.step R) (posCfg n) Op.Valid PosAllowed
        (SeekerBody.step R (seekAfter R st n ops) (.readAt h k off)).1 f := by
  have hN := seek_noHang R
  simp only [seekAfter, seek_step] at *
  haveI := hR.closeOk
  exact pos_readAt (goodGet_seek hR) hn hn63 ⟨p, hi⟩ hN ops hv h ho

/-- **C19 is false** for seekers that honour the `io.Reader` contract but return short counts: `ReadAt` returns fewer
bytes than asked for without an error. -/
theorem C19_false : ¬ ∀ (σ : Type) (R : Rdr σ) (F : List Byte) (At : σ → Nat → Prop) (st : σ),
    IsSeeker R F At → At st 0 → ∀ k off d,
      seekOuts R st F.length [.readAt 0 k off] = [.read d none] → d.length = k := by
  intro h
  have := h Nat (shortRdr [1, 2]) [1, 2] _ 0 (shortRdr_seeker _) rfl 2 0 [1] (by decide +kernel)
  simp at this

/-- **C20** over an `io.ReaderAt`, for every reader, however it misbehaves: `BytesRemaining` is never negative. -/
theorem C20_remaining_readerAt (R : Rdr σ) (st : σ) (n : Nat) (ops : List Op) (h : Nat) (m : Int)
    (hm : (ReaderAtBody.step R (atAfter R st n ops) (.remaining h)).2 = .remaining m) : 0 ≤ m := by
  have hs := posInv_run (atKind R) ops (posInv_init st n)
  simp only [atAfter, at_step] at *
  generalize (run (Pos.step (atKind R)) (ReaderAtBody.init st n) ops).1 = s at *
  simp only [Pos.step, Op.h] at hm
  cases hb : s.heap[h]? with
  | none => simp [hb] at hm
  | some b =>
    simp only [hb, Pos.remaining, atKind, Bool.true_and, Out.remaining.injEq] at hm
    subst hm
    split
    · omega
    · split
      · omega
      · rename_i h2; simp at h2; omega

/-- **C20** over an `io.ReadSeeker`, for seekers whose `Read` fills the buffer: exact, hence not negative. -/
theorem C20_remaining_seeker_partial {R : Rdr σ} {F : List Byte} {At : σ → Nat → Prop} (hR : IsFullSeeker R F At) (st : σ)
    (p : Nat) (hi : At st p) (n : Nat) (hn : n ≤ F.length) (hn63 : n < 2 ^ 63) (ops : List Op) (hv : ∀ op ∈ ops, op.Valid)
    (h : Nat) (he : Spec.Exists (SeekerBody.step R) (seekAfter R st n ops) h) :
    RemainingExact (SeekerBody.step R) (seekAfter R st n ops) h := by
  have hN := seek_noHang R
  simp only [seekAfter, seek_step] at *
  haveI := hR.closeOk
  obtain ⟨f, _, h2, h3⟩ := pos_after (goodGet_seek hR) hn hn63 ⟨p, hi⟩ hN ops hv
  exact remainingExact_of_refines h3 hN h2 (fun ch h => h) (by simp [Op.Valid]) (by simp [Op.Valid]) he

/-- **C20**, exactness over a well-behaved `io.ReaderAt`. -/
theorem C20_exact_readerAt {R : Rdr σ} {F : List Byte} {Inv : σ → Prop} (hR : IsReaderAt R F Inv) (st : σ) (hi : Inv st)
    (n : Nat) (hn : n ≤ F.length) (hn63 : n < 2 ^ 63) (ops : List Op) (hv : ∀ op ∈ ops, op.Valid)
    (h : Nat) (he : Spec.Exists (ReaderAtBody.step R) (atAfter R st n ops) h) :
    RemainingExact (ReaderAtBody.step R) (atAfter R st n ops) h := by
  have hN := at_noHang R
  simp only [atAfter, at_step] at *
  haveI := hR.closeOk
  obtain ⟨f, _, h2, h3⟩ := pos_after (goodGet_at hR) hn hn63 hi hN ops hv
  exact remainingExact_of_refines h3 hN h2 (fun ch h => h) (by simp [Op.Valid]) (by simp [Op.Valid]) he

/-- **C20 is false** for Seeker-backed bodies: every negative number occurs.  A copy seeks to the end of a file of
`m` bytes, then a read of the other copy fails once, at the start: the shared length becomes 0. -/
theorem C20_false_seeker (m : Nat) (hm : m < 2 ^ 63) :
    ∃ (F : List Byte) (ops : List Op), F.length = m ∧ (∀ op ∈ ops, op.Valid) ∧
      (SeekerBody.step (flakyRdr F) (seekAfter (flakyRdr F) (false, 0) m ops) (.remaining 1)).2 = .remaining (-(m : Int)) := by
  refine ⟨List.replicate m 0, [.copy 0, .seek 1 m 0, .read 0 1], by simp, by simp [Op.Valid, IsI64]; omega, ?_⟩
  have hm' : ((m : Int) < 9223372036854775808) := by omega
  by_cases h0 : m = 0
  · subst h0; decide +kernel
  · have hpos : (0 : Int) < m := by omega
    have hk : ¬ ((m : Int) < 1) := by omega
    have hneg : ¬ ((m : Int) < 0) := by omega
    have hposn : 0 < m := by omega
    simp [seekAfter, run_cons, run_nil, SeekerBody.step, SeekerBody.init, SeekerBody.ref, SeekerBody.copy, Op.h,
      SeekerBody.seek, SeekerBody.commonRemaining, SeekerBody.read, SeekerBody.bytesRemaining, SeekerBody.commonReadAt,
      flakyRdr, goSlice, hpos, hk, hneg, hposn, fileRdr]

/-! ## C03 over arbitrary readers -/

theorem pos_seekArith {K : PosKind σ} {s : PosSys σ} {n : Nat} (hn : n < 2 ^ 63) (hi : PosInv s) (hb : PosBound n s) {h : Nat}
    (ho : IsOpen (Pos.step K) s h) : SeekArith (Pos.step K) n s h := by
  obtain ⟨b, hb', hc⟩ := pos_isOpen.1 ho
  have hlt := (List.getElem?_eq_some_iff.1 hb').1
  have h1 := hi.len
  have h2 := hb.len
  have h3 := hi.off b (List.mem_of_getElem? hb')
  have h4 := hb.off b (List.mem_of_getElem? hb')
  have hl : s.common.length = (s.common.length.toNat : Int) := by omega
  have hq : b.offset = (b.offset.toNat : Int) := by omega
  refine ⟨s.common.length.toNat, b.offset.toNat, by omega, ?_, ?_⟩
  · intro hle
    simp only [Pos.step, Op.h, hb', Pos.remaining, hc, Bool.false_eq_true, if_false]
    split
    · rename_i hcl
      simp only [Bool.and_eq_true, decide_eq_true_eq] at hcl
      congr 1; omega
    · congr 1; omega
  · intro off wh hv
    have e1 := pos_seek_exact s h b hc _ _ hl hq (by omega) (by omega) off wh hv
    have e0 : Pos.step K s (.seek h off wh) = Pos.seek s h b off wh := by simp [Pos.step, Op.h, hb']
    rw [← e0] at e1
    cases hsa : seekAnswer s.common.length.toNat b.offset.toNat off wh with
    | error e => rw [hsa] at e1; exact e1
    | ok p =>
      rw [hsa] at e1
      have hp := seekAnswer_le hsa
      simp only at e1 ⊢
      rw [e1]
      have hg : (s.heap.set h { b with err := none, offset := (p : Int) })[h]? = some { b with err := none, offset := (p : Int) } :=
        List.getElem?_set_self hlt
      refine ⟨rfl, ?_, ?_⟩
      · simp only [Pos.step, Op.h, hg, Pos.remaining]
        rw [if_neg (by simp [hc])]
        split
        · rename_i hcl
          simp only [Bool.and_eq_true, decide_eq_true_eq] at hcl
          congr 1; omega
        · congr 1; omega
      · intro off' wh' hv'
        simp only [Pos.step, Op.h, hg]
        rw [pos_seek_exact { common := s.common, heap := s.heap.set h { b with err := none, offset := (p : Int) } } h
          { b with err := none, offset := (p : Int) } hc s.common.length.toNat p hl rfl (by omega) (by omega) off' wh' hv']
        cases seekAnswer s.common.length.toNat p off' wh' <;> rfl

/-- **C03** over an `io.ReaderAt`, for every reader, however it misbehaves, and every declared length. -/
theorem C03_seek_any_readerAt (R : Rdr σ) (st : σ) (n : Nat) (hn : n < 2 ^ 63) (ops : List Op) (h : Nat)
    (ho : IsOpen (ReaderAtBody.step R) (atAfter R st n ops) h) : SeekArith (ReaderAtBody.step R) n (atAfter R st n ops) h := by
  simp only [atAfter, at_step] at *
  exact pos_seekArith hn (posInv_run _ ops (posInv_init st n))
    (posBound_run (getShort_at R) (Int.natCast_nonneg n) ops (posInv_init st n) ⟨Int.le_refl _, by simp [ReaderAtBody.init]⟩) ho

/-- **C03** over an `io.ReadSeeker`, for every reader. -/
theorem C03_seek_any_seeker (R : Rdr σ) (st : σ) (n : Nat) (hn : n < 2 ^ 63) (ops : List Op) (h : Nat)
    (ho : IsOpen (SeekerBody.step R) (seekAfter R st n ops) h) : SeekArith (SeekerBody.step R) n (seekAfter R st n ops) h := by
  simp only [seekAfter, seek_step] at *
  exact pos_seekArith hn (posInv_run _ ops (posInv_init st n))
    (posBound_run (getShort_seek R) (Int.natCast_nonneg n) ops (posInv_init st n) ⟨Int.le_refl _, by simp [ReaderAtBody.init]⟩) ho

/-! ## C05: closed bodies -/

theorem pos_close_closed {K : PosKind σ} {s : PosSys σ} {h : Nat} (he : Spec.Exists (Pos.step K) s h) :
    ∃ b, (Pos.step K s (.close h)).1.heap[h]? = some b ∧ b.closed = true := by
  obtain ⟨b, hb⟩ := pos_exists.1 he
  have hlt := (List.getElem?_eq_some_iff.1 hb).1
  simp only [Pos.step, Op.h, hb]
  by_cases hc : b.closed = true
  · rw [if_pos hc]; exact ⟨b, hb, hc⟩
  · rw [if_neg hc]
    exact ⟨_, List.getElem?_set_self hlt, rfl⟩

theorem pos_closed_inert (K : PosKind σ) (st : σ) (n : Nat) (ops ops' : List Op) (h : Nat)
    (he : Spec.Exists (Pos.step K) (run (Pos.step K) (ReaderAtBody.init st n) ops).1 h) :
    Inert (Pos.step K) true false (run (Pos.step K) (ReaderAtBody.init st n) (ops ++ .close h :: ops')).1 h := by
  rw [run_append, run_cons]
  have hs := posInv_run K ops (posInv_init st n)
  obtain ⟨b, hb, hc⟩ := pos_close_closed he
  exact pos_inert (pos_run_keeps_closed K ops' (posInv_step K _ _ hs) hb hc) hc

/-- **C05** over an `io.ReaderAt`, for every reader: once closed, inert forever. -/
theorem C05_closed_inert_readerAt (R : Rdr σ) (st : σ) (n : Nat) (ops ops' : List Op) (h : Nat)
    (he : Spec.Exists (ReaderAtBody.step R) (atAfter R st n ops) h) :
    Inert (ReaderAtBody.step R) true false (atAfter R st n (ops ++ .close h :: ops')) h := by
  simp only [atAfter, at_step] at *
  exact pos_closed_inert _ st n ops ops' h he

/-- **C05** over an `io.ReadSeeker`, for every reader. -/
theorem C05_closed_inert_seeker (R : Rdr σ) (st : σ) (n : Nat) (ops ops' : List Op) (h : Nat)
    (he : Spec.Exists (SeekerBody.step R) (seekAfter R st n ops) h) :
    Inert (SeekerBody.step R) true false (seekAfter R st n (ops ++ .close h :: ops')) h := by
  simp only [seekAfter, seek_step] at *
  exact pos_closed_inert _ st n ops ops' h he

example : Spec.Exists (ReaderAtBody.step (fileRdr [1, 2])) (atAfter (fileRdr [1, 2]) 0 2 [.copy 0, .close 0]) 1 ∧
    Spec.Exists (SeekerBody.step (fileRdr [1, 2])) (seekAfter (fileRdr [1, 2]) 0 2 [.copy 0, .close 0]) 1 := by
  refine ⟨?_, ?_⟩ <;> unfold Spec.Exists <;> decide +kernel

/-! ## C15: closing the reader -/

theorem posCloseInv_init (K : PosKind (Rec σ)) (st : σ) (n : Nat) : PosCloseInv K (ReaderAtBody.init ⟨st, []⟩ n) :=
  ⟨posInv_init _ _, fun _ => rfl, fun h => by simp [ReaderAtBody.init, posOpen] at h⟩

theorem posCloseInv_step {K : PosKind (Rec σ)} (hK : LogOk K) (hC : ∀ rc, ∃ e, (K.R.close rc).1.log = rc.log ++ [.close e])
    {s : PosSys (Rec σ)} (hs : PosCloseInv K s) (op : Op) : PosCloseInv K (Pos.step K s op).1 := by
  have hi := posInv_step K s op hs.inv
  have plain : ((∀ h, op ≠ .close h) ∨ ∀ b, s.heap[op.h]? = some b → b.closed = true) →
      PosCloseInv K (Pos.step K s op).1 := by
    intro hne
    obtain ⟨ext, h1, h2⟩ := pos_log K hK s op hne
    have h3 := pos_openCount K s op hs.inv.len hne
    refine ⟨hi, ?_, ?_⟩
    · intro h; rw [h1, closes_append', h2, hs.openNone (h3.1 h)]; rfl
    · intro h; rw [h1, closes_append', h2, List.append_nil]; exact hs.closedOnce (by omega)
  by_cases hcl : ∃ h, op = .close h
  · obtain ⟨h, rfl⟩ := hcl
    cases hb : s.heap[h]? with
    | none => exact plain (.inr (by simp [Op.h, hb]))
    | some b =>
      cases hc : b.closed with
      | true => exact plain (.inr (by intro b' hb'; simp only [Op.h, hb, Option.some.injEq] at hb'; rw [← hb']; exact hc))
      | false =>
        have hopn := hs.openNone (posOpen_pos hb hc)
        rcases pos_close K hs.inv hb hc with ⟨h1, _, h3⟩ | ⟨h1, _, ⟨h2, _, h3⟩ | ⟨h2, _, h3⟩⟩
        · exact ⟨hi, fun _ => by rw [h3]; exact hopn, fun h => by omega⟩
        · refine ⟨hi, fun h => by omega, fun _ => ?_⟩
          obtain ⟨e, he⟩ := hC s.common.rdr
          rw [h3, he, closes_append', hopn, h2]
          rfl
        · refine ⟨hi, fun h => by omega, fun _ => ?_⟩
          rw [h3, hopn, h2]
          rfl
  · exact plain (.inl (fun h e => hcl ⟨h, e⟩))

theorem posCloseInv_run {K : PosKind (Rec σ)} (hK : LogOk K) (hC : ∀ rc, ∃ e, (K.R.close rc).1.log = rc.log ++ [.close e])
    (ops : List Op) {s : PosSys (Rec σ)} (hs : PosCloseInv K s) : PosCloseInv K (run (Pos.step K) s ops).1 := by
  induction ops generalizing s with
  | nil => exact hs
  | cons op ops ih => rw [run_cons]; exact ih (posCloseInv_step hK hC hs op)

theorem record_close (R : Rdr σ) (rc : Rec σ) : ∃ e, (R.record.close rc).1.log = rc.log ++ [.close e] := ⟨_, rfl⟩

/-- The log of the calls made on the reader by a ReaderAt-backed family. -/
abbrev atLog (R : Rdr σ) (st : σ) (n : Nat) (ops : List Op) : List Call :=
  (atAfter R.record ⟨st, []⟩ n ops).common.rdr.log

/-- The log of the calls made on the reader by a Seeker-backed family. -/
abbrev seekLog (R : Rdr σ) (st : σ) (n : Nat) (ops : List Op) : List Call :=
  (seekAfter R.record ⟨st, []⟩ n ops).common.rdr.log

/-- **C15** over an `io.ReaderAt`: while a Body is open the Reader has not been closed; once all are closed it has been
closed exactly once, if it can be closed. -/
theorem C15_closed_exactly_once_readerAt (R : Rdr σ) (st : σ) (n : Nat) (ops : List Op) :
    ((∃ h, IsOpen (ReaderAtBody.step R.record) (atAfter R.record ⟨st, []⟩ n ops) h) → closes (atLog R st n ops) = []) ∧
    ((¬ ∃ h, IsOpen (ReaderAtBody.step R.record) (atAfter R.record ⟨st, []⟩ n ops) h) →
      (closes (atLog R st n ops)).length = if R.isCloser then 1 else 0) := by
  have := posCloseInv_run (logOk_at R) (record_close R) ops (posCloseInv_init _ st n)
  simp only [atLog, atAfter, at_step, pos_anyOpen] at *
  exact ⟨this.openNone, fun h => this.closedOnce (Nat.eq_zero_of_not_pos h)⟩

/-- **C15** over an `io.ReadSeeker`. -/
theorem C15_closed_exactly_once_seeker (R : Rdr σ) (st : σ) (n : Nat) (ops : List Op) :
    ((∃ h, IsOpen (SeekerBody.step R.record) (seekAfter R.record ⟨st, []⟩ n ops) h) → closes (seekLog R st n ops) = []) ∧
    ((¬ ∃ h, IsOpen (SeekerBody.step R.record) (seekAfter R.record ⟨st, []⟩ n ops) h) →
      (closes (seekLog R st n ops)).length = if R.isCloser then 1 else 0) := by
  have := posCloseInv_run (logOk_seek R) (record_close R) ops (posCloseInv_init _ st n)
  simp only [seekLog, seekAfter, seek_step, pos_anyOpen] at *
  exact ⟨this.openNone, fun h => this.closedOnce (Nat.eq_zero_of_not_pos h)⟩

theorem pos_close_answers {K : PosKind (Rec σ)} {R : Rdr σ} (hKR : K.R = R.record) {s : PosSys (Rec σ)} (hs : PosInv s)
    {h : Nat} (ho : IsOpen (Pos.step K) s h) {r : PosSys (Rec σ) × Out} (hr : r = Pos.step K s (.close h)) :
    ¬ IsOpen (Pos.step K) r.1 h ∧
    ((∃ i, IsOpen (Pos.step K) r.1 i) → r.2 = .closed none ∧ r.1.common.rdr.log = s.common.rdr.log) ∧
    ((¬ ∃ i, IsOpen (Pos.step K) r.1 i) →
      (R.isCloser = true → ∃ c, r.2 = passedOn c ∧ r.1.common.rdr.log = s.common.rdr.log ++ [.close c]) ∧
      (R.isCloser = false → r.2 = .closed none ∧ r.1.common.rdr.log = s.common.rdr.log)) := by
  obtain ⟨b, hb, hc⟩ := pos_isOpen.1 ho
  have hP := pos_close K hs hb hc
  refine ⟨?_, ?_, ?_⟩
  · obtain ⟨b', hb', hc'⟩ := pos_close_closed (K := K) (pos_exists.2 ⟨b, hb⟩)
    rw [pos_isOpen, hr]
    rintro ⟨b'', hb'', hc''⟩
    rw [hb'] at hb''
    cases hb''
    rw [hc'] at hc''
    cases hc''
  · rw [pos_anyOpen]
    intro ho
    rw [hr] at ho ⊢
    rcases hP with ⟨_, h2, h3⟩ | ⟨h1, _⟩
    · exact ⟨h2, by rw [h3]⟩
    · omega
  · rw [pos_anyOpen]
    intro ho
    rw [hr] at ho ⊢
    rcases hP with ⟨h1, _⟩ | ⟨_, _, hx⟩
    · omega
    · rw [hKR] at hx
      rcases hx with ⟨h2, h3, h4⟩ | ⟨h2, h3, h4⟩
      · have h2' : R.isCloser = true := h2
        refine ⟨fun _ => ⟨(R.close s.common.rdr.inner).2, h3, by rw [h4]; rfl⟩, fun h => by rw [h2'] at h; cases h⟩
      · have h2' : R.isCloser = false := h2
        refine ⟨fun h => (by rw [h2'] at h; cases h), fun _ => ⟨h3, by rw [h4]⟩⟩

/-- **C15** over an `io.ReaderAt`: the first `Close` of a Body returns nil and does not touch the Reader unless it closes
the last open Body; then it calls the Reader's `Close`, nothing else, and returns its error (or passes on its panic; the Body is closed all the same). -/
theorem C15_close_answers_readerAt (R : Rdr σ) (st : σ) (n : Nat) (ops : List Op) (h : Nat)
    (ho : IsOpen (ReaderAtBody.step R.record) (atAfter R.record ⟨st, []⟩ n ops) h)
    {r : PosSys (Rec σ) × Out} (hr : r = ReaderAtBody.step R.record (atAfter R.record ⟨st, []⟩ n ops) (.close h)) :
    ¬ IsOpen (ReaderAtBody.step R.record) r.1 h ∧
    ((∃ i, IsOpen (ReaderAtBody.step R.record) r.1 i) → r.2 = .closed none ∧ r.1.common.rdr.log = atLog R st n ops) ∧
    ((¬ ∃ i, IsOpen (ReaderAtBody.step R.record) r.1 i) →
      (R.isCloser = true → ∃ c, r.2 = passedOn c ∧ r.1.common.rdr.log = atLog R st n ops ++ [.close c]) ∧
      (R.isCloser = false → r.2 = .closed none ∧ r.1.common.rdr.log = atLog R st n ops)) := by
  simp only [atLog, atAfter, at_step] at *
  exact pos_close_answers rfl (posInv_run _ ops (posInv_init _ n)) ho hr

/-- **C15** over an `io.ReadSeeker`. -/
theorem C15_close_answers_seeker (R : Rdr σ) (st : σ) (n : Nat) (ops : List Op) (h : Nat)
    (ho : IsOpen (SeekerBody.step R.record) (seekAfter R.record ⟨st, []⟩ n ops) h)
    {r : PosSys (Rec σ) × Out} (hr : r = SeekerBody.step R.record (seekAfter R.record ⟨st, []⟩ n ops) (.close h)) :
    ¬ IsOpen (SeekerBody.step R.record) r.1 h ∧
    ((∃ i, IsOpen (SeekerBody.step R.record) r.1 i) → r.2 = .closed none ∧ r.1.common.rdr.log = seekLog R st n ops) ∧
    ((¬ ∃ i, IsOpen (SeekerBody.step R.record) r.1 i) →
      (R.isCloser = true → ∃ c, r.2 = passedOn c ∧ r.1.common.rdr.log = seekLog R st n ops ++ [.close c]) ∧
      (R.isCloser = false → r.2 = .closed none ∧ r.1.common.rdr.log = seekLog R st n ops)) := by
  simp only [seekLog, seekAfter, seek_step] at *
  exact pos_close_answers rfl (posInv_run _ ops (posInv_init _ n)) ho hr

/-- **C15**: calls other than `Close` do not close the Reader. -/
theorem C15_only_close_closes_positional (R : Rdr σ) (st : σ) (n : Nat) (ops : List Op) (op : Op)
    (hne : ∀ h, op ≠ .close h) :
    closes (atLog R st n (ops ++ [op])) = closes (atLog R st n ops) ∧
    closes (seekLog R st n (ops ++ [op])) = closes (seekLog R st n ops) := by
  simp only [atLog, seekLog, atAfter, seekAfter, at_step, seek_step]
  refine ⟨?_, ?_⟩
  · rw [run_append]
    simp only [run_cons, run_nil]
    obtain ⟨ext, h1, h2⟩ := pos_log _ (logOk_at R) (run (Pos.step (atKind R.record)) (ReaderAtBody.init ⟨st, []⟩ n) ops).1 op (.inl hne)
    rw [h1, closes_append', h2, List.append_nil]
  · rw [run_append]
    simp only [run_cons, run_nil]
    obtain ⟨ext, h1, h2⟩ := pos_log _ (logOk_seek R) (run (Pos.step (seekKind R.record)) (SeekerBody.init ⟨st, []⟩ n) ops).1 op (.inl hne)
    rw [h1, closes_append', h2, List.append_nil]

example : closes (atLog (fileRdr [1, 2]) 0 2 [.read 0 1, .copy 0, .close 0, .close 0, .read 1 1]) = [] ∧
    closes (atLog (fileRdr [1, 2]) 0 2 [.read 0 1, .copy 0, .close 0, .close 1, .close 1, .read 1 1]) = [.ok (some (.ext 7))] ∧
    closes (seekLog (fileRdr [1, 2]) 0 2 [.read 0 1, .copy 0, .close 0, .close 0, .read 1 1]) = [] ∧
    closes (seekLog (fileRdr [1, 2]) 0 2 [.read 0 1, .copy 0, .close 0, .close 1, .close 1, .read 1 1]) = [.ok (some (.ext 7))] := by
  decide +kernel

/-! ## C17: I/O errors -/

/-- **C17 is false**: after one transient failure of `ReadAt` on behalf of one copy, the reader being well-behaved from
then on, the other copy does not deliver the content. -/
theorem C17_false_readerAt : ¬ ∀ (σ : Type) (R : Rdr σ) (F : List Byte) (Inv : σ → Prop) (st : σ) (e : Err),
    IsReaderAt R F Inv → (∀ x off, (R.readAt st x off).2 = .got [] (some e) ∧ Inv (R.readAt st x off).1) → F ≠ [] →
    ∀ k, 0 < k → ∃ o o', atOuts R st F.length [.copy 0, .read 0 k, .read 1 F.length] = [o, o', .read F none] := by
  intro h
  have hI : IsReaderAt (flakyRdr [1, 2]) [1, 2] (fun s => s.1 = true) := by
    refine ⟨⟨fun _ _ => ⟨_, rfl⟩⟩, fun s x off hs h0 h63 => ?_⟩
    obtain ⟨f, p⟩ := s
    simp only at hs
    subst hs
    obtain ⟨_, e, h1, _, h2⟩ := (fileRdr_readerAt [1, 2]).readAt p x off trivial h0 h63
    exact ⟨(true, p), e, by simp [flakyRdr, h1], rfl, h2⟩
  obtain ⟨o, o', h1⟩ := h _ (flakyRdr [1, 2]) [1, 2] _ (false, 0) (.ext 3) hI (fun x off => ⟨rfl, rfl⟩) (by simp) 1 (by omega)
  have h2 : atOuts (flakyRdr [1, 2]) (false, 0) 2 [.copy 0, .read 0 1, .read 1 2] =
    [.copied 1, .read [] (some (.ext 3)), .read [] (some .eof)] := by decide +kernel
  rw [show (([1, 2] : List Byte).length) = 2 from rfl, h2] at h1
  simp at h1

/-- The same for a Seeker, and what happens to `BytesRemaining`. -/
example : seekOuts (flakyRdr [1, 2]) (false, 0) 2 [.copy 0, .remaining 1, .read 0 1, .remaining 1, .read 1 2] =
    [.copied 1, .remaining 2, .read [] (some (.ext 3)), .remaining 0, .read [] (some .eof)] := by decide +kernel

theorem tinv_init {Inv : σ → Prop} {st : σ} (hi : Inv st) (n : Nat) : TInv Inv (ReaderAtBody.init st n) [0] := by
  refine ⟨posInv_init st n, rfl, ?_, fun _ => hi⟩
  intro i b q hb hq _
  cases i with
  | zero =>
    simp only [ReaderAtBody.init, List.getElem?_cons_zero, Option.some.injEq] at hb hq
    subst hb hq
    exact .inl rfl
  | succ i => simp [ReaderAtBody.init] at hb

theorem pos_right_bytes {K : PosKind σ} {F : List Byte} {Inv : σ → Prop} (hG : HonestGet K F Inv) {st : σ} (hi : Inv st)
    (n : Nat) (ops : List Op) {r : PosSys σ × List Out} (hr : r = run (Pos.step K) (ReaderAtBody.init st n) ops) :
    (∀ h k d e q, (track [0] ops r.2)[h]? = some q → (Pos.step K r.1 (.read h k)).2 = .read d e →
      d = (F.drop q).take d.length) ∧
    (∀ h k off d e, (Pos.step K r.1 (.readAt h k off)).2 = .read d e → d = (F.drop off.toNat).take d.length) := by
  have ht := tinv_run hG ops (tinv_init hi n)
  rw [← hr] at ht
  refine ⟨?_, ?_⟩
  · intro h k d e q hq hd
    have := (tinv_step hG ht (.read h k)).2 q hq
    rw [hd] at this
    exact this
  · intro h k off d e hd
    have := (tinv_step hG ht (.readAt h k off)).2
    rw [hd] at this
    exact this

/-- **C17**, what does hold: whatever fails, on whichever copy, and however short the answers of the source: the bytes
that a `Read` or `ReadAt` delivers are always those which the content `F` has at the position of the Body (`track`: where the
results so far have put it) or at the given offset.  The full statement also asks that other copies deliver all of `F` after
a failure, which is refuted by `C17_false_readerAt`. -/
theorem C17_right_bytes_readerAt_partial {R : Rdr σ} {F : List Byte} {Inv : σ → Prop} (hR : IsHonestReaderAt R F Inv) (st : σ)
    (hi : Inv st) (n : Nat) (ops : List Op) :
    (∀ h k d e q, (track [0] ops (atOuts R st n ops))[h]? = some q →
      (ReaderAtBody.step R (atAfter R st n ops) (.read h k)).2 = .read d e → d = (F.drop q).take d.length) ∧
    (∀ h k off d e, (ReaderAtBody.step R (atAfter R st n ops) (.readAt h k off)).2 = .read d e →
      d = (F.drop off.toNat).take d.length) := by
  simp only [atOuts, atAfter, at_step]
  exact pos_right_bytes (honest_at hR) hi n ops rfl

/-- **C17**/**C18** over an `io.ReadSeeker`: the same. -/
theorem C18_right_bytes_seeker_partial {R : Rdr σ} {F : List Byte} {Inv : σ → Prop} {At : σ → Nat → Prop}
    (hR : IsHonestSeeker R F Inv At) (st : σ) (hi : Inv st) (n : Nat) (ops : List Op) :
    (∀ h k d e q, (track [0] ops (seekOuts R st n ops))[h]? = some q →
      (SeekerBody.step R (seekAfter R st n ops) (.read h k)).2 = .read d e → d = (F.drop q).take d.length) ∧
    (∀ h k off d e, (SeekerBody.step R (seekAfter R st n ops) (.readAt h k off)).2 = .read d e →
      d = (F.drop off.toNat).take d.length) := by
  simp only [seekOuts, seekAfter, seek_step]
  exact pos_right_bytes (honest_seek hR) hi n ops rfl

/-- Non-vacuity: the flaky file is honest in both roles; the tracked positions of a history. -/
example (F : List Byte) : IsHonestReaderAt (flakyRdr F) F (fun _ => True) := by
  refine ⟨fun s x off _ => ⟨trivial, ?_⟩⟩
  intro d e h1 _ _
  obtain ⟨b, p⟩ := s
  cases b with
  | true => simp [flakyRdr, fileRdr] at h1; rw [← h1.1, List.length_take, List.length_drop, List.take_eq_take_iff]; simp
  | false => simp [flakyRdr] at h1; rw [h1.1]; simp
example (F : List Byte) : IsHonestSeeker (flakyRdr F) F (fun _ => True) (fun s p => s.2 = p) := by
  refine ⟨fun s off _ => ⟨trivial, fun h0 _ => rfl⟩, fun s x _ => ⟨trivial, ?_⟩⟩
  intro p d e hp h1 _
  obtain ⟨b, p'⟩ := s
  simp only at hp
  subst hp
  cases b with
  | true => simp [flakyRdr, fileRdr] at h1; rw [← h1.1, List.length_take, List.length_drop, List.take_eq_take_iff]; simp
  | false => simp [flakyRdr] at h1; rw [h1.1]; simp
example : track [0] [.read 0 2, .copy 0, .read 1 1, .seek 0 4 0] (atOuts (fileRdr [1, 2, 3, 4, 5]) 0 5
    [.read 0 2, .copy 0, .read 1 1, .seek 0 4 0]) = [4, 3] := by decide +kernel

/-! ## C21: sticky errors -/

theorem pos_sticky (K : PosKind σ) (st : σ) (n : Nat) (ops : List Op) (h k : Nat) (d : List Byte) (e : Err)
    {s : PosSys σ} (hs : s = (run (Pos.step K) (ReaderAtBody.init st n) ops).1)
    (hr : (Pos.step K s (.read h k)).2 = .read d (some e)) (later : List Op)
    {s' : PosSys σ} (hs' : s' = (run (Pos.step K) (Pos.step K s (.read h k)).1 later).1)
    (hno : ∀ p ∈ later.zip (run (Pos.step K) (Pos.step K s (.read h k)).1 later).2, ¬ Revives h p.1 p.2) (k' : Nat) :
    Pos.step K s' (.read h k') = (s', .read [] (some e)) ∧
    ∀ m, (Pos.step K s' (.copy h)).2 = .copied m →
      Pos.step K (Pos.step K s' (.copy h)).1 (.read m k') = ((Pos.step K s' (.copy h)).1, .read [] (some e)) := by
  have hi : PosInv s := by rw [hs]; exact posInv_run K ops (posInv_init st n)
  have h1 := stuck_of_read (K := K) hi.len hr
  have h2 := stuck_run later (posInv_step K s (.read h k) hi) h1 hno
  rw [← hs'] at h2
  exact ⟨stuck_read h2 k', fun m hm => stuck_read (stuck_copy h2 hm) k'⟩

/-- **C21** over an `io.ReaderAt`, for every reader: once a `Read` on a Body has returned an error, every later `Read` on it
returns no bytes and the same error and changes nothing at all (so the reader is not consulted), until a `Seek` on that Body
succeeds or it is closed; a `Copy` taken meanwhile does the same. -/
theorem C21_sticky_readerAt (R : Rdr σ) (st : σ) (n : Nat) (ops : List Op) (h k : Nat) (d : List Byte) (e : Err)
    {s : PosSys σ} (hs : s = atAfter R st n ops) (hr : (ReaderAtBody.step R s (.read h k)).2 = .read d (some e))
    (later : List Op) {s' : PosSys σ} (hs' : s' = (run (ReaderAtBody.step R) (ReaderAtBody.step R s (.read h k)).1 later).1)
    (hno : ∀ p ∈ later.zip (run (ReaderAtBody.step R) (ReaderAtBody.step R s (.read h k)).1 later).2, ¬ Revives h p.1 p.2)
    (k' : Nat) :
    ReaderAtBody.step R s' (.read h k') = (s', .read [] (some e)) ∧
    ∀ m, (ReaderAtBody.step R s' (.copy h)).2 = .copied m →
      ReaderAtBody.step R (ReaderAtBody.step R s' (.copy h)).1 (.read m k') =
        ((ReaderAtBody.step R s' (.copy h)).1, .read [] (some e)) := by
  simp only [atAfter, at_step] at *
  exact pos_sticky _ st n ops h k d e hs hr later hs' hno k'

/-- **C21** over an `io.ReadSeeker`. -/
theorem C21_sticky_seeker (R : Rdr σ) (st : σ) (n : Nat) (ops : List Op) (h k : Nat) (d : List Byte) (e : Err)
    {s : PosSys σ} (hs : s = seekAfter R st n ops) (hr : (SeekerBody.step R s (.read h k)).2 = .read d (some e))
    (later : List Op) {s' : PosSys σ} (hs' : s' = (run (SeekerBody.step R) (SeekerBody.step R s (.read h k)).1 later).1)
    (hno : ∀ p ∈ later.zip (run (SeekerBody.step R) (SeekerBody.step R s (.read h k)).1 later).2, ¬ Revives h p.1 p.2)
    (k' : Nat) :
    SeekerBody.step R s' (.read h k') = (s', .read [] (some e)) ∧
    ∀ m, (SeekerBody.step R s' (.copy h)).2 = .copied m →
      SeekerBody.step R (SeekerBody.step R s' (.copy h)).1 (.read m k') =
        ((SeekerBody.step R s' (.copy h)).1, .read [] (some e)) := by
  simp only [seekAfter, seek_step] at *
  exact pos_sticky _ st n ops h k d e hs hr later hs' hno k'

/-- Non-vacuity: a failure sticks although the reader has recovered and another copy was used, and a failed seek does not
help; a successful one does. -/
example : atOuts (flakyRdr [1, 2]) (false, 0) 2 [.read 0 1, .read 0 1, .seek 0 (-1) 0, .copy 0, .read 0 2, .read 1 2,
      .seek 1 0 0, .read 1 0, .read 0 0] =
    [.read [] (some (.ext 3)), .read [] (some (.ext 3)), .seek (-1) (some (.negStart (-1))), .copied 1,
      .read [] (some (.ext 3)), .read [] (some (.ext 3)), .seek 0 none, .read [] none, .read [] (some (.ext 3))] := by
  decide +kernel

/-! ## C47: panics -/

/-- A panic while fetching is the reader's doing. -/
def BlameOk (K : PosKind (Rec σ)) : Prop :=
  ∀ st x off p, (K.get st x off).2 = .panic p → ∃ ext, (K.get st x off).1.log = st.log ++ ext ∧ BlamePos p ext

theorem checked_panic {x : Nat} {r : RResp} {p : Panic} (h : checked x r = .panic p) :
    (p = .badReader ∧ (r = .negative ∨ ∃ d e, r = .got d e ∧ x < d.length)) ∨ r = .panics p := by
  cases r with
  | panics q => simp only [checked, Res.panic.injEq] at h; rw [h]; exact .inr rfl
  | negative => simp only [checked, Res.panic.injEq] at h; exact .inl ⟨h.symm, .inl rfl⟩
  | got d e =>
    simp only [checked] at h
    by_cases hl : d.length ≤ x
    · rw [if_pos hl] at h; cases h
    · rw [if_neg hl] at h
      simp only [Res.panic.injEq] at h
      exact .inl ⟨h.symm, .inr ⟨d, e, rfl, by omega⟩⟩

theorem blameOk_at (R : Rdr σ) : BlameOk (atKind R.record) := by
  intro st x off p h
  exact ⟨[.readAt x off (R.readAt st.inner x off).2], rfl, .inl ⟨[], x, _, _, rfl, .inr ⟨off, rfl⟩, checked_panic h⟩⟩

theorem blameOk_seek (R : Rdr σ) : BlameOk (seekKind R.record) := by
  intro st x off p h
  simp only [seekKind, Rdr.record] at h ⊢
  rcases hs : (R.seek st.inner off 0).2 with ⟨n, e⟩ | q
  rotate_left
  · rw [hs] at h
    obtain rfl : q = p := by simpa using h
    exact ⟨[.seek off 0 (.panics q)], rfl, .inr (.inl ⟨[], off, 0, rfl⟩)⟩
  cases e with
  | some e => rw [hs] at h; cases h
  | none =>
    rw [hs] at h
    refine ⟨[.seek off 0 (.ok (n, none)), .read x (R.read (R.seek st.inner off 0).1 x).2], by simp, .inl ?_⟩
    exact ⟨[.seek off 0 (.ok (n, none))], x, .read x (R.read (R.seek st.inner off 0).1 x).2, _, rfl, .inl rfl,
      checked_panic h⟩

theorem attempt_blame {K : PosKind (Rec σ)} (hK : BlameOk K) {c : PosCommon (Rec σ)} (hR : c.hasR = true) {k : Nat} {off : Int}
    {p : Panic} (h : (Pos.attempt K c k off).2 = .panic p) :
    ∃ ext, (Pos.attempt K c k off).1.rdr.log = c.rdr.log ++ ext ∧ BlamePos p ext := by
  by_cases hl : c.length ≤ off
  · rw [attempt_end hl] at h; cases h
  · rw [attempt_mid hR (by omega)] at h ⊢
    refine hK _ _ _ p ?_
    simp only at h
    generalize (K.get c.rdr (min k (c.length - off).toNat) off).2 = r at *
    cases r with
    | panic q => simpa [finish] using h
    | hang => simp [finish] at h
    | ret de => simp [finish] at h

theorem pos_blame {K : PosKind (Rec σ)} {R : Rdr σ} (hKR : K.R = R.record) (hK : BlameOk K) {s : PosSys (Rec σ)} (hs : PosInv s) {op : Op} {p : Panic}
    {r : PosSys (Rec σ) × Out} (hr : r = Pos.step K s op) (h : r.2 = .panic p) :
    ∃ ext, r.1.common.rdr.log = s.common.rdr.log ++ ext ∧ BlamePos p ext := by
  subst hr
  unfold Pos.step at h ⊢
  cases hb : s.heap[op.h]? with
  | none => simp [hb] at h
  | some b =>
    simp only [hb] at h ⊢
    cases op with
    | read i k =>
      simp only [Pos.read] at h ⊢
      by_cases hc : b.closed = true
      · simp [hc] at h
      · have hc' : b.closed = false := by simpa using hc
        have hB := attempt_blame hK (hs.live (posOpen_pos hb hc')) (k := k) (off := b.offset) (p := p)
        simp only [hc, if_false] at h ⊢
        cases he : b.err with
        | some e => simp [he] at h
        | none =>
          simp only [he] at h ⊢
          generalize Pos.attempt K s.common k b.offset = r at *
          obtain ⟨c', r⟩ := r
          cases r with
          | panic q => simp only [Out.panic.injEq, Bool.false_eq_true, if_false] at h ⊢; subst h; exact hB rfl
          | hang => simp at h
          | ret de => obtain ⟨d, e⟩ := de; cases e <;> simp [Pos.served] at h
    | readAt i k off =>
      simp only [Pos.readAt] at h ⊢
      by_cases hc : b.closed = true
      · simp [hc] at h
      · have hc' : b.closed = false := by simpa using hc
        have hB := attempt_blame hK (hs.live (posOpen_pos hb hc')) (k := k) (off := off) (p := p)
        simp only [hc, if_false] at h ⊢
        by_cases h0 : off < 0
        · simp [h0] at h
        · simp only [h0, if_false] at h ⊢
          generalize Pos.attempt K s.common k off = r at *
          obtain ⟨c', r⟩ := r
          cases r with
          | panic q => simp only [Out.panic.injEq, Bool.false_eq_true, if_false] at h ⊢; subst h; exact hB rfl
          | hang => simp at h
          | ret de => obtain ⟨d, e⟩ := de; simp at h
    | seek i off wh =>
      rcases pos_seek_cases s i b off wh hs.len with ⟨e, he⟩ | ⟨_, o, _, _, he⟩ <;> simp [he] at h
    | remaining i => simp at h
    | copy i => simp only at h; split at h <;> simp at h
    | close i =>
      simp only at h ⊢
      by_cases hc : b.closed = true
      · rw [if_pos hc] at h; simp at h
      · rw [if_neg hc] at h ⊢
        simp only at h ⊢
        rw [hKR] at h ⊢
        unfold Pos.unref at h ⊢
        by_cases h1 : s.common.refcnt - 1 > 0
        · rw [if_pos h1] at h; simp [passedOn] at h
        · rw [if_neg h1] at h ⊢
          by_cases h2 : (s.common.hasR && R.record.isCloser) = true
          · rw [if_pos h2] at h ⊢
            refine ⟨[.close (R.close s.common.rdr.inner).2], ?_, ?_⟩
            · simp only [Rdr.record]
              cases (R.close s.common.rdr.inner).2 <;> rfl
            · have h' : passedOn (R.close s.common.rdr.inner).2 = .panic p := h
              cases hcl : (R.close s.common.rdr.inner).2 with
              | ok e => rw [hcl] at h'; cases h'
              | panics q => rw [hcl] at h'; cases h'; exact .inr (.inr ⟨[], rfl⟩)
          · rw [if_neg h2] at h; simp [passedOn] at h
    | unwrap i => simp at h
    | writeTo i w => simp at h

/-- **C47** over an `io.ReaderAt`: whatever the reader does and whatever was called before, a call panics only if the last
answer of the reader during that very call was itself a panic, or an impossible count; no bounds check, nil dereference or
internal assertion of the package is ever tripped.  The length may exceed what the reader has. -/
theorem C47_panics_blame_readerAt (R : Rdr σ) (st : σ) (n : Nat) (ops : List Op) (op : Op) (p : Panic)
    {r : PosSys (Rec σ) × Out} (hr : r = ReaderAtBody.step R.record (atAfter R.record ⟨st, []⟩ n ops) op)
    (h : r.2 = .panic p) :
    ∃ ext, r.1.common.rdr.log = atLog R st n ops ++ ext ∧ BlamePos p ext := by
  simp only [atLog, atAfter, at_step] at *
  exact pos_blame rfl (blameOk_at R) (posInv_run _ ops (posInv_init _ n)) hr h

/-- **C47** over an `io.ReadSeeker`. -/
theorem C47_panics_blame_seeker (R : Rdr σ) (st : σ) (n : Nat) (ops : List Op) (op : Op) (p : Panic)
    {r : PosSys (Rec σ) × Out} (hr : r = SeekerBody.step R.record (seekAfter R.record ⟨st, []⟩ n ops) op)
    (h : r.2 = .panic p) :
    ∃ ext, r.1.common.rdr.log = seekLog R st n ops ++ ext ∧ BlamePos p ext := by
  simp only [seekLog, seekAfter, seek_step] at *
  exact pos_blame rfl (blameOk_seek R) (posInv_run _ ops (posInv_init _ n)) hr h

/-- A reader that claims more bytes than fit. -/
def greedyRdr : Rdr Unit :=
  { read := fun _ k => ((), .got (List.replicate (k + 1) 7) none), readAt := fun _ k _ => ((), .got (List.replicate (k + 1) 7) none),
    seek := fun _ off _ => ((), .ok (off, none)), stat := fun _ => ((), .ok (0, none)), close := fun _ => ((), .ok none),
    isReaderAt := true, isSeeker := true, isFile := false, isCloser := false }

example : (ReaderAtBody.step greedyRdr (atAfter greedyRdr () 3 [.copy 0]) (.read 1 2)).2 = .panic .badReader ∧
    (SeekerBody.step greedyRdr (seekAfter greedyRdr () 3 [.copy 0]) (.readAt 1 2 0)).2 = .panic .badReader := by
  decide +kernel

/-- A reader whose `Seek` and `Close` panic. -/
def explosiveRdr : Rdr Unit :=
  { greedyRdr with seek := fun _ _ _ => ((), .panics (.value 1)), close := fun _ => ((), .panics (.value 2)), isCloser := true }

/-- Panics of `Seek` and `Close` are passed on; a panic of `Close` comes from the last `Close`, which closes the Body nevertheless,
and the reader is not closed again. -/
example : seekOuts explosiveRdr () 3 [.read 0 2, .readAt 0 1 1, .copy 0, .close 0, .close 1, .close 1, .read 1 1, .copy 1] =
      [.panic (.value 1), .panic (.value 1), .copied 1, .closed none, .panic (.value 2), .closed (some .closed),
        .read [] (some .closed), .copiedClosed] ∧
    atOuts explosiveRdr () 3 [.copy 0, .close 0, .close 1, .close 1] =
      [.copied 1, .closed none, .panic (.value 2), .closed (some .closed)] ∧
    closes (seekLog explosiveRdr () 3 [.copy 0, .close 0, .close 1, .close 1]) = [.panics (.value 2)] := by
  decide +kernel

end Verif
