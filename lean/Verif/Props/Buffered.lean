import Verif.Proofs.BufCongr
import Verif.Proofs.BufCalm
import Verif.Proofs.Generic

/-!
# C09–C15, C46 and the stream part of C05 and C20: bodies over a plain `io.Reader`

`R : Rdr σ` is an arbitrary reader, `st` its initial state, `L` the advertised length (`-1` if none).
The reader keeps a log of the calls made on it (`R.record`), which is used only to state the
properties; `C09_log_is_transparent` shows that it changes nothing.  `fuel` bounds the number of reader calls made by
one `Read` (a reader that returns `(0, nil)` for ever keeps `Read` from returning: `Out.hang`); the
theorems hold for every value of it.
-/

set_option linter.unusedSimpArgs false

set_option autoImplicit false

namespace Verif
open Spec

variable {σ : Type}

/-- One call on the family over the reader `R`, logging. -/
abbrev streamStep (R : Rdr σ) (fuel : Nat) : BufSys (Rec σ) → Op → BufSys (Rec σ) × Out :=
  BufSys.step R.record fuel

/-- The family just made over a reader in state `st`. -/
abbrev streamInit (st : σ) (L : Int) : BufSys (Rec σ) := BufSys.init ⟨st, []⟩ L

/-- The state after a history. -/
abbrev streamAfter (R : Rdr σ) (fuel : Nat) (st : σ) (L : Int) (ops : List Op) : BufSys (Rec σ) :=
  (run (streamStep R fuel) (streamInit st L) ops).1

/-- The observations of a history. -/
abbrev streamOuts (R : Rdr σ) (fuel : Nat) (st : σ) (L : Int) (ops : List Op) : List Out :=
  (run (streamStep R fuel) (streamInit st L) ops).2

/-- The calls made on the reader during a history. -/
abbrev streamLog (R : Rdr σ) (fuel : Nat) (st : σ) (L : Int) (ops : List Op) : List Call :=
  (streamAfter R fuel st L ops).common.rdr.log

/-- The cursors over `C` (ending with `fin`) after a history with the environment's choices `chs`. -/
abbrev cursorsAfter (L : Int) (C : List Byte) (fin : Err) (chs : List Choice) (ops : List Op) : List Cursor :=
  (Spec.run (streamCfg L fin) [{ content := C }] (chs.zip ops)).1

/-- `chs` explains the history `ops` as a history of cursors over `C`: the observations agree, and each
choice is accounted for by the reader's log. -/
structure Explains (R : Rdr σ) (fuel : Nat) (st : σ) (L : Int) (ops : List Op) (C : List Byte) (fin : Err)
    (chs : List Choice) : Prop where
  length : chs.length = ops.length
  choices : ∀ i ch, chs[i]? = some ch →
    Explained L (streamLog R fuel st L (ops.take i)) (streamLog R fuel st L (ops.take (i + 1))) ch
  outs : streamOuts R fuel st L ops = (Spec.run (streamCfg L fin) [{ content := C }] (chs.zip ops)).2

/-- A reader for the examples: its state is the list of answers it is going to give. -/
def scripted (closer : Bool := true) : Rdr (List RResp) where
  read st _ := match st with | [] => ([], .got [] (some .eof)) | r :: rs => (rs, r)
  readAt st _ _ := (st, .negative)
  seek st _ _ := (st, .ok (-1, some .notSupported))
  stat st := (st, .ok (0, some .notSupported))
  close st := (st, .ok (some (.ext 7)))
  isReaderAt := false
  isSeeker := false
  isFile := false
  isCloser := closer

instance (closer : Bool) : (scripted closer).CloseOk := ⟨fun _ _ => ⟨_, rfl⟩⟩

theorem after_winv (R : Rdr σ) [R.CloseOk] (fuel : Nat) (st : σ) (L : Int) (ops : List Op) (hok : ∀ op ∈ ops, op.Small) :
    WInv L (streamAfter R fuel st L ops) :=
  (run_mono R fuel L ops _ (init_winv st L) hok).1

/-- Everything at once: cursors, invariant and relation. -/
theorem stream_sim (R : Rdr σ) [R.CloseOk] (fuel : Nat) (st : σ) (L : Int) (ops : List Op) (hok : ∀ op ∈ ops, op.Small)
    (hh : Out.hang ∉ streamOuts R fuel st L ops) {C : List Byte} {fin : Err}
    (hp : Pre L C fin (streamLog R fuel st L ops)) :
    ∃ chs, Explains R fuel st L ops C fin chs ∧
      Pw (BRel C) (streamAfter R fuel st L ops).heap (cursorsAfter L C fin chs ops) := by
  obtain ⟨chs, h1, h2, h3, h4⟩ := sim_run R fuel L C fin ops _ _ (init_winv st L) (init_rel st L C) hok hh hp
  exact ⟨chs, ⟨h1, h2, h3⟩, h4⟩

/-! ## C09 -/

/-- **C09**, for every reader whatsoever (well-behaved or not, finite or not) and every history of calls
that all returned or panicked: all Bodies of the family answered as independent cursors over the bytes
that the reader handed out, ending with the reader's error (`io.EOF` at the advertised length).  Calls
panic only when the reader is to blame, and `BytesRemaining` is answered as explained by the log
(`Explained`). -/
theorem C09_stream_refines_cursors (R : Rdr σ) [R.CloseOk] (fuel : Nat) (st : σ) (L : Int) (ops : List Op)
    (hok : ∀ op ∈ ops, op.Small) (hh : Out.hang ∉ streamOuts R fuel st L ops) :
    ∃ chs, Explains R fuel st L ops (obtained (streamLog R fuel st L ops))
      ((term L (streamLog R fuel st L ops)).getD .eof) chs := by
  obtain ⟨chs, h, _⟩ := stream_sim R fuel st L ops hok hh (pre_self L _)
  exact ⟨chs, h⟩

/-- **C09** for readers that are streams: the cursors are over the stream itself, cut at the advertised
length, whatever the chunking; nothing panics.  The error at the end is the reader's, or `io.EOF` if
the advertised length cuts the stream off.  (If the length is exactly the stream's and the reader ends with an
error other than `io.EOF`, which of the two is reported depends on the chunking; that case is excluded
here, and covered by `C09_stream_refines_cursors`.) -/
theorem C09_stream_content {R : Rdr σ} [R.CloseOk] {fin : Err} {Inv : σ → List Byte → Prop} (hS : IsStream R fin Inv)
    (fuel : Nat) (st : σ) (T : List Byte) (hI : Inv st T) (L : Int) (hL : fin = .eof ∨ L ≠ T.length)
    (ops : List Op) (hok : ∀ op ∈ ops, op.Small) (hh : Out.hang ∉ streamOuts R fuel st L ops) :
    ∃ chs, Explains R fuel st L ops (cut T L) (if 0 ≤ L ∧ L < T.length then .eof else fin) chs ∧
      (∀ ch ∈ chs, ch.crash = none) := by
  have hsi : ∀ ops' : List Op, (∀ op ∈ ops', op.Small) → SInv R fin Inv T (streamAfter R fuel st L ops').common.rdr :=
    fun ops' hok' => pred_run R (SInv R fin Inv T) (sinv_read hS) sinv_close fuel L ops' (streamInit st L)
      (init_winv st L) hok' (closeInv_init R st L)
      ⟨by simp [BufSys.init, BufSys.ref], .inr ⟨rfl, T, rfl, fun _ => hI⟩⟩
  have hp := sinv_pre (hsi ops hok)
    (within_run R fuel L ops (streamInit st L) (init_winv st L) hok
      (by simp [BufSys.init, BufSys.ref, obtained])) hL
  obtain ⟨chs, h, _⟩ := stream_sim R fuel st L ops hok hh hp
  refine ⟨chs, h, ?_⟩
  intro ch hch
  cases hcr : ch.crash with
  | none => rfl
  | some p =>
    exfalso
    obtain ⟨i, hi⟩ := List.mem_iff_getElem?.1 hch
    obtain ⟨ext, h1, pre, n, r, h2, h3⟩ := (h.choices i ch hi).crash p hcr
    have hmem : Call.read n r ∈ streamLog R fuel st L (ops.take (i + 1)) := by rw [h1, h2]; simp
    obtain ⟨d, e, h4, h5⟩ := (hsi (ops.take (i + 1)) (fun op ho => hok op (List.mem_of_mem_take ho))).tame n r hmem
    subst h4
    rcases h3 with ⟨_, h6 | ⟨d', e', h6, h7⟩⟩ | h6
    · cases h6
    · cases h6; omega
    · cases h6

/-- **C09**: `Read` returns.  If the reader returns `(0, nil)` at most `B` times in a row, no call on the
family with a buffer of at most `K` bytes keeps looping. -/
theorem C09_calls_return {R : Rdr σ} [R.CloseOk] {B : Nat} {idle : σ → Nat} (hE : Eager R B idle) (fuel : Nat) (st : σ)
    (L : Int) (K : Nat) (hf : (K + 65536) * (B + 1) + B < fuel) (ops : List Op) (hok : ∀ op ∈ ops, op.Small)
    (hK : ∀ h k, Op.read h k ∈ ops → k ≤ K) : Out.hang ∉ streamOuts R fuel st L ops :=
  noHang_run' hE fuel L K hf ops _ (init_winv st L) hok hK

/-- Keeping the log changes no observation and nothing in the state but the log. -/
theorem C09_log_is_transparent (R : Rdr σ) (fuel : Nat) (st : σ) (L : Int) (ops : List Op) :
    run (BufSys.step R fuel) (BufSys.init st L) ops =
      ((streamAfter R fuel st L ops).erase, streamOuts R fuel st L ops) := by
  have h := run_erase R fuel ops (streamInit st L)
  have : (streamInit st L).erase = BufSys.init st L := rfl
  rw [this] at h
  exact h

-- a reader with irregular chunks; two copies reading different amounts see the same bytes
example : streamOuts (scripted) 10 [.got [1, 2] none, .got [] none, .got [3] none, .got [4, 5] (some .eof)] (-1)
    [.read 0 1, .copy 0, .read 1 3, .remaining 0, .read 0 9, .close 1, .read 1 1, .read 0 1, .close 0] =
    [.read [1] none, .copied 1, .read [2, 3, 4] none, .remaining 4, .read [2, 3, 4, 5] (some .eof),
      .closed none, .read [] (some .closed), .read [] (some .eof), .closed (some (.ext 7))] := by decide +kernel
example : Out.hang ∉ streamOuts (scripted) 10 [.got [1, 2] none] (-1) [.read 0 1, .copy 0] := by decide +kernel
example : IsStream (scripted) .eof (fun st T => (∃ d, st = [.got [] none, .got d none] ∧ d.length ≤ 1 ∧ T = d) ∨
    (∃ d, st = [.got d none] ∧ d.length ≤ 1 ∧ T = d) ∨ (st = [] ∧ T = [])) := by
  refine ⟨fun st T n hn h => ?_⟩
  rcases h with ⟨d, rfl, hd, rfl⟩ | ⟨d, rfl, hd, rfl⟩ | ⟨rfl, rfl⟩
  · exact ⟨_, [], none, T, rfl, by simp, rfl, fun _ => .inr (.inl ⟨T, rfl, hd, rfl⟩), by simp⟩
  · exact ⟨_, T, none, [], rfl, by omega, by simp, fun _ => .inr (.inr ⟨rfl, rfl⟩), by simp⟩
  · exact ⟨_, [], some .eof, [], rfl, by simp, rfl, by simp, by simp⟩
-- at most one empty answer in a row
example : Eager (σ := Bool) (⟨fun b _ => (!b, .got (if b then [] else [1]) none), fun b _ _ => (b, .negative),
    fun b _ _ => (b, .ok (0, none)), fun b => (b, .ok (0, none)), fun b => (b, .ok none), false, false, false, false⟩) 1
    (fun b => if b then 1 else 0) := by
  refine ⟨fun st => by split <;> simp, fun st n _ h => ?_⟩
  cases st <;> simp_all

/-! ## C10 -/

theorem panics_blame_closeOk (R : Rdr σ) [R.CloseOk] (fuel : Nat) (st : σ) (L : Int) (ops : List Op) (op : Op)
    (hok : ∀ op' ∈ ops ++ [op], op'.Small) (p : Panic)
    (hp : (streamStep R fuel (streamAfter R fuel st L ops) op).2 = .panic p) :
    ∃ ext, streamLog R fuel st L (ops ++ [op]) = streamLog R fuel st L ops ++ ext ∧ Blame p ext := by
  obtain ⟨ext, S⟩ := buf_step R fuel L _ (after_winv R fuel st L ops (fun o ho => hok o (by simp [ho]))) op
    (hok op (by simp))
  refine ⟨ext, ?_, S.blame p hp⟩
  simp only [streamLog, streamAfter]
  rw [run_append]
  simp only [run_cons, run_nil]
  exact S.log

/-- Until its `Close` panics, a reader whose `Close` may panic cannot be told from one whose `Close` returns nil instead: so
every theorem about readers whose `Close` returns (`Rdr.CloseOk`) says as much about all other readers. -/
theorem C10_calm_until_close_panics (R : Rdr σ) (fuel : Nat) (st : σ) (L : Int) (ops : List Op)
    (hcp : ∀ q, Call.close (.panics q) ∉ streamLog R fuel st L ops) :
    streamAfter R fuel st L ops = streamAfter R.calm fuel st L ops ∧ streamOuts R fuel st L ops = streamOuts R.calm fuel st L ops := by
  have := run_calm R fuel ops _ hcp
  exact ⟨congrArg Prod.fst this, congrArg Prod.snd this⟩

/-- **C10**: after every history in which the reader's `Close` has not panicked, if the next call panics then the reader is to blame:
its last answer, given during that very call, was an impossible count (and the panic is the one reporting it) or a
panic of its own (and it is passed on).  No internal assertion fails and no index is out of range.  (After a panic of the reader's
`Close` this is false: `C49_zombie`.) -/
theorem C10_panics_blame_reader (R : Rdr σ) (fuel : Nat) (st : σ) (L : Int) (ops : List Op) (op : Op)
    (hok : ∀ op' ∈ ops ++ [op], op'.Small) (hcp : ∀ q, Call.close (.panics q) ∉ streamLog R fuel st L ops) (p : Panic)
    (hp : (streamStep R fuel (streamAfter R fuel st L ops) op).2 = .panic p) :
    ∃ ext, streamLog R fuel st L (ops ++ [op]) = streamLog R fuel st L ops ++ ext ∧ (Blame p ext ∨ ext = [.close (.panics p)]) := by
  have h0 : streamLog R fuel st L (ops ++ [op]) = (streamStep R fuel (streamAfter R fuel st L ops) op).1.common.rdr.log := by
    simp only [streamLog, streamAfter, run_append, run_cons, run_nil]
  obtain ⟨h1, _⟩ := C10_calm_until_close_panics R fuel st L ops hcp
  rcases step_calm R fuel (streamAfter R fuel st L ops) op with h2 | ⟨q, h2, h3⟩
  · have hc0 : streamLog R.calm fuel st L (ops ++ [op]) =
        (streamStep R.calm fuel (streamAfter R.calm fuel st L ops) op).1.common.rdr.log := by
      simp only [streamLog, streamAfter, run_append, run_cons, run_nil]
    have hp' : (streamStep R.calm fuel (streamAfter R.calm fuel st L ops) op).2 = .panic p := by
      rw [← h1]; exact (congrArg Prod.snd h2).symm.trans hp
    obtain ⟨ext, h4, h5⟩ := panics_blame_closeOk R.calm fuel st L ops op hok p hp'
    refine ⟨ext, ?_, .inl h5⟩
    rw [hc0] at h4
    rw [h0]
    simp only [streamLog] at h4 ⊢
    rw [h1, ← h4, ← h1]
    exact congrArg (fun x => x.1.common.rdr.log) h2
  · refine ⟨[.close (.panics q)], by rw [h0]; exact h3, .inr ?_⟩
    rw [h2] at hp
    cases hp; rfl

/-- **C10** for readers that respect the `io.Reader` contract: nothing ever panics. -/
theorem C10_no_panic (R : Rdr σ) [R.CloseOk] (hR : ∀ st n, ∃ d e, (R.read st n).2 = .got d e ∧ d.length ≤ n) (fuel : Nat)
    (st : σ) (L : Int) (ops : List Op) (hok : ∀ op ∈ ops, op.Small) (p : Panic) :
    Out.panic p ∉ streamOuts R fuel st L ops := by
  have key : ∀ (ops : List Op) (s : BufSys (Rec σ)), WInv L s → CloseInv R s → (∀ op ∈ ops, op.Small) →
      (∀ n a, Call.read n a ∈ s.common.rdr.log → ∃ d e, a = .got d e ∧ d.length ≤ n) →
      Out.panic p ∉ (run (streamStep R fuel) s ops).2 := by
    intro ops
    induction ops with
    | nil => intro s _ _ _ _; simp [run_nil]
    | cons op ops ih =>
      intro s hw hci hok ht
      obtain ⟨ext, S⟩ := buf_step R fuel L s hw op (hok op (by simp))
      have ht' := step_pred R (fun rc => ∀ n a, Call.read n a ∈ rc.log → ∃ d e, a = .got d e ∧ d.length ≤ n)
        (by
          intro rc n _ _ _ hrc m a hm
          have : (R.record.read rc n).1.log = rc.log ++ [.read n (R.read rc.inner n).2] := rfl
          rw [this] at hm
          simp only [List.mem_append, List.mem_singleton] at hm
          rcases hm with hm | hm
          · exact hrc m a hm
          · cases hm; exact hR _ _)
        (by
          intro rc hrc m a hm
          have : (R.record.close rc).1.log = rc.log ++ [.close (R.close rc.inner).2] := rfl
          rw [this] at hm
          simp only [List.mem_append, List.mem_singleton] at hm
          rcases hm with hm | hm
          · exact hrc m a hm
          · cases hm) fuel L s hw hci op ht
      rw [run_cons]
      simp only [List.mem_cons, not_or]
      refine ⟨?_, ih _ S.inv (closeInv_step S hci) (fun o ho => hok o (by simp [ho])) ht'⟩
      intro hp
      obtain ⟨pre, n, r, h2, h3⟩ := S.blame p hp.symm
      have hmem : Call.read n r ∈ (streamStep R fuel s op).1.common.rdr.log := by
        rw [show (streamStep R fuel s op).1.common.rdr.log = _ from S.log, h2]; simp
      obtain ⟨d, e, h4, h5⟩ := ht' n r hmem
      subst h4
      rcases h3 with ⟨_, h6 | ⟨d', e', h6, h7⟩⟩ | h6
      · cases h6
      · cases h6; omega
      · cases h6
  exact key ops _ (init_winv st L) (closeInv_init R st L) hok (by simp [BufSys.init, BufSys.ref])

-- a misbehaving reader: the panic is passed on and the Body keeps working
example : streamOuts (scripted) 10 [.got [1] none, .negative, .got [2] none, .panics (.value 3), .got [5] none] (-1)
    [.read 0 2, .read 0 2, .copy 0, .read 1 3, .read 0 3] =
    [.panic .badReader, .panic (.value 3), .copied 1, .read [1, 2, 5] none, .read [1, 2, 5] none] ∧
    streamOuts (scripted) 10 [.got [1, 2, 3] none] 2 [.read 0 1] = [.panic .badReader] := by decide +kernel
-- `Close` of the reader panics: this is passed on
example : streamOuts { scripted with close := fun st => (st, .panics (.value 3)) } 10 [.got [1] none] (-1) [.copy 0, .close 1, .close 0] =
      [.copied 1, .closed none, .panic (.value 3)] ∧
    streamLog { scripted with close := fun st => (st, .panics (.value 3)) } 10 [.got [1] none] (-1) [.copy 0, .close 1, .close 0] =
      [.close (.panics (.value 3))] := by decide +kernel

/-! ## C11 -/

/-- **C11**: after every history, the bytes the family retains are exactly those obtained from the reader
from the position of the hindmost open Body on; none if no Body is open (`window`). -/
theorem C11_window (R : Rdr σ) [R.CloseOk] (fuel : Nat) (st : σ) (L : Int) (ops : List Op) (hok : ∀ op ∈ ops, op.Small)
    (hh : Out.hang ∉ streamOuts R fuel st L ops) {C : List Byte} {fin : Err}
    (hC : C = obtained (streamLog R fuel st L ops)) (hfin : fin = (term L (streamLog R fuel st L ops)).getD .eof) :
    ∃ chs, Explains R fuel st L ops C fin chs ∧
      (streamAfter R fuel st L ops).common.bytes = window C (cursorsAfter L C fin chs ops) := by
  subst hC hfin
  obtain ⟨chs, h, hf⟩ := stream_sim R fuel st L ops hok hh (pre_self L _)
  exact ⟨chs, h, window_eq (after_winv R fuel st L ops hok) hf⟩

/-- **C11**: nothing is retained once all Bodies are closed (also after misbehaviour of the reader). -/
theorem C11_nothing_after_close (R : Rdr σ) [R.CloseOk] (fuel : Nat) (st : σ) (L : Int) (ops : List Op)
    (hok : ∀ op ∈ ops, op.Small)
    (hcl : ∀ h, ¬ IsOpen (streamStep R fuel) (streamAfter R fuel st L ops) h) :
    (streamAfter R fuel st L ops).common.bytes = [] := by
  apply ((after_winv R fuel st L ops hok).dead _).2.1
  intro b hb
  obtain ⟨i, hi⟩ := List.mem_iff_getElem?.1 hb
  cases hc : b.closed with
  | true => rfl
  | false =>
    refine absurd ⟨(streamAfter R fuel st L ops).heap.length, ?_⟩ (hcl i)
    have hR := ((after_winv R fuel st L ops hok).alive ⟨b, hb, hc⟩).core.hasR
    simp [streamStep, BufSys.step, Op.h, hi, BufSys.copy, hc, hR]

example : (streamAfter (scripted) 10 [.got [1, 2, 3] none, .got [4, 5] (some .eof)] (-1)
    [.read 0 1, .copy 0, .read 1 3]).common.bytes = [2, 3, 4, 5] ∧
    (streamAfter (scripted) 10 [.got [1, 2, 3] none, .got [4, 5] (some .eof)] (-1)
    [.read 0 1, .copy 0, .read 1 3, .close 0]).common.bytes = [5] ∧
    (streamAfter (scripted) 10 [.got [1, 2, 3] none, .got [4, 5] (some .eof)] (-1)
    [.read 0 1, .copy 0, .read 1 3, .close 0, .close 1]).common.bytes = [] := by decide +kernel

/-! ## C12 -/

/-- **C12**: every call of the reader's `Read` is made by a `Read` on an open Body, not yet at the end,
which asks for bytes not yet obtained; it asks for at least one byte, for no byte beyond the advertised
length, for none `65536` or more beyond the end of the requested range, and never after the reader
reported an error. -/
theorem C12_requests (R : Rdr σ) [R.CloseOk] (fuel : Nat) (st : σ) (L : Int) (ops : List Op) (op : Op)
    (hok : ∀ op' ∈ ops ++ [op], op'.Small) (hh : Out.hang ∉ streamOuts R fuel st L ops)
    {C : List Byte} {fin : Err} {log : List Call} (hlog : log = streamLog R fuel st L ops)
    (hC : C = obtained log) (hfin : fin = (term L log).getD .eof) :
    ∃ chs, Explains R fuel st L ops C fin chs ∧
      ∀ pre n a post, streamLog R fuel st L (ops ++ [op]) = log ++ (pre ++ .read n a :: post) →
        ∃ h k c, op = .read h k ∧ (cursorsAfter L C fin chs ops)[h]? = some c ∧ c.isOpen = true ∧
          c.done = false ∧ 0 < n ∧ ended (log ++ pre) = none ∧ C.length < c.pos + k ∧
          (obtained (log ++ pre)).length + n < c.pos + k + 65536 ∧
          (0 ≤ L → ((obtained (log ++ pre)).length + n : Int) ≤ L) := by
  subst hlog hC hfin
  have hok' : ∀ op' ∈ ops, op'.Small := fun o ho => hok o (by simp [ho])
  obtain ⟨chs, h, hf⟩ := stream_sim R fuel st L ops hok' hh (pre_self L _)
  refine ⟨chs, h, ?_⟩
  intro pre n a post heq
  obtain ⟨ext, S⟩ := buf_step R fuel L _ (after_winv R fuel st L ops hok') op (hok op (by simp))
  have hlog : streamLog R fuel st L (ops ++ [op]) = streamLog R fuel st L ops ++ ext := by
    simp only [streamLog, streamAfter]
    rw [run_append]
    simp only [run_cons, run_nil]
    exact S.log
  rw [hlog, List.append_cancel_left_eq] at heq
  obtain ⟨h', k, b, e1, e2, e3, e4, e5, e6, e7, e8, e9⟩ := S.reqs pre n a post heq
  obtain ⟨c, hc, hr⟩ := hf.get e2
  have hpos := hr.pos e3
  have hlen : ∀ pre, (obtained (streamLog R fuel st L ops ++ pre)).length =
    (obtained ((streamAfter R fuel st L ops).common.rdr.log ++ pre)).length := fun _ => rfl
  refine ⟨h', k, c, e1, hc, by rw [hr.opn, e3]; rfl, by rw [← hr.eof e3, e4], e5, e6, ?_, by rw [hlen]; omega, ?_⟩
  · have : (obt (streamAfter R fuel st L ops)).length = (obtained (streamLog R fuel st L ops)).length := rfl
    omega
  · intro hL; exact e9 hL

/-- **C12**: once the reader has reported an error, or the advertised length has been reached, its `Read`
is never called again. -/
theorem C12_quiet_after_end (R : Rdr σ) [R.CloseOk] (fuel : Nat) (st : σ) (L : Int) (ops more : List Op)
    (hok : ∀ op ∈ ops ++ more, op.Small) (hend : term L (streamLog R fuel st L ops) ≠ none) :
    reads (streamLog R fuel st L (ops ++ more)) = reads (streamLog R fuel st L ops) := by
  have key : ∀ (more : List Op) (s : BufSys (Rec σ)), WInv L s → (∀ op ∈ more, op.Small) →
      term L s.common.rdr.log ≠ none →
      reads (run (streamStep R fuel) s more).1.common.rdr.log = reads s.common.rdr.log := by
    intro more
    induction more with
    | nil => intro s _ _ _; rfl
    | cons op more ih =>
      intro s hw hok hend
      obtain ⟨ext, S⟩ := buf_step R fuel L s hw op (hok op (by simp))
      have hno : ∀ n a, Call.read n a ∉ ext := by
        intro n a hm
        obtain ⟨pre, post, he⟩ := List.append_of_mem hm
        obtain ⟨_, _, _, _, _, _, _, h1, h2, _, _, h4⟩ := S.reqs pre n a post he
        rw [ended_append] at h2
        rw [obtained_append] at h4
        have h2' : ended s.common.rdr.log = none := by
          cases h : ended s.common.rdr.log with
          | none => rfl
          | some e => rw [h] at h2; simp at h2
        apply hend
        simp only [term, h2']
        split
        · rename_i hL
          have := h4 (by omega)
          simp at this; omega
        · rfl
      have hsil : obtained ext = [] ∧ ended ext = none := by
        rcases S.mono with h | h
        · exact absurd h hend
        · exact h
      rw [run_cons]
      simp only
      rw [ih _ S.inv (fun o ho => hok o (by simp [ho])) (by rw [S.log, term_append_silent hsil.1 hsil.2]; exact hend),
        S.log]
      have happ : reads (s.common.rdr.log ++ ext) = reads s.common.rdr.log ++ reads ext := by
        simp only [reads, List.filterMap_append]
      have : reads ext = [] := by
        unfold reads
        rw [List.filterMap_eq_nil_iff]
        intro c hc
        cases c with
        | read n a => exact absurd hc (hno n a)
        | _ => rfl
      rw [happ, this]; simp
  simp only [streamLog, streamAfter]
  rw [run_append]
  exact key more _ (after_winv R fuel st L ops (fun o ho => hok o (by simp [ho]))) (fun o ho => hok o (by simp [ho])) hend

example : streamLog (scripted) 10 [.got [1, 2, 3] none, .got [4, 5] none] 5 [.read 0 1, .copy 0, .read 1 9, .read 0 9] =
    [.read 5 (.got [1, 2, 3] none), .read 2 (.got [4, 5] none)] ∧
    term 5 (streamLog (scripted) 10 [.got [1, 2, 3] none, .got [4, 5] none] 5 [.read 0 1]) ≠ none := by decide +kernel

/-! ## C13 -/

/-- **C13**: after every history, a `Read` into `k` bytes that reports no error has filled them all.  One
that reports an error other than "closed" has delivered everything that was left of what the reader
handed out, and the error is the one that ended the stream. -/
theorem C13_full_or_error (R : Rdr σ) [R.CloseOk] (fuel : Nat) (st : σ) (L : Int) (ops : List Op) (h k : Nat)
    (hok : ∀ op ∈ ops, op.Small) (hk : k < 2 ^ 62) (d : List Byte) (e : Option Err)
    (ho : (streamStep R fuel (streamAfter R fuel st L ops) (.read h k)).2 = .read d e)
    {log : List Call} (hlog : log = streamLog R fuel st L (ops ++ [.read h k])) :
    (e = none → d.length = k) ∧
    (e ≠ none → d.length < k ∨ d = []) ∧
    (e ≠ none → IsOpen (streamStep R fuel) (streamAfter R fuel st L ops) h →
      e = term L log ∧ ∃ q, d = (obtained log).drop q) := by
  have hw := after_winv R fuel st L ops hok
  generalize hs : streamAfter R fuel st L ops = s at hw ho ⊢
  have hlog' : log = (streamStep R fuel s (.read h k)).1.common.rdr.log := by
    rw [hlog]; simp only [streamLog, streamAfter] at hs ⊢
    rw [run_append]; simp only [run_cons, run_nil]; rw [hs]
  clear hlog hs
  cases hb : s.heap[h]? with
  | none => simp [streamStep, BufSys.step, Op.h, hb] at ho
  | some b =>
    simp only [streamStep, BufSys.step, Op.h, hb] at ho hlog'
    by_cases hcl : b.closed = true
    · simp only [BufSys.read, hcl, if_true, Out.read.injEq] at ho
      obtain ⟨rfl, rfl⟩ := ho
      refine ⟨by simp, fun _ => .inr rfl, ?_⟩
      rintro _ ⟨m, hm⟩
      simp [streamStep, BufSys.step, Op.h, hb, BufSys.copy, hcl] at hm
    · have hcl : b.closed = false := by simpa using hcl
      have ha := hw.alive ⟨b, List.mem_of_getElem? hb, hcl⟩
      obtain ⟨o1, o2, o3⟩ := ha.core.offs b (List.mem_of_getElem? hb) hcl
      by_cases he : b.eof = true
      · have hr : s.read R.record fuel h b k = (s, .read [] s.common.err) := by simp [BufSys.read, hcl, he]
        rw [hr] at ho hlog'
        simp only [Out.read.injEq] at ho hlog'
        obtain ⟨rfl, rfl⟩ := ho
        have hne := (o3 he).2
        refine ⟨fun h => absurd h hne, fun _ => .inr rfl, fun _ _ => ?_⟩
        cases herr : s.common.err with
        | none => exact absurd herr hne
        | some e =>
          rw [hlog', (ha.core.over e herr).2]
          exact ⟨rfl, (obtained s.common.rdr.log).length, by simp⟩
      · have he : b.eof = false := by simpa using he
        obtain ⟨ext, F⟩ := read_spec R fuel L s hw hb hcl he k hk
        rcases F.res with ⟨o, h1, _, h3⟩ | ⟨h1, h2, h3⟩
        · rw [h1] at ho; subst ho
          rcases h3 with h3 | ⟨p, h3, _⟩ <;> cases h3
        · rw [h1] at ho
          have hO : obt (s.read R.record fuel h b k).1 = obtained log := by rw [hlog']; rfl
          rw [hO, ← hlog'] at ho
          rw [hO, ← hlog'] at h2
          simp only [Out.read.injEq] at ho
          obtain ⟨hd, hee⟩ := ho
          by_cases hgt : b.offset + (k : Int) > (obtained log).length
          · rw [if_pos hgt] at hee
            have hne := (h2 hgt).1
            have hlen : (obt s).length ≤ (obtained log).length := by
              rw [hlog', F.log, obtained_append]; simp [obt]
            refine ⟨fun h => absurd (hee.trans h) hne, fun _ => .inl ?_, fun _ _ => ⟨hee.symm, b.offset.toNat, ?_⟩⟩
            · rw [← hd]; simp; have := ha.core.start0; omega
            · rw [← hd, List.take_of_length_le]; simp; have := ha.core.start0; omega
          · rw [if_neg hgt] at hee
            subst hee
            refine ⟨fun _ => ?_, by simp, by simp⟩
            rw [← hd]; simp; have := ha.core.start0; omega

example : (streamStep (scripted) 10 (streamAfter (scripted) 10 [.got [1, 2] none, .got [3] none, .got [4] none]
    (-1) [.read 0 1]) (.read 0 3)).2 = .read [2, 3, 4] none ∧
  (streamStep (scripted) 10 (streamAfter (scripted) 10 [.got [1, 2] none, .got [3] none, .got [4] (some (.ext 1))]
    (-1) [.read 0 1]) (.read 0 4)).2 = .read [2, 3, 4] (some (.ext 1)) := by decide +kernel

/-! ## C14 -/

/-- **C14**: after every history, `BytesRemaining` of an open Body standing at `c.pos` is: while the end
of the stream is unknown, `-1`, or what is left of the advertised length; once it is known, exactly
what is left of the bytes the reader handed out. -/
theorem C14_remaining (R : Rdr σ) [R.CloseOk] (fuel : Nat) (st : σ) (L : Int) (ops : List Op) (hok : ∀ op ∈ ops, op.Small)
    (hh : Out.hang ∉ streamOuts R fuel st L ops) {C : List Byte} {fin : Err} {log : List Call}
    (hlog : log = streamLog R fuel st L ops)
    (hC : C = obtained log) (hfin : fin = (term L log).getD .eof) :
    ∃ chs, Explains R fuel st L ops C fin chs ∧
      ∀ h c, (cursorsAfter L C fin chs ops)[h]? = some c → c.isOpen = true →
        (streamStep R fuel (streamAfter R fuel st L ops) (.remaining h)).2 =
          .remaining (if term L log = none then (if L < 0 then -1 else L - c.pos) else C.length - c.pos) := by
  subst hlog hC hfin
  obtain ⟨chs, h, hf⟩ := stream_sim R fuel st L ops hok hh (pre_self L _)
  refine ⟨chs, h, ?_⟩
  intro h' c hc hop
  obtain ⟨ext, S⟩ := buf_step R fuel L _ (after_winv R fuel st L ops hok) (.remaining h') trivial
  have hlog : (streamStep R fuel (streamAfter R fuel st L ops) (.remaining h')).1.common.rdr.log =
      streamLog R fuel st L ops := by
    simp only [streamStep, BufSys.step]; split <;> rfl
  have hnh : (streamStep R fuel (streamAfter R fuel st L ops) (.remaining h')).2 ≠ .hang := by
    simp only [streamStep, BufSys.step]; split <;> simp
  have hcon : c.content = obtained (streamLog R fuel st L ops) := by
    cases hb : (streamAfter R fuel st L ops).heap[h']? with
    | none => rw [(hf.none_iff h').1 hb] at hc; cases hc
    | some b =>
      obtain ⟨c', h1, h2⟩ := hf.get hb
      rw [h1] at hc; cases hc; exact h2.content
  obtain ⟨ch, hex, ho, _⟩ := S.sim _ _ _ hf (by
    show Pre L _ _ (streamStep R fuel (streamAfter R fuel st L ops) (.remaining h')).1.common.rdr.log
    rw [hlog]; exact pre_self L _) hnh
  simp only [streamStep] at ho ⊢
  rw [ho]
  have hst := hex.stale
  simp only [Spec.step, Op.h, hc, Cursor.remaining, hop, Bool.not_true, Bool.false_eq_true, if_false, hst, hcon]
  cases ht : term L (streamLog R fuel st L ops) with
  | none =>
    have ht' : term L (streamAfter R fuel st L ops).common.rdr.log = none := ht
    simp only [ht', Option.isNone_none, if_true]
    rfl
  | some e =>
    have ht' : term L (streamAfter R fuel st L ops).common.rdr.log = some e := ht
    simp [ht']

/-- Reads on the family once its content is known. -/
theorem exact_of_known {R : Rdr σ} [R.CloseOk] {fuel : Nat} {st : σ} {L : Int} {ops : List Op} (hok : ∀ op ∈ ops, op.Small)
    {C : List Byte} {fin : Err} {f : List Cursor}
    (hf : Pw (BRel C) (streamAfter R fuel st L ops).heap f) (ks : List Nat) (hks : ∀ k ∈ ks, k < 2 ^ 62) (h : Nat)
    (hp : Pre L C fin (streamLog R fuel st L (ops ++ ks.map (Op.read h))))
    (hh : Out.hang ∉ (run (streamStep R fuel) (streamAfter R fuel st L ops) (ks.map (Op.read h))).2)
    (hcr : ∀ p, Out.panic p ∉ (run (streamStep R fuel) (streamAfter R fuel st L ops) (ks.map (Op.read h))).2)
    {b : BufBody} (hb : (streamAfter R fuel st L ops).heap[h]? = some b) (hcl : b.closed = false) :
    (delivered (run (streamStep R fuel) (streamAfter R fuel st L ops) (ks.map (Op.read h))).2).length =
      min (C.length - b.offset.toNat) ks.sum := by
  have hw := after_winv R fuel st L ops hok
  have hsm : ∀ op ∈ ks.map (Op.read h), op.Small := by
    intro op hop
    simp only [List.mem_map] at hop
    obtain ⟨k, hk, rfl⟩ := hop
    exact hks k hk
  have hp' : Pre L C fin (run (streamStep R fuel) (streamAfter R fuel st L ops) (ks.map (Op.read h))).1.common.rdr.log := by
    simp only [streamLog, streamAfter] at hp ⊢
    rw [run_append] at hp; exact hp
  obtain ⟨chs, h1, h2, h3, _⟩ := sim_run R fuel L C fin (ks.map (Op.read h)) _ f hw hf hsm hh hp'
  obtain ⟨c, hc, hr⟩ := hf.get hb
  have hop : c.isOpen = true := by rw [hr.opn, hcl]; rfl
  have ha := hw.alive ⟨b, List.mem_of_getElem? hb, hcl⟩
  obtain ⟨o1, o2, o3⟩ := ha.core.offs b (List.mem_of_getElem? hb) hcl
  have hpos := hr.pos hcl
  obtain ⟨_, ext, hx1, hx2⟩ := run_mono R fuel L (ks.map (Op.read h)) _ hw hsm
  have hpre := pre_of_later hx2 (by rw [← hx1]; exact hp')
  have hle : (obt (streamAfter R fuel st L ops)).length ≤ C.length := hpre.1.length_le
  rw [h3]
  have hnc : ∀ ch ∈ chs.map (fun ch => { ch with crash := none }), ch.crash = none := by
    intro ch hch; simp only [List.mem_map] at hch; obtain ⟨_, _, rfl⟩ := hch; rfl
  have hsame : ∀ (ks : List Nat) (chs : List Choice) (f : List Cursor), chs.length = ks.length →
      (∀ p, Out.panic p ∉ (Spec.run (streamCfg L fin) f (chs.zip (ks.map (Op.read h)))).2) →
      Spec.run (streamCfg L fin) f (chs.zip (ks.map (Op.read h))) =
        Spec.run (streamCfg L fin) f ((chs.map (fun ch => { ch with crash := none })).zip (ks.map (Op.read h))) := by
    intro ks
    induction ks with
    | nil => intro chs f hl _; cases chs with
      | nil => rfl
      | cons _ _ => simp at hl
    | cons k ks ih =>
      intro chs f hl hnp
      cases chs with
      | nil => simp at hl
      | cons ch chs =>
        simp only [List.map_cons, List.zip_cons_cons, Spec.run] at hnp ⊢
        have hst : Spec.step (streamCfg L fin) ch f (.read h k) =
            Spec.step (streamCfg L fin) { ch with crash := none } f (.read h k) := by
          have hnp0 : ∀ p, (Spec.step (streamCfg L fin) ch f (.read h k)).2 ≠ .panic p := by
            intro p hp; exact hnp p (by simp [hp])
          cases hcc : ch.crash with
          | none => congr 1; cases ch; simp_all
          | some p =>
            simp only [Spec.step, Op.h] at hnp0 ⊢
            cases hc : f[h]? with
            | none => rfl
            | some c =>
              simp only [hc, Cursor.read, hcc] at hnp0 ⊢
              by_cases h1 : (!c.isOpen) = true
              · rw [if_pos h1, if_pos h1]
              · rw [if_neg h1, if_neg h1]
                rw [if_neg h1] at hnp0
                by_cases h2 : c.done = true
                · rw [if_pos h2, if_pos h2]
                · rw [if_neg h2] at hnp0
                  exact absurd rfl (hnp0 p)
        rw [← hst]
        rw [ih chs _ (by simpa using hl) (fun p hp => hnp p (by simp [hp]))]
  have hlen : chs.length = ks.length := by simpa using h1
  rw [hsame ks chs f hlen (by intro p; rw [← h3]; exact hcr p)]
  have := reads_delivered (streamCfg L fin) h ks _ (by simpa using hlen) hnc f c hc hop
    (by
      intro hd
      rw [← hr.eof hcl] at hd
      have h5 := o3 hd
      cases herr : (streamAfter R fuel st L ops).common.err with
      | none => exact absurd herr h5.2
      | some e =>
        have h6 := (hpre.2 e (ha.core.over e herr).2).1
        have : (obt (streamAfter R fuel st L ops)).length = C.length := by rw [← h6]; rfl
        rw [hr.content]; omega)
    (by rw [hr.content]; omega)
  rw [this.1, hr.content]
  simp; omega

/-- **C14**: once the end of the stream is known, `BytesRemaining` of every Body is exactly the number of
bytes that reading it delivers, however it is read. -/
theorem C14_exact_once_known (R : Rdr σ) [R.CloseOk] (fuel : Nat) (st : σ) (L : Int) (ops : List Op)
    (hok : ∀ op ∈ ops, op.Small) (hh : Out.hang ∉ streamOuts R fuel st L ops)
    (hend : term L (streamLog R fuel st L ops) ≠ none) (h : Nat)
    (ho : IsOpen (streamStep R fuel) (streamAfter R fuel st L ops) h) :
    ∃ n : Nat, (streamStep R fuel (streamAfter R fuel st L ops) (.remaining h)).2 = .remaining n ∧
      ∀ ks : List Nat, (∀ k ∈ ks, k < 2 ^ 62) →
        (delivered (run (streamStep R fuel) (streamAfter R fuel st L ops) (ks.map (Op.read h))).2).length =
          min n ks.sum := by
  obtain ⟨chs, hE, hf⟩ := stream_sim R fuel st L ops hok hh (pre_self L _)
  have hw := after_winv R fuel st L ops hok
  obtain ⟨m, hm⟩ := ho
  cases hb : (streamAfter R fuel st L ops).heap[h]? with
  | none => simp [streamStep, BufSys.step, Op.h, hb] at hm
  | some b =>
    have hcl : b.closed = false := by
      cases hc : b.closed with
      | false => rfl
      | true => simp [streamStep, BufSys.step, Op.h, hb, BufSys.copy, hc] at hm
    have ha := hw.alive ⟨b, List.mem_of_getElem? hb, hcl⟩
    obtain ⟨o1, o2, o3⟩ := ha.core.offs b (List.mem_of_getElem? hb) hcl
    refine ⟨(obt (streamAfter R fuel st L ops)).length - b.offset.toNat, ?_, ?_⟩
    · simp only [streamStep, BufSys.step, Op.h, hb, BufSys.bytesRemaining, hcl, Bool.false_eq_true, if_false]
      have hlen : (streamAfter R fuel st L ops).common.length = (obt (streamAfter R fuel st L ops)).length := by
        cases herr : (streamAfter R fuel st L ops).common.err with
        | some e => exact (ha.core.over e herr).1
        | none =>
          obtain ⟨q1, q2⟩ := ha.core.live herr
          rw [q1]
          have hend' : term L (streamAfter R fuel st L ops).common.rdr.log ≠ none := hend
          simp only [term, q2] at hend'
          split at hend'
          · rename_i hL; exact hL
          · exact absurd rfl hend'
      have := ha.core.start0
      by_cases he : b.eof = true
      · rw [if_pos he]; have := (o3 he).1; congr 1; omega
      · rw [if_neg he, hlen, if_neg (by omega), if_neg (by omega)]; congr 1; omega
    · intro ks hks
      have hsm : ∀ op ∈ ks.map (Op.read h), op.Small := by
        intro op hop
        simp only [List.mem_map] at hop
        obtain ⟨k, hk, rfl⟩ := hop
        exact hks k hk
      -- no more calls on the reader, hence neither hang nor panic
      have hquiet : ∀ (ks : List Nat) (s : BufSys (Rec σ)), WInv L s → (∀ k ∈ ks, k < 2 ^ 62) →
          term L s.common.rdr.log ≠ none →
          Out.hang ∉ (run (streamStep R fuel) s (ks.map (Op.read h))).2 ∧
          ∀ p, Out.panic p ∉ (run (streamStep R fuel) s (ks.map (Op.read h))).2 := by
        intro ks
        induction ks with
        | nil => intro s _ _ _; simp [run_nil]
        | cons k ks ih =>
          intro s hw hks hend
          obtain ⟨ext, S⟩ := buf_step R fuel L s hw (.read h k) (hks k (by simp))
          have hsil : obtained ext = [] ∧ ended ext = none := by
            rcases S.mono with h | h
            · exact absurd h hend
            · exact h
          obtain ⟨i1, i2⟩ := ih _ S.inv (fun k hk => hks k (by simp [hk]))
            (by rw [S.log, term_append_silent hsil.1 hsil.2]; exact hend)
          have hext : ∀ pre n a post, ext ≠ pre ++ .read n a :: post := by
            intro pre n a post he
            obtain ⟨_, _, _, _, _, _, _, h1, h2, _, _, h4⟩ := S.reqs pre n a post he
            rw [ended_append] at h2
            rw [obtained_append] at h4
            have h2' : ended s.common.rdr.log = none := by
              cases h : ended s.common.rdr.log with
              | none => rfl
              | some e => rw [h] at h2; simp at h2
            apply hend
            simp only [term, h2']
            split
            · rename_i hL
              have := h4 (by omega)
              simp at this; omega
            · rfl
          simp only [List.map_cons, run_cons, List.mem_cons, not_or]
          refine ⟨⟨?_, i1⟩, fun p => ⟨?_, i2 p⟩⟩
          · intro hhang
            -- a hanging call would have needed the reader
            have := no_hang_when_over R fuel L s hw h k (hks k (by simp)) hend
            exact this hhang.symm
          · intro hp
            obtain ⟨pre, n, r, h2, _⟩ := S.blame p hp.symm
            exact hext pre n r [] h2
      obtain ⟨hq1, hq2⟩ := hquiet ks _ hw hks hend
      refine exact_of_known hok hf ks hks h ?_ hq1 hq2 hb hcl (fin := (term L (streamLog R fuel st L ops)).getD .eof)
      -- the log's completion stays the same
      obtain ⟨_, ext, hx1, hx2⟩ := run_mono R fuel L (ks.map (Op.read h)) _ hw hsm
      have hsil : obtained ext = [] ∧ ended ext = none := by
        rcases hx2 with h | h
        · exact absurd h hend
        · exact h
      have hlog : streamLog R fuel st L (ops ++ ks.map (Op.read h)) = streamLog R fuel st L ops ++ ext := by
        simp only [streamLog, streamAfter] at hx1 ⊢
        rw [run_append]; exact hx1
      rw [hlog]
      refine ⟨by rw [obtained_append, hsil.1]; simp, ?_⟩
      intro e he
      rw [term_append_silent hsil.1 hsil.2] at he
      exact ⟨by rw [obtained_append, hsil.1]; simp, by rw [he]; rfl⟩

end Verif
