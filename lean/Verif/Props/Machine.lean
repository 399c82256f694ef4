import Verif.Proofs.MachineBuf
import Verif.Props.Positional
import Verif.Props.Buffered

/-!
# C71: no arithmetic overflows, also where `int` has 32 bits

The machine versions of the Bodies (`Model/Machine.lean`), in which every sum, difference and conversion wraps around, do in all
histories the same as the versions with unbounded integers, about which the other properties speak – as long as the process has
fewer than 2^31 copies of a Body, and a stream is not read beyond 2^63 bytes nor held back beyond what one slice can hold.
-/

set_option autoImplicit false

namespace Verif
open Spec

variable {σ : Type}

/-- **C71.** Bodies in memory: whatever slice the platform can hold, and whatever the calls. -/
theorem C71_bytes {w : Nat} (hw : Platform w) (data : List Byte) (hd : data.length < 2 ^ (w - 1)) (ops : List Op) :
    run (MemFam.stepM w) (fromBytes data) ops = run MemFam.step (fromBytes data) ops :=
  mem_runM hw data (by rw [← lim_cast]; exact_mod_cast hd) ops

/-- **C71.** Bodies over a ReaderAt: whatever the ReaderAt does. -/
theorem C71_readerAt (R : Rdr σ) (st : σ) {L : Int} (h0 : 0 ≤ L) (hL : L < 2 ^ 63) (ops : List Op) (hn : copyCalls ops < 2 ^ 31 - 1) :
    run (ReaderAtBody.stepM R) (ReaderAtBody.init st L) ops = run (ReaderAtBody.step R) (ReaderAtBody.init st L) ops :=
  at_runM R hL ops _ (posFit_init st h0).1 (by simp only [ReaderAtBody.init, List.length_singleton]; omega)

/-- **C71.** Bodies over a ReadSeeker: whatever it does. -/
theorem C71_seeker (R : Rdr σ) (st : σ) {L : Int} (h0 : 0 ≤ L) (hL : L < 2 ^ 63) (ops : List Op) (hn : copyCalls ops < 2 ^ 31 - 1) :
    run (SeekerBody.stepM R) (SeekerBody.init st L) ops = run (SeekerBody.step R) (SeekerBody.init st L) ops :=
  sk_runM R hL ops _ (posFit_init st h0).2 (by simp only [SeekerBody.init, List.length_singleton]; omega)

/-- **C71.** Stream-backed Bodies: as long as there is room. -/
theorem C71_stream (R : Rdr σ) [R.CloseOk] {w : Nat} (hw : Platform w) (fuel : Nat) (st : σ) {L : Int} (hL : IsI64 L) (ops : List Op)
    (hok : ∀ op ∈ ops, op.Small) (hroom : RoomFor w (BufSys.step R fuel ·) (BufSys.init st L) ops) (hn : copyCalls ops < 2 ^ 31 - 1) :
    run (BufSys.stepM R w fuel) (BufSys.init st L) ops = run (BufSys.step R fuel) (BufSys.init st L) ops := by
  have e : (BufSys.init st L : BufSys σ) = (BufSys.init ⟨st, []⟩ L : BufSys (Rec σ)).erase := rfl
  rw [e] at hroom ⊢
  have hl : (BufSys.init ⟨st, []⟩ L : BufSys (Rec σ)).heap.length = 1 := rfl
  exact buf_runM R hw fuel hL ops _ (init_winv st L) hok hroom (by omega)

/-- **C71.** With 64 bits there is room for all calls whose buffers, each counted with one block of 65536 bytes more, come to less
than 2^63 bytes. -/
theorem C71_stream64 (R : Rdr σ) [R.CloseOk] (fuel : Nat) (st : σ) {L : Int} (hL : IsI64 L) (ops : List Op)
    (hsum : (ops.map asked).sum < 2 ^ 63) (hok : ∀ op ∈ ops, op.Small) (hn : copyCalls ops < 2 ^ 31 - 1) :
    run (BufSys.stepM R 64 fuel) (BufSys.init st L) ops = run (BufSys.step R fuel) (BufSys.init st L) ops := by
  refine C71_stream R (.inr rfl) fuel st hL ops hok ?_ hn
  have e : (BufSys.init st L : BufSys σ) = (BufSys.init ⟨st, []⟩ L : BufSys (Rec σ)).erase := rfl
  rw [e]
  refine room64 R fuel hL ops _ (init_winv st L) hok ?_
  have e' : gone (BufSys.init ⟨st, []⟩ L : BufSys (Rec σ)) = 0 := rfl
  rw [e']
  omega

/-! ## The bounds are needed -/

theorem copy_many (R : Rdr σ) (m : Nat) : ∀ (n : Nat) (c : PosCommon σ), c.refcnt = i32 (n + 1) →
    (run (ReaderAtBody.stepM R) ⟨c, List.replicate (n + 1) {}⟩ (List.replicate m (.copy 0))).1 =
      ⟨{ c with refcnt := i32 ((n + m : Nat) + 1) }, List.replicate (n + m + 1) {}⟩ := by
  induction m with
  | zero =>
    intro n c hc
    obtain ⟨a, b, l, r⟩ := c
    simp only at hc
    simp only [List.replicate_zero, run_nil, hc, Nat.add_zero]
  | succ m ih =>
    intro n c hc
    rw [show List.replicate (m + 1) (Op.copy 0) = Op.copy 0 :: List.replicate m (Op.copy 0) from rfl, run_cons]
    have h1 : ReaderAtBody.stepM R ⟨c, List.replicate (n + 1) {}⟩ (.copy 0) =
        (⟨{ c with refcnt := i32 ((n + 1 : Nat) + 1) }, List.replicate (n + 1 + 1) {}⟩, .copied (n + 1)) := by
      unfold ReaderAtBody.stepM
      have : (List.replicate (n + 1) ({} : PosBody))[0]? = some ({} : PosBody) := rfl
      simp only [Op.h, this, ReaderAtBody.copyM, ReaderAtBody.refM, hc, Bool.false_eq_true, if_false, List.length_replicate]
      have e1 : i32 (i32 ((n : Int) + 1) + 1) = i32 (((n + 1 : Nat) : Int) + 1) := by
        unfold i32
        rw [Int.bmod_add_bmod]; simp
      rw [e1, ← List.replicate_succ']
    rw [h1]
    simp only
    have h2 := ih (n + 1) { c with refcnt := i32 ((n + 1 : Nat) + 1) } (by simp only)
    rw [h2, show n + 1 + m = n + (m + 1) by omega]

/-- **C71.** With 2^31 copies besides the first Body the count has wrapped around, and the first `Close` closes the Reader and takes
the content away from all the others: one that was never read reports the end. -/
theorem C71_too_many (R : Rdr σ) [R.CloseOk] (st : σ) (L : Int) :
    let s := (run (ReaderAtBody.stepM R) (ReaderAtBody.init st L) (List.replicate (2 ^ 31) (.copy 0))).1
    posOpen s.heap = 2 ^ 31 + 1 ∧
    (ReaderAtBody.stepM R (ReaderAtBody.stepM R s (.close 0)).1 (.read 1 1)).2 = .read [] (some .eof) := by
  generalize hN : 2 ^ 31 = N
  have h0 : (ReaderAtBody.init st L : PosSys σ) = ⟨{ rdr := st, length := L, refcnt := 1 }, List.replicate (0 + 1) {}⟩ := rfl
  rw [h0, copy_many R N 0 _ rfl]
  have hc : i32 (i32 (((0 + N : Nat) : Int) + 1) - 1) = -2147483648 := by rw [← hN]; decide
  simp only [Nat.zero_add] at hc ⊢
  have e0 : (List.replicate (N + 1) ({} : PosBody))[0]? = some ({} : PosBody) := rfl
  have e1 : (List.replicate (N + 1) ({} : PosBody))[1]? = some ({} : PosBody) := by
    rw [List.getElem?_replicate, if_pos (by omega)]
  refine ⟨by simp [posOpen, List.countP_replicate], ?_⟩
  have hcl : (ReaderAtBody.unrefM R ({ rdr := st, length := L, refcnt := i32 ((N : Int) + 1) } : PosCommon σ)).1.length = 0 := by
    unfold ReaderAtBody.unrefM
    simp only [hc]
    rw [if_neg (by decide)]
    have hok : ∃ e, (if (true && R.isCloser) = true then R.close st else (st, .ok none)).2 = .ok e := by
      split
      · rename_i h; exact Rdr.CloseOk.close (by simpa using h) st
      · exact ⟨_, rfl⟩
    obtain ⟨e, he⟩ := hok
    simp only [he]
  have hs : (ReaderAtBody.stepM R (⟨{ rdr := st, length := L, refcnt := i32 ((N : Int) + 1) }, List.replicate (N + 1) {}⟩ : PosSys σ) (.close 0)).1 =
      ⟨(ReaderAtBody.unrefM R ({ rdr := st, length := L, refcnt := i32 ((N : Int) + 1) } : PosCommon σ)).1,
        (List.replicate (N + 1) {}).set 0 { closed := true }⟩ := by
    unfold ReaderAtBody.stepM
    simp only [Op.h, e0, ReaderAtBody.closeM, Bool.false_eq_true, if_false]
  rw [hs]
  unfold ReaderAtBody.stepM
  have e2 : ((List.replicate (N + 1) ({} : PosBody)).set 0 { closed := true })[1]? = some ({} : PosBody) := by
    rw [List.getElem?_set_ne (by decide), e1]
  simp only [Op.h, e2, ReaderAtBody.readM, hcl, Bool.false_eq_true, if_false]
  rfl

/-- **C71.** With 32 bits, a buffer that is an `int` but not with a block more makes a stream-backed Body panic. -/
theorem C71_no_room (R : Rdr σ) (fuel : Nat) (st : σ) :
    ((BufSys.init st (-1)).stepM R 32 fuel (.read 0 (2 ^ 31 - 1))).2 = .panic .bounds := by
  have e1 : i64 (0 + ((2 ^ 31 - 1 : Nat) : Int)) = 2147483647 := by decide
  have e2 : i64 (0 + ((0 : Nat) : Int)) = 0 := by decide
  have e3 : BufSys.roundUpM (i64 (2147483647 - 0)) = 2147483648 := by decide +kernel
  have e4 : i64 (i64 0 + 2147483648) = 2147483648 := by decide
  generalize 2 ^ 31 - 1 = k at e1 ⊢
  unfold BufSys.stepM
  simp only [BufSys.init, BufSys.ref, Op.h, BufSys.readM, BufSys.fillM, List.getElem?_cons_zero, Bool.false_eq_true, if_false, if_true, List.length_nil,
    e1, e2, e3]
  simp [e4]

/-! ## Examples -/

/-- The sums do wrap. -/
example : iw 32 (2 ^ 31) = -(2 ^ 31) ∧ iw 64 (2 ^ 31) = 2 ^ 31 ∧ i32 (2 ^ 31 - 1 + 1) = -(2 ^ 31) ∧ i64 (2 ^ 63) = -(2 ^ 63) := by decide

/-- A cursor outside the slice – which does not occur – would go wrong. -/
example : ({ data := [1, 2, 3], offset := -(2 ^ 31) } : BytesBody).bytesRemainingM 32 = -(2 ^ 31) + 3 ∧
    ({ data := [1, 2, 3], offset := -(2 ^ 31) } : BytesBody).bytesRemaining = 2 ^ 31 + 3 := by decide

example : run (MemFam.stepM 32) (fromBytes [1, 2, 3]) [.read 0 2, .seek 0 (2 ^ 63 - 1) 1, .readAt 0 9 1, .seek 0 (2 ^ 32 + 1) 0, .copy 0,
      .writeTo 1 (fun d => .ok (d.length, none)), .remaining 0] =
    run MemFam.step (fromBytes [1, 2, 3]) [.read 0 2, .seek 0 (2 ^ 63 - 1) 1, .readAt 0 9 1, .seek 0 (2 ^ 32 + 1) 0, .copy 0,
      .writeTo 1 (fun d => .ok (d.length, none)), .remaining 0] := by decide +kernel

example : (run (ReaderAtBody.stepM (fileRdr [1, 2, 3])) (ReaderAtBody.init 0 (2 ^ 63 - 1))
      [.read 0 2, .copy 0, .seek 0 (2 ^ 62) 0, .remaining 1, .seek 1 (2 ^ 63 - 3) 1, .remaining 0, .close 0, .remaining 1]).2 =
    [.read [1, 2] none, .copied 1, .seek (2 ^ 62) none, .remaining (2 ^ 63 - 3), .seek (2 ^ 63 - 1) none, .remaining (2 ^ 62 - 1), .closed none,
      .remaining 0] := by decide +kernel

example : (run (BufSys.stepM (scripted) 32 9) (BufSys.init [.got [1, 2] none, .got [3] (some .eof)] (-1))
      [.read 0 1, .copy 0, .read 0 4, .remaining 1, .read 1 1, .close 0, .read 1 9, .close 1]).2 =
    [.read [1] none, .copied 1, .read [2, 3] (some .eof), .remaining 2, .read [2] none, .closed none, .read [3] (some .eof), .closed (some (.ext 7))] := by
  decide +kernel

end Verif
