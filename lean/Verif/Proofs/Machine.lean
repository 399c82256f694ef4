import Verif.Model.Machine
import Verif.Spec.Machine
import Verif.Proofs.PosMore
import Verif.Proofs.BufRun
import Verif.Proofs.BufCongr

/-! # Machine arithmetic is exact in all states that occur -/

set_option linter.unusedSimpArgs false

set_option autoImplicit false

namespace Verif
open Spec

/-- The first number that is no `int`. -/
def lim (w : Nat) : Int := 2 ^ (w - 1)

theorem lim_le {w : Nat} (h : Platform w) : lim w ≤ 2 ^ 63 := by rcases h with rfl | rfl <;> decide
theorem lim_ge {w : Nat} (h : Platform w) : 2 ^ 31 ≤ lim w := by rcases h with rfl | rfl <;> decide

theorem lim_cast (w : Nat) : ((2 ^ (w - 1) : Nat) : Int) = lim w := by unfold lim; simp

theorem iw_of {w : Nat} (hw : Platform w) {x : Int} (h0 : -lim w ≤ x) (h1 : x < lim w) : iw w x = x := by
  rcases hw with rfl | rfl <;> unfold iw lim at * <;> apply Int.bmod_eq_of_le <;> omega

theorem i64_of {x : Int} (h0 : -(2 ^ 63) ≤ x) (h1 : x < 2 ^ 63) : i64 x = x := i64_of_isI64 ⟨h0, h1⟩

theorem i32_of {x : Int} (h0 : -(2 ^ 31) ≤ x) (h1 : x < 2 ^ 31) : i32 x = x := by
  unfold i32; apply Int.bmod_eq_of_le <;> omega

/-! ## bytes.go -/

/-- The cursor lies inside the slice, whose length is an `int`. -/
structure BytesFit (w : Nat) (b : BytesBody) : Prop where
  lo : 0 ≤ b.offset
  hi : b.offset ≤ b.data.length
  len : (b.data.length : Int) < lim w

theorem bytes_readM {w : Nat} (hw : Platform w) {b : BytesBody} (hb : BytesFit w b) (k : Nat) :
    b.readM w k = b.read k ∧ BytesFit w (b.read k).1 := by
  obtain ⟨h0, h1, h2⟩ := hb
  have e1 : iw w (b.data.length - b.offset) = b.data.length - b.offset := iw_of hw (by omega) (by omega)
  unfold BytesBody.readM BytesBody.read
  rw [e1]
  by_cases hc : b.closed = true
  · simp only [hc, if_true]; exact ⟨trivial, h0, h1, h2⟩
  · by_cases he : b.eof = true
    · simp only [hc, he, if_true]; exact ⟨trivial, h0, h1, h2⟩
    · simp only [hc, he, if_false, Bool.false_eq_true]
      by_cases hk : (k : Int) > b.data.length - b.offset
      · simp only [decide_eq_true hk, if_true]
        rw [iw_of hw (by omega) (by omega)]
        refine ⟨rfl, ?_⟩
        split
        · exact ⟨by simp only; omega, by simp only; omega, h2⟩
        · exact ⟨h0, h1, h2⟩
      · simp only [decide_eq_false hk, if_false, Bool.false_eq_true]
        rw [iw_of hw (by omega) (by omega)]
        refine ⟨rfl, ?_⟩
        split
        · exact ⟨by simp only; omega, by simp only; omega, h2⟩
        · exact ⟨h0, h1, h2⟩

theorem bytes_seekM {w : Nat} (hw : Platform w) {b : BytesBody} (hb : BytesFit w b) (off wh : Int) :
    b.seekM w off wh = b.seek off wh ∧ BytesFit w (b.seek off wh).1 := by
  obtain ⟨h0, h1, h2⟩ := hb
  unfold BytesBody.seekM BytesBody.seek
  simp only
  generalize (if wh = 0 then off else if wh = 1 then i64 (off + b.offset) else i64 (off + b.data.length)) = o
  have hx : BytesFit w b := ⟨h0, h1, h2⟩
  by_cases hc : b.closed = true
  · rw [if_pos hc, if_pos hc]; exact ⟨rfl, hx⟩
  rw [if_neg hc, if_neg hc]
  by_cases h3 : wh = 0 ∧ off < 0
  · rw [if_pos h3, if_pos h3]; exact ⟨rfl, hx⟩
  rw [if_neg h3, if_neg h3]
  by_cases h4 : wh ≠ 0 ∧ wh ≠ 1 ∧ wh ≠ 2
  · rw [if_pos h4, if_pos h4]; exact ⟨rfl, hx⟩
  rw [if_neg h4, if_neg h4]
  by_cases h5 : o < 0
  · rw [if_pos h5, if_pos h5]; exact ⟨rfl, hx⟩
  rw [if_neg h5, if_neg h5]
  have h6 : 0 ≤ (if o > b.data.length then (b.data.length : Int) else o) ∧
      (if o > b.data.length then (b.data.length : Int) else o) ≤ b.data.length := by split <;> omega
  rw [iw_of hw (by omega) (by omega)]
  exact ⟨rfl, h6.1, h6.2, h2⟩

theorem bytes_readAtM {w : Nat} (hw : Platform w) {b : BytesBody} (hb : BytesFit w b) {k : Nat} (off : Int) :
    b.readAtM w k off = b.readAt k off := by
  obtain ⟨h0, h1, h2⟩ := hb
  have h63 := lim_le hw
  unfold BytesBody.readAtM BytesBody.readAt
  by_cases hc : b.closed = true
  · rw [if_pos hc, if_pos hc]
  rw [if_neg hc, if_neg hc]
  by_cases h3 : off < 0
  · rw [if_pos h3, if_pos h3]
  rw [if_neg h3, if_neg h3]
  have h6 : 0 ≤ (if off > b.data.length then (b.data.length : Int) else off) ∧
      (if off > b.data.length then (b.data.length : Int) else off) ≤ b.data.length := by split <;> omega
  simp only
  generalize (if off > b.data.length then (b.data.length : Int) else off) = o at h6 ⊢
  rw [i64_of (x := b.data.length - o) (by omega) (by omega), iw_of hw (x := b.data.length - o) (by omega) (by omega),
    iw_of hw (x := o) (by omega) (by omega)]
  by_cases hk : (k : Int) > b.data.length - o
  · simp only [decide_eq_true hk, if_true]
    rw [iw_of hw (by omega) (by omega)]
    rfl
  · simp only [decide_eq_false hk, if_false, Bool.false_eq_true]
    rw [iw_of hw (by omega) (by omega)]
    rfl

theorem bytes_writeToM {w : Nat} (hw : Platform w) {b : BytesBody} (hb : BytesFit w b) (f : WriteFn) :
    b.writeToM w f = b.writeTo f ∧ BytesFit w (b.writeTo f).1 := by
  obtain ⟨h0, h1, h2⟩ := hb
  have hx : BytesFit w b := ⟨h0, h1, h2⟩
  unfold BytesBody.writeToM BytesBody.writeTo
  by_cases hc : b.closed = true
  · rw [if_pos hc, if_pos hc]; exact ⟨rfl, hx⟩
  rw [if_neg hc, if_neg hc]
  by_cases he : b.eof = true
  · rw [if_pos he, if_pos he]; exact ⟨rfl, hx⟩
  rw [if_neg he, if_neg he]
  simp only
  rw [iw_of hw (x := b.data.length - b.offset) (by omega) (by omega)]
  cases goSlice b.data b.offset b.data.length with
  | none => exact ⟨rfl, hx⟩
  | some d =>
    simp only
    cases f d with
    | panics p => exact ⟨rfl, hx⟩
    | ok r =>
      obtain ⟨n, err⟩ := r
      simp only
      by_cases h3 : n ≥ 0
      · by_cases h4 : n ≤ b.data.length - b.offset
        · rw [if_neg (by omega), if_neg (by omega), if_neg (by omega), if_neg (by omega), iw_of hw (x := n) (by omega) (by omega),
            iw_of hw (by omega) (by omega)]
          exact ⟨rfl, by simp only; omega, by simp only; omega, h2⟩
        · rw [if_neg (by omega), if_pos (by omega), if_neg (by omega), if_pos (by omega)]; exact ⟨rfl, hx⟩
      · rw [if_pos (by omega), if_pos (by omega)]; exact ⟨rfl, hx⟩

theorem bytesFit_set {w : Nat} {s : List BytesBody} (hs : ∀ b ∈ s, BytesFit w b) (h : Nat) {b : BytesBody} (hb : BytesFit w b) :
    ∀ x ∈ s.set h b, BytesFit w x := by
  intro x hx
  rcases List.mem_or_eq_of_mem_set hx with h1 | h1
  · exact hs x h1
  · rw [h1]; exact hb

theorem bytes_stepM {w : Nat} (hw : Platform w) (s : List BytesBody) (hs : ∀ b ∈ s, BytesFit w b) (op : Op) :
    BytesBody.stepM w s op = BytesBody.step s op ∧ ∀ b ∈ (BytesBody.step s op).1, BytesFit w b := by
  unfold BytesBody.stepM BytesBody.step
  cases hb : s[op.h]? with
  | none => exact ⟨rfl, hs⟩
  | some b =>
    have hf := hs b (List.mem_of_getElem? hb)
    cases op with
    | read h k =>
      obtain ⟨e, f⟩ := bytes_readM hw hf k
      simp only [e]
      exact ⟨trivial, bytesFit_set hs h f⟩
    | readAt h k off => simp only [bytes_readAtM hw hf]; exact ⟨trivial, hs⟩
    | seek h off wh =>
      obtain ⟨e, f⟩ := bytes_seekM hw hf off wh
      simp only [e]
      exact ⟨trivial, bytesFit_set hs h f⟩
    | remaining h =>
      obtain ⟨h0, h1, h2⟩ := hf
      refine ⟨?_, hs⟩
      simp only [BytesBody.bytesRemainingM, BytesBody.bytesRemaining]
      rw [iw_of hw (x := b.data.length - b.offset) (by omega) (by omega)]
    | writeTo h f =>
      obtain ⟨e, g⟩ := bytes_writeToM hw hf f
      simp only [e]
      exact ⟨trivial, bytesFit_set hs h g⟩
    | copy h =>
      refine ⟨rfl, ?_⟩
      simp only
      split
      · exact hs
      · intro x hx
        rcases List.mem_append.1 hx with h1 | h1
        · exact hs x h1
        · rw [List.mem_singleton.1 h1]; exact ⟨hf.lo, hf.hi, hf.len⟩
    | close h =>
      refine ⟨rfl, bytesFit_set hs h ?_⟩
      unfold BytesBody.close
      split
      · exact hf
      · exact ⟨by simp, by simp, by have := lim_ge hw; simp; omega⟩
    | unwrap h => exact ⟨rfl, hs⟩

theorem bytes_runM {w : Nat} (hw : Platform w) (ops : List Op) : ∀ (s : List BytesBody), (∀ b ∈ s, BytesFit w b) →
    run (BytesBody.stepM w) s ops = run BytesBody.step s ops := by
  induction ops with
  | nil => intro s _; rfl
  | cons op ops ih =>
    intro s hs
    obtain ⟨h1, h2⟩ := bytes_stepM hw s hs op
    rw [run_cons, run_cons, h1, ih _ h2]

theorem mem_runM {w : Nat} (hw : Platform w) (data : List Byte) (hd : (data.length : Int) < lim w) (ops : List Op) :
    run (MemFam.stepM w) (fromBytes data) ops = run MemFam.step (fromBytes data) ops := by
  have emp : ∀ (ops : List Op) (s : List EmptyBody), run (MemFam.stepM w) (.empty s) ops = run MemFam.step (.empty s) ops := by
    intro ops
    induction ops with
    | nil => intro s; rfl
    | cons op ops ih => intro s; rw [run_cons, run_cons]; simp only [MemFam.stepM, MemFam.step]; rw [ih]
  have byt : ∀ (ops : List Op) (s : List BytesBody), (∀ b ∈ s, BytesFit w b) →
      run (MemFam.stepM w) (.bytes s) ops = run MemFam.step (.bytes s) ops := by
    intro ops
    induction ops with
    | nil => intro s _; rfl
    | cons op ops ih =>
      intro s hs
      obtain ⟨h1, h2⟩ := bytes_stepM hw s hs op
      rw [run_cons, run_cons]; simp only [MemFam.stepM, MemFam.step]; rw [h1, ih _ h2]
  unfold fromBytes emptyFam
  split
  · exact emp ops _
  · exact byt ops _ (by intro b hb; rw [List.mem_singleton.1 hb]; exact ⟨by simp, by simp, hd⟩)

/-! ## Families over ReaderAts and Seekers -/

section
variable {σ : Type}

/-- Lengths and offsets lie between 0 and the length the family began with. -/
structure PosFit (L : Int) (s : PosSys σ) : Prop where
  inv : PosInv s
  len : s.common.length ≤ L
  off : ∀ b ∈ s.heap, b.offset ≤ L

/-- No more bytes than asked for. -/
def ShortGet (K : PosKind σ) : Prop := ∀ st x off d e, (K.get st x off).2 = .ret (d, e) → d.length ≤ x

theorem checked_short {x : Nat} {r : RResp} {d : List Byte} {e : Option Err} (h : checked x r = .ret (d, e)) : d.length ≤ x := by
  unfold checked at h
  split at h
  · cases h
  · cases h
  · split at h
    · cases h; assumption
    · cases h

theorem shortGet_at (R : Rdr σ) : ShortGet (atKind R) := by
  intro st x off d e h
  exact checked_short h

theorem shortGet_seek (R : Rdr σ) : ShortGet (seekKind R) := by
  intro st x off d e h
  simp only [seekKind] at h
  split at h
  · cases h
  · cases h; simp
  · exact checked_short h

theorem attempt_within {K : PosKind σ} (hK : ShortGet K) {c : PosCommon σ} {k : Nat} {off : Int} {c' : PosCommon σ} {d : List Byte}
    {e : Option Err} (h : Pos.attempt K c k off = (c', .ret (d, e))) :
    (if off > c.length then c.length else off) + d.length ≤ c.length := by
  unfold Pos.attempt at h
  simp only at h
  have h6 : (if off > c.length then c.length else off) ≤ c.length := by split <;> omega
  generalize (if off > c.length then c.length else off) = o at h6 h ⊢
  by_cases ha : c.length - o > 0
  · rw [if_pos ha] at h
    have hx : (if decide ((k : Int) > c.length - o) = true then c.length - o else (k : Int)) = ((min k (c.length - o).toNat : Nat) : Int) := by
      split
      · rename_i h; simp at h; omega
      · rename_i h; simp at h; omega
    rw [hx, goSlice_zeros k _ (by omega) (by omega)] at h
    simp only [List.length_replicate, Int.toNat_natCast] at h
    unfold Pos.fetch at h
    by_cases hR : (!c.hasR) = true
    · rw [if_pos hR] at h; simp at h
    · rw [if_neg hR] at h
      simp only at h
      cases hg : (K.get c.rdr (min k (c.length - o).toNat) o).2 with
      | panic p => rw [hg] at h; simp at h
      | hang => rw [hg] at h; simp at h
      | ret de =>
        obtain ⟨d', e'⟩ := de
        rw [hg] at h
        simp only [Prod.mk.injEq, Res.ret.injEq] at h
        have := hK _ _ _ _ _ hg
        rw [h.2.1] at this
        omega
  · rw [if_neg ha] at h
    simp only [Prod.mk.injEq, Res.ret.injEq] at h
    rw [← h.2.1]
    simpa using h6

theorem posOpen_le (l : List PosBody) : posOpen l ≤ l.length := List.countP_le_length

theorem posFit_step (K : PosKind σ) (hK : ShortGet K) {L : Int} {s : PosSys σ} (hs : PosFit L s) (op : Op) :
    PosFit L (Pos.step K s op).1 ∧ (Pos.step K s op).1.heap.length ≤ s.heap.length + copyCalls [op] := by
  have hinv := posInv_step K s op hs.inv
  have h0 := hs.inv.len
  have h1 := hs.len
  suffices h : (Pos.step K s op).1.common.length ≤ L ∧ (∀ b ∈ (Pos.step K s op).1.heap, b.offset ≤ L) ∧
      (Pos.step K s op).1.heap.length ≤ s.heap.length + copyCalls [op] from ⟨⟨hinv, h.1, h.2.1⟩, h.2.2⟩
  have hset : ∀ (h : Nat) (b : PosBody), b.offset ≤ L → ∀ x ∈ s.heap.set h b, x.offset ≤ L := by
    intro h b hb x hx
    rcases List.mem_or_eq_of_mem_set hx with h1 | h1
    · exact hs.off x h1
    · rw [h1]; exact hb
  unfold Pos.step
  cases hb : s.heap[op.h]? with
  | none => exact ⟨h1, hs.off, Nat.le_add_right _ _⟩
  | some b =>
    have hm := List.mem_of_getElem? hb
    cases op with
    | read h k =>
      simp only [Op.h] at hb ⊢
      unfold Pos.read
      by_cases hc : b.closed = true
      · rw [if_pos hc]; exact ⟨h1, hs.off, Nat.le_add_right _ _⟩
      · rw [if_neg hc]
        cases he : b.err with
        | some e => exact ⟨h1, hs.off, Nat.le_add_right _ _⟩
        | none =>
          simp only
          generalize hr : Pos.attempt K s.common k b.offset = r
          obtain ⟨c', r⟩ := r
          obtain ⟨g1, _, _⟩ := attempt_common K _ _ _ hr
          cases r with
          | panic p => exact ⟨by simp only; omega, hs.off, Nat.le_add_right _ _⟩
          | hang => exact ⟨by simp only; omega, hs.off, Nat.le_add_right _ _⟩
          | ret de =>
            obtain ⟨d, e⟩ := de
            have hsh := attempt_within hK hr
            simp only
            generalize (if b.offset > s.common.length then s.common.length else b.offset) + (d.length : Int) = o at hsh ⊢
            obtain ⟨_, _, _, g4⟩ := served_common s h b c' o d e
            have g5 := (served_heap s h b c' o d e).1
            rw [g4, g5]
            refine ⟨by split <;> omega, hset h _ (by simp only; omega), by simp⟩
    | readAt h k off =>
      simp only [Op.h] at hb ⊢
      unfold Pos.readAt
      split
      · exact ⟨h1, hs.off, Nat.le_add_right _ _⟩
      · split
        · exact ⟨h1, hs.off, Nat.le_add_right _ _⟩
        · generalize hr : Pos.attempt K s.common k off = r
          obtain ⟨c', r⟩ := r
          obtain ⟨g1, _, _⟩ := attempt_common K _ _ _ hr
          cases r with
          | panic p => exact ⟨by simp only; omega, hs.off, Nat.le_add_right _ _⟩
          | hang => exact ⟨by simp only; omega, hs.off, Nat.le_add_right _ _⟩
          | ret de => exact ⟨by simp only; omega, hs.off, Nat.le_add_right _ _⟩
    | seek h off wh =>
      simp only [Op.h] at hb ⊢
      rcases pos_seek_cases s h b off wh h0 with ⟨e, g⟩ | ⟨hc, o, _, g2, g⟩
      · rw [g]; exact ⟨h1, hs.off, Nat.le_add_right _ _⟩
      · rw [g]; exact ⟨h1, hset h _ (by simp only; omega), by simp⟩
    | remaining h => exact ⟨h1, hs.off, Nat.le_add_right _ _⟩
    | copy h =>
      simp only
      split
      · exact ⟨h1, hs.off, Nat.le_add_right _ _⟩
      · refine ⟨h1, ?_, by simp [copyCalls, isCopy]⟩
        intro x hx
        rcases List.mem_append.1 hx with g | g
        · exact hs.off x g
        · rw [List.mem_singleton.1 g]; exact hs.off b hm
    | close h =>
      simp only
      split
      · exact ⟨h1, hs.off, Nat.le_add_right _ _⟩
      · refine ⟨?_, hset h _ (by simp only; omega), by simp⟩
        simp only
        unfold Pos.unref
        split
        · exact h1
        · split
          · split
            · simp only; omega
            · exact h1
          · simp only; omega
    | unwrap h => exact ⟨h1, hs.off, Nat.le_add_right _ _⟩
    | writeTo h f => exact ⟨h1, hs.off, Nat.le_add_right _ _⟩

/-! ## readerat.go -/

theorem at_fetched (R : Rdr σ) (c : PosCommon σ) (x : Nat) (off : Int) {d : List Byte} {e : Option Err}
    (h : (ReaderAtBody.commonReadAt R c x off).2 = .ret (d, e)) : d.length ≤ x := by
  rw [at_fetch] at h
  unfold Pos.fetch at h
  split at h
  · cases h
  · exact shortGet_at R _ _ _ _ _ h

/-- `Read` and `ReadAt` deliver no more than there is. -/
theorem at_got (R : Rdr σ) (c : PosCommon σ) (k : Nat) (offset avail : Int) (h0 : 0 ≤ avail) {d : List Byte} {e : Option Err}
    (h : (if avail > 0 then
        match goSlice (List.replicate k (0 : Byte)) 0 (if decide ((k : Int) > avail) = true then avail else k) with
        | none => (c, Res.panic .bounds)
        | some p => ReaderAtBody.commonReadAt R c p.length offset
      else (c, .ret ([], none))).2 = .ret (d, e)) : (d.length : Int) ≤ avail := by
  by_cases ha : avail > 0
  · rw [if_pos ha] at h
    have hx : (if decide ((k : Int) > avail) = true then avail else (k : Int)) = ((min k avail.toNat : Nat) : Int) := by
      split
      · rename_i h; simp at h; omega
      · rename_i h; simp at h; omega
    rw [hx, goSlice_zeros k _ (by omega) (by omega)] at h
    have := at_fetched R c _ _ h
    simp at this
    omega
  · rw [if_neg ha] at h
    cases h
    simpa using h0

theorem at_readM (R : Rdr σ) {L : Int} (hL : L < 2 ^ 63) {s : PosSys σ} (hs : PosFit L s) (h : Nat) {b : PosBody} (hb : b ∈ s.heap)
    (k : Nat) : ReaderAtBody.readM R s h b k = ReaderAtBody.read R s h b k := by
  have h1 := hs.inv.len
  have h2 := hs.len
  have h3 := hs.inv.off b hb
  have h4 := hs.off b hb
  unfold ReaderAtBody.readM ReaderAtBody.read
  by_cases hc : b.closed = true
  · rw [if_pos hc, if_pos hc]
  rw [if_neg hc, if_neg hc]
  cases b.err with
  | some e => rfl
  | none =>
    simp only
    have h6 : 0 ≤ (if b.offset > s.common.length then s.common.length else b.offset) ∧
      (if b.offset > s.common.length then s.common.length else b.offset) ≤ s.common.length := by split <;> omega
    generalize (if b.offset > s.common.length then s.common.length else b.offset) = o at h6 ⊢
    rw [i64_of (x := s.common.length - o) (by omega) (by omega)]
    generalize ha : s.common.length - o = avail
    have hd := fun d e => at_got R s.common k o avail (by omega) (d := d) (e := e)
    generalize hr : (if avail > 0 then
        match goSlice (List.replicate k (0 : Byte)) 0 (if decide ((k : Int) > avail) = true then avail else k) with
        | none => (s.common, Res.panic .bounds)
        | some p => ReaderAtBody.commonReadAt R s.common p.length o
      else (s.common, .ret ([], none))) = r at hd ⊢
    obtain ⟨c, r⟩ := r
    cases r with
    | panic p => rfl
    | hang => rfl
    | ret de =>
      obtain ⟨d, e⟩ := de
      have := hd d e rfl
      simp only
      rw [i64_of (x := o + d.length) (by omega) (by omega)]
      rfl

theorem at_readAtM (R : Rdr σ) {L : Int} (hL : L < 2 ^ 63) {s : PosSys σ} (hs : PosFit L s) (b : PosBody) (k : Nat) (off : Int) :
    ReaderAtBody.readAtM R s b k off = ReaderAtBody.readAt R s b k off := by
  have h1 := hs.inv.len
  have h2 := hs.len
  unfold ReaderAtBody.readAtM ReaderAtBody.readAt
  by_cases hc : b.closed = true
  · rw [if_pos hc, if_pos hc]
  rw [if_neg hc, if_neg hc]
  by_cases h0 : off < 0
  · rw [if_pos h0, if_pos h0]
  rw [if_neg h0, if_neg h0]
  simp only
  have h6 : 0 ≤ (if off > s.common.length then s.common.length else off) ∧
    (if off > s.common.length then s.common.length else off) ≤ s.common.length := by split <;> omega
  generalize (if off > s.common.length then s.common.length else off) = o at h6 ⊢
  rw [i64_of (x := s.common.length - o) (by omega) (by omega)]
  rfl

theorem at_stepM (R : Rdr σ) {L : Int} (hL : L < 2 ^ 63) {s : PosSys σ} (hs : PosFit L s) (op : Op)
    (hn : s.heap.length + copyCalls [op] < 2 ^ 31) : ReaderAtBody.stepM R s op = ReaderAtBody.step R s op := by
  have h1 := hs.inv.len
  have h2 := hs.len
  have hcnt := hs.inv.cnt
  have hle := posOpen_le s.heap
  unfold ReaderAtBody.stepM ReaderAtBody.step
  cases hb : s.heap[op.h]? with
  | none => rfl
  | some b =>
    have hm := List.mem_of_getElem? hb
    have h3 := hs.inv.off b hm
    have h4 := hs.off b hm
    cases op with
    | read h k => exact at_readM R hL hs h hm k
    | readAt h k off => exact at_readAtM R hL hs b k off
    | seek h off wh => rfl
    | remaining h =>
      simp only [ReaderAtBody.bytesRemainingM, ReaderAtBody.bytesRemaining, ReaderAtBody.commonRemaining]
      rw [i64_of (x := s.common.length - b.offset) (by omega) (by omega)]
    | copy h =>
      simp only [copyCalls, isCopy, List.countP_cons, List.countP_nil, if_true] at hn
      simp only [ReaderAtBody.copyM, ReaderAtBody.copy, ReaderAtBody.refM, ReaderAtBody.ref]
      rw [i32_of (by omega) (by omega)]
    | close h =>
      simp only [ReaderAtBody.closeM, ReaderAtBody.close, ReaderAtBody.unrefM, ReaderAtBody.unref]
      rw [i32_of (by omega) (by omega)]
      rfl
    | unwrap h => rfl
    | writeTo h f => rfl

theorem at_runM (R : Rdr σ) {L : Int} (hL : L < 2 ^ 63) (ops : List Op) : ∀ (s : PosSys σ), PosFit L s →
    s.heap.length + copyCalls ops < 2 ^ 31 → run (ReaderAtBody.stepM R) s ops = run (ReaderAtBody.step R) s ops := by
  induction ops with
  | nil => intro s _ _; rfl
  | cons op ops ih =>
    intro s hs hn
    have e : copyCalls (op :: ops) = copyCalls [op] + copyCalls ops := by simp [copyCalls, List.countP_cons]; omega
    have h1 := at_stepM R hL hs op (by omega)
    have h2 := posFit_step (atKind R) (shortGet_at R) hs op
    rw [← at_step] at h2
    rw [run_cons, run_cons, h1, ih _ h2.1 (by have := h2.2; omega)]

/-! ## seeker.go -/

theorem sk_fetched (R : Rdr σ) (c : PosCommon σ) (x : Nat) (off : Int) {d : List Byte} {e : Option Err}
    (h : (SeekerBody.commonReadAt R c x off).2 = .ret (d, e)) : d.length ≤ x := by
  rw [seek_fetch] at h
  unfold Pos.fetch at h
  split at h
  · cases h
  · exact shortGet_seek R _ _ _ _ _ h

/-- `Read` and `ReadAt` deliver no more than there is. -/
theorem sk_got (R : Rdr σ) (c : PosCommon σ) (k : Nat) (offset avail : Int) (h0 : 0 ≤ avail) {d : List Byte} {e : Option Err}
    (h : (if avail > 0 then
        match goSlice (List.replicate k (0 : Byte)) 0 (if decide ((k : Int) > avail) = true then avail else k) with
        | none => (c, Res.panic .bounds)
        | some p => SeekerBody.commonReadAt R c p.length offset
      else (c, .ret ([], none))).2 = .ret (d, e)) : (d.length : Int) ≤ avail := by
  by_cases ha : avail > 0
  · rw [if_pos ha] at h
    have hx : (if decide ((k : Int) > avail) = true then avail else (k : Int)) = ((min k avail.toNat : Nat) : Int) := by
      split
      · rename_i h; simp at h; omega
      · rename_i h; simp at h; omega
    rw [hx, goSlice_zeros k _ (by omega) (by omega)] at h
    have := sk_fetched R c _ _ h
    simp at this
    omega
  · rw [if_neg ha] at h
    cases h
    simpa using h0

theorem sk_readM (R : Rdr σ) {L : Int} (hL : L < 2 ^ 63) {s : PosSys σ} (hs : PosFit L s) (h : Nat) {b : PosBody} (hb : b ∈ s.heap)
    (k : Nat) : SeekerBody.readM R s h b k = SeekerBody.read R s h b k := by
  have h1 := hs.inv.len
  have h2 := hs.len
  have h3 := hs.inv.off b hb
  have h4 := hs.off b hb
  unfold SeekerBody.readM SeekerBody.read
  by_cases hc : b.closed = true
  · rw [if_pos hc, if_pos hc]
  rw [if_neg hc, if_neg hc]
  cases b.err with
  | some e => rfl
  | none =>
    simp only
    have h6 : 0 ≤ (if b.offset > s.common.length then s.common.length else b.offset) ∧
      (if b.offset > s.common.length then s.common.length else b.offset) ≤ s.common.length := by split <;> omega
    generalize (if b.offset > s.common.length then s.common.length else b.offset) = o at h6 ⊢
    rw [i64_of (x := s.common.length - o) (by omega) (by omega)]
    generalize ha : s.common.length - o = avail
    have hd := fun d e => sk_got R s.common k o avail (by omega) (d := d) (e := e)
    generalize hr : (if avail > 0 then
        match goSlice (List.replicate k (0 : Byte)) 0 (if decide ((k : Int) > avail) = true then avail else k) with
        | none => (s.common, Res.panic .bounds)
        | some p => SeekerBody.commonReadAt R s.common p.length o
      else (s.common, .ret ([], none))) = r at hd ⊢
    obtain ⟨c, r⟩ := r
    cases r with
    | panic p => rfl
    | hang => rfl
    | ret de =>
      obtain ⟨d, e⟩ := de
      have := hd d e rfl
      simp only
      rw [i64_of (x := o + d.length) (by omega) (by omega)]
      rfl

theorem sk_readAtM (R : Rdr σ) {L : Int} (hL : L < 2 ^ 63) {s : PosSys σ} (hs : PosFit L s) (b : PosBody) (k : Nat) (off : Int) :
    SeekerBody.readAtM R s b k off = SeekerBody.readAt R s b k off := by
  have h1 := hs.inv.len
  have h2 := hs.len
  unfold SeekerBody.readAtM SeekerBody.readAt
  by_cases hc : b.closed = true
  · rw [if_pos hc, if_pos hc]
  rw [if_neg hc, if_neg hc]
  by_cases h0 : off < 0
  · rw [if_pos h0, if_pos h0]
  rw [if_neg h0, if_neg h0]
  simp only
  have h6 : 0 ≤ (if off > s.common.length then s.common.length else off) ∧
    (if off > s.common.length then s.common.length else off) ≤ s.common.length := by split <;> omega
  generalize (if off > s.common.length then s.common.length else off) = o at h6 ⊢
  rw [i64_of (x := s.common.length - o) (by omega) (by omega)]
  rfl

theorem sk_stepM (R : Rdr σ) {L : Int} (hL : L < 2 ^ 63) {s : PosSys σ} (hs : PosFit L s) (op : Op)
    (hn : s.heap.length + copyCalls [op] < 2 ^ 31) : SeekerBody.stepM R s op = SeekerBody.step R s op := by
  have h1 := hs.inv.len
  have h2 := hs.len
  have hcnt := hs.inv.cnt
  have hle := posOpen_le s.heap
  unfold SeekerBody.stepM SeekerBody.step
  cases hb : s.heap[op.h]? with
  | none => rfl
  | some b =>
    have hm := List.mem_of_getElem? hb
    have h3 := hs.inv.off b hm
    have h4 := hs.off b hm
    cases op with
    | read h k => exact sk_readM R hL hs h hm k
    | readAt h k off => exact sk_readAtM R hL hs b k off
    | seek h off wh => rfl
    | remaining h =>
      simp only [SeekerBody.bytesRemainingM, SeekerBody.bytesRemaining]
      rw [i64_of (x := s.common.length - b.offset) (by omega) (by omega)]
    | copy h =>
      simp only [copyCalls, isCopy, List.countP_cons, List.countP_nil, if_true] at hn
      simp only [SeekerBody.copyM, SeekerBody.copy, SeekerBody.refM, SeekerBody.ref]
      rw [i32_of (by omega) (by omega)]
    | close h =>
      simp only [SeekerBody.closeM, SeekerBody.close, SeekerBody.unrefM, SeekerBody.unref]
      rw [i32_of (by omega) (by omega)]
      rfl
    | unwrap h => rfl
    | writeTo h f => rfl

theorem sk_runM (R : Rdr σ) {L : Int} (hL : L < 2 ^ 63) (ops : List Op) : ∀ (s : PosSys σ), PosFit L s →
    s.heap.length + copyCalls ops < 2 ^ 31 → run (SeekerBody.stepM R) s ops = run (SeekerBody.step R) s ops := by
  induction ops with
  | nil => intro s _ _; rfl
  | cons op ops ih =>
    intro s hs hn
    have e : copyCalls (op :: ops) = copyCalls [op] + copyCalls ops := by simp [copyCalls, List.countP_cons]; omega
    have h1 := sk_stepM R hL hs op (by omega)
    have h2 := posFit_step (seekKind R) (shortGet_seek R) hs op
    rw [← seek_step] at h2
    rw [run_cons, run_cons, h1, ih _ h2.1 (by have := h2.2; omega)]

theorem posFit_init (st : σ) {L : Int} (h0 : 0 ≤ L) : PosFit L (ReaderAtBody.init st L) ∧ PosFit L (SeekerBody.init st L) := by
  have : PosFit L (ReaderAtBody.init st L) := by
    refine ⟨⟨h0, ?_, rfl, fun _ => rfl⟩, Int.le_refl _, ?_⟩
    · intro b hb; rw [List.mem_singleton.1 hb]; decide
    · intro b hb; rw [List.mem_singleton.1 hb]; exact h0
  exact ⟨this, this⟩

end

end Verif
