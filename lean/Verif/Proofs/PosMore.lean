import Verif.Proofs.Pos

/-! # Positional families over arbitrary readers -/

set_option linter.unusedSimpArgs false

set_option autoImplicit false

namespace Verif
open Spec

variable {σ : Type}

/-- The outcome of the shared part, given that of the reader. -/
def finish (short : Bool) : Res (List Byte × Option Err) → Res (List Byte × Option Err)
  | .panic p => .panic p
  | .hang => .hang
  | .ret (d, err) => .ret (d, if short && err.isNone then some .eof else err)

/-- Nothing but the reader's state changes. -/
theorem attempt_frame (K : PosKind σ) (c : PosCommon σ) (k : Nat) (off : Int) :
    (Pos.attempt K c k off).1 = c ∨
      ∃ x o, (Pos.attempt K c k off).1 = { c with rdr := (K.get c.rdr x o).1 } := by
  unfold Pos.attempt
  simp only
  generalize (if off > c.length then c.length else off) = o
  generalize (if decide ((k : Int) > c.length - o) = true then c.length - o else (k : Int)) = x
  by_cases h : c.length - o > 0
  · rw [if_pos h]
    cases goSlice (List.replicate k (0 : Byte)) 0 x with
    | none => exact .inl rfl
    | some p =>
      simp only [Pos.fetch]
      cases c.hasR with
      | false => exact .inl rfl
      | true => exact .inr ⟨_, _, rfl⟩
  · rw [if_neg h]; exact .inl rfl

theorem attempt_end {K : PosKind σ} {c : PosCommon σ} {k : Nat} {off : Int} (h : c.length ≤ off) :
    Pos.attempt K c k off = (c, .ret ([], if 0 < k then some .eof else none)) := by
  unfold Pos.attempt
  simp only
  have ho : (if off > c.length then c.length else off) = c.length := by split <;> omega
  rw [ho, if_neg (by omega)]
  by_cases hk : 0 < k
  · simp [hk]
  · simp [hk]

theorem attempt_mid {K : PosKind σ} {c : PosCommon σ} {k : Nat} {off : Int} (hR : c.hasR = true)
    (h : off < c.length) :
    Pos.attempt K c k off =
      ({ c with rdr := (K.get c.rdr (min k (c.length - off).toNat) off).1 },
        finish (decide ((c.length - off) < k)) (K.get c.rdr (min k (c.length - off).toNat) off).2) := by
  unfold Pos.attempt
  simp only
  have ho : (if off > c.length then c.length else off) = off := by split <;> omega
  rw [ho, if_pos (by omega)]
  have hx : (if decide ((k : Int) > c.length - off) = true then c.length - off else (k : Int)) =
      ((min k (c.length - off).toNat : Nat) : Int) := by
    split
    · rename_i h; simp at h; omega
    · rename_i h; simp at h; omega
  rw [hx, goSlice_zeros k _ (by omega) (by omega)]
  simp only [List.length_replicate, Int.toNat_natCast, Pos.fetch, hR, Bool.not_true, Bool.false_eq_true, if_false]
  generalize (K.get c.rdr (min k (c.length - off).toNat) off).2 = r
  cases r <;> rfl

/-! ## Which bodies are open -/

theorem pos_isOpen {K : PosKind σ} {s : PosSys σ} {h : Nat} :
    IsOpen (Pos.step K) s h ↔ ∃ b, s.heap[h]? = some b ∧ b.closed = false := by
  constructor
  · rintro ⟨m, hm⟩
    cases hb : s.heap[h]? with
    | none => simp [Pos.step, Op.h, hb] at hm
    | some b =>
      refine ⟨b, rfl, ?_⟩
      cases hc : b.closed with
      | false => rfl
      | true => simp [Pos.step, Op.h, hb, hc] at hm
  · rintro ⟨b, hb, hc⟩
    exact ⟨s.heap.length, by simp [Pos.step, Op.h, hb, hc]⟩

theorem pos_anyOpen {K : PosKind σ} {s : PosSys σ} :
    (∃ h, IsOpen (Pos.step K) s h) ↔ 0 < posOpen s.heap := by
  simp only [pos_isOpen, posOpen, List.countP_pos_iff]
  constructor
  · rintro ⟨h, b, hb, hc⟩; exact ⟨b, List.mem_of_getElem? hb, by simp [hc]⟩
  · rintro ⟨b, hb, hc⟩
    obtain ⟨i, hi⟩ := List.mem_iff_getElem?.1 hb
    exact ⟨i, b, hi, by simpa using hc⟩

theorem pos_exists {K : PosKind σ} {s : PosSys σ} {h : Nat} :
    Spec.Exists (Pos.step K) s h ↔ ∃ b, s.heap[h]? = some b := by
  unfold Spec.Exists
  cases hb : s.heap[h]? <;> simp [Pos.step, Op.h, hb]

theorem pos_inert {K : PosKind σ} {s : PosSys σ} {h : Nat} {b : PosBody} (hb : s.heap[h]? = some b)
    (hc : b.closed = true) : Inert (Pos.step K) true false s h := by
  refine ⟨?_, ?_, ?_, ?_, ?_, ?_, ?_, ?_, ?_⟩
  · rintro op rfl
    cases op <;> simp only [Op.h] at hb <;>
      simp [Pos.step, Op.h, hb, hc, Pos.read, Pos.readAt, Pos.seek, ReaderAtBody.seek]
  all_goals intros
  all_goals simp [Pos.step, Op.h, hb, hc, Pos.read, Pos.readAt, Pos.seek, ReaderAtBody.seek, Pos.remaining]

/-! ## Shape of a step -/

theorem pos_seek_cases (s : PosSys σ) (h : Nat) (b : PosBody) (off wh : Int) (hl : 0 ≤ s.common.length) :
    (∃ e, Pos.seek s h b off wh = (s, .seek (-1) (some e))) ∨
    (b.closed = false ∧ ∃ o, 0 ≤ o ∧ o ≤ s.common.length ∧
      Pos.seek s h b off wh = ({ s with heap := s.heap.set h { b with offset := o, err := none } }, .seek o none)) := by
  unfold Pos.seek ReaderAtBody.seek
  simp only [ReaderAtBody.commonRemaining]
  by_cases h1 : b.closed = true
  · rw [if_pos h1]; exact .inl ⟨_, rfl⟩
  · rw [if_neg h1]
    by_cases h2 : wh = 0 ∧ off < 0
    · rw [if_pos h2]; exact .inl ⟨_, rfl⟩
    · rw [if_neg h2]
      by_cases h3 : wh ≠ 0 ∧ wh ≠ 1 ∧ wh ≠ 2
      · rw [if_pos h3]; exact .inl ⟨_, rfl⟩
      · rw [if_neg h3]
        have key : ∀ t : Int,
            (∃ e, (if t < 0 then (s, Out.seek (-1) (some (.negComputed t))) else
              ({ s with heap := s.heap.set h { b with err := none, offset := if t > s.common.length then s.common.length else t } },
                Out.seek (if t > s.common.length then s.common.length else t) none)) = (s, .seek (-1) (some e))) ∨
            (b.closed = false ∧ ∃ o, 0 ≤ o ∧ o ≤ s.common.length ∧
              (if t < 0 then (s, Out.seek (-1) (some (.negComputed t))) else
              ({ s with heap := s.heap.set h { b with err := none, offset := if t > s.common.length then s.common.length else t } },
                Out.seek (if t > s.common.length then s.common.length else t) none)) =
              ({ s with heap := s.heap.set h { b with offset := o, err := none } }, .seek o none)) := by
          intro t
          by_cases h4 : t < 0
          · rw [if_pos h4]; exact .inl ⟨_, rfl⟩
          · rw [if_neg h4]
            refine .inr ⟨by simpa using h1, _, ?_, ?_, rfl⟩
            · split <;> omega
            · split <;> omega
        exact key _

/-- What a step does to the heap. -/
inductive HeapStep (s s' : PosSys σ) (op : Op) (o : Out) : Prop where
  /-- nothing -/
  | keep : s'.heap = s.heap → (∀ n, o ≠ .seek n none) → (∀ m, o ≠ .copied m) → HeapStep s s' op o
  /-- a `Read` -/
  | read (b : PosBody) (offset : Int) (d : List Byte) (e : Option Err) (k : Nat) : s.heap[op.h]? = some b →
      b.closed = false → b.err = none → op = .read op.h k →
      s'.heap = s.heap.set op.h { b with offset := offset, err := e } → o = .read d e → HeapStep s s' op o
  /-- a successful `Seek` -/
  | seek (b : PosBody) (offset off wh : Int) : s.heap[op.h]? = some b → b.closed = false → op = .seek op.h off wh →
      s'.heap = s.heap.set op.h { b with offset := offset, err := none } → o = .seek offset none →
      s'.common = s.common → 0 ≤ offset → HeapStep s s' op o
  /-- a `Copy` -/
  | copy (b : PosBody) : s.heap[op.h]? = some b → b.closed = false → op = .copy op.h →
      s'.heap = s.heap ++ [b] → o = .copied s.heap.length → HeapStep s s' op o
  /-- a `Close` -/
  | close (b : PosBody) (e : XResp (Option Err)) : s.heap[op.h]? = some b → b.closed = false → op = .close op.h →
      s'.heap = s.heap.set op.h { closed := true } → o = passedOn e → HeapStep s s' op o

theorem served_heap (s : PosSys σ) (h : Nat) (b : PosBody) (c : PosCommon σ) (offset : Int) (d : List Byte)
    (e : Option Err) :
    (Pos.served s h b c offset d e).1.heap = s.heap.set h { b with offset := offset, err := e } ∧
    (Pos.served s h b c offset d e).2 = .read d e := by
  cases e <;> exact ⟨rfl, rfl⟩

theorem heapStep (K : PosKind σ) (s : PosSys σ) (op : Op) (hl : 0 ≤ s.common.length) :
    HeapStep s (Pos.step K s op).1 op (Pos.step K s op).2 := by
  unfold Pos.step
  cases hb : s.heap[op.h]? with
  | none => exact .keep rfl (by simp) (by simp)
  | some b =>
    cases op with
    | read h k =>
      simp only [Op.h] at hb ⊢
      unfold Pos.read
      by_cases hc : b.closed = true
      · simp only [hc, if_true]; exact .keep rfl (by simp) (by simp)
      · have hc : b.closed = false := by simpa using hc
        cases he : b.err with
        | some e => simp only [hc, Bool.false_eq_true, if_false]; exact .keep rfl (by simp) (by simp)
        | none =>
          simp only [hc, Bool.false_eq_true, if_false]
          generalize Pos.attempt K s.common k b.offset = r
          obtain ⟨c', r⟩ := r
          cases r with
          | panic p => exact .keep rfl (by simp) (by simp)
          | hang => exact .keep rfl (by simp) (by simp)
          | ret de =>
            obtain ⟨d, e⟩ := de
            simp only
            obtain ⟨h1, h2⟩ := served_heap s h b c' ((if b.offset > s.common.length then s.common.length else b.offset) + d.length) d e
            exact .read b _ d e k hb hc he rfl h1 h2
    | readAt h k off =>
      simp only [Op.h] at hb ⊢
      unfold Pos.readAt
      repeat' split
      all_goals exact .keep rfl (by simp) (by simp)
    | seek h off wh =>
      simp only [Op.h] at hb ⊢
      rcases pos_seek_cases s h b off wh hl with ⟨e, h1⟩ | ⟨hc, o, h1, _, h2⟩
      · rw [h1]; exact .keep rfl (by simp) (by simp)
      · rw [h2]; exact .seek b _ off wh hb hc rfl rfl rfl rfl h1
    | remaining h => exact .keep rfl (by simp) (by simp)
    | copy h =>
      simp only [Op.h] at hb ⊢
      by_cases hc : b.closed = true
      · simp only [hc, if_true]; exact .keep rfl (by simp) (by simp)
      · have hc : b.closed = false := by simpa using hc
        simp only [hc, Bool.false_eq_true, if_false]
        exact .copy b hb hc rfl rfl rfl
    | close h =>
      simp only [Op.h] at hb ⊢
      by_cases hc : b.closed = true
      · simp only [hc, if_true]; exact .keep rfl (by simp) (by simp)
      · have hc : b.closed = false := by simpa using hc
        simp only [hc, Bool.false_eq_true, if_false]
        exact .close b _ hb hc rfl rfl rfl
    | unwrap h => exact .keep rfl (by simp) (by simp)
    | writeTo h w => exact .keep rfl (by simp) (by simp)

/-- A closed body stays as it is. -/
theorem pos_keeps_closed (K : PosKind σ) (s : PosSys σ) (hl : 0 ≤ s.common.length) (op : Op) {h : Nat} {b : PosBody}
    (hb : s.heap[h]? = some b) (hc : b.closed = true) : (Pos.step K s op).1.heap[h]? = some b := by
  have other : ∀ b' b'' : PosBody, s.heap[op.h]? = some b' → b'.closed = false → (s.heap.set op.h b'')[h]? = some b := by
    intro b' b'' hb' hc'
    rw [List.getElem?_set_ne _, hb]
    rintro rfl
    rw [hb] at hb'
    cases hb'
    rw [hc] at hc'
    cases hc'
  cases heapStep K s op hl with
  | keep h1 _ _ => rw [h1]; exact hb
  | read b' _ _ _ _ h1 h2 _ _ h3 _ => rw [h3]; exact other _ _ h1 h2
  | seek b' _ _ _ h1 h2 _ h3 => rw [h3]; exact other _ _ h1 h2
  | copy b' h1 h2 _ h3 _ =>
    rw [h3, List.getElem?_append_left, hb]
    exact (List.getElem?_eq_some_iff.1 hb).1
  | close b' _ h1 h2 _ h3 _ => rw [h3]; exact other _ _ h1 h2

/-! ## Invariant for arbitrary readers -/

/-- Lengths and offsets are not negative; the reader is there while a body is open. -/
structure PosInv (s : PosSys σ) : Prop where
  len : 0 ≤ s.common.length
  off : ∀ b ∈ s.heap, 0 ≤ b.offset
  cnt : s.common.refcnt = posOpen s.heap
  live : 0 < posOpen s.heap → s.common.hasR = true

theorem posInv_set {s : PosSys σ} (hs : PosInv s) {h : Nat} {b b' : PosBody} (hb : s.heap[h]? = some b)
    (hc : b.closed = false) (hc' : b'.closed = false) (ho : 0 ≤ b'.offset) {c : PosCommon σ} (hcl : 0 ≤ c.length)
    (hr : c.refcnt = s.common.refcnt) (hh : c.hasR = s.common.hasR) :
    PosInv { common := c, heap := s.heap.set h b' } := by
  have hcount := posOpen_set (b' := b') hb
  simp only [hc, hc', Bool.false_eq_true, if_false] at hcount
  refine ⟨hcl, ?_, ?_, ?_⟩
  · intro x hx
    rcases List.mem_or_eq_of_mem_set hx with h1 | h1
    · exact hs.off x h1
    · rw [h1]; exact ho
  · simp only; rw [hr, hs.cnt]; omega
  · intro _; simp only; rw [hh]; exact hs.live (posOpen_pos hb hc)

theorem attempt_common (K : PosKind σ) (c : PosCommon σ) (k : Nat) (off : Int) {c' : PosCommon σ}
    {r : Res (List Byte × Option Err)} (h : Pos.attempt K c k off = (c', r)) :
    c'.length = c.length ∧ c'.refcnt = c.refcnt ∧ c'.hasR = c.hasR := by
  have : c' = (Pos.attempt K c k off).1 := by rw [h]
  rcases attempt_frame K c k off with h1 | ⟨x, o, h1⟩ <;> rw [this, h1] <;> exact ⟨rfl, rfl, rfl⟩

theorem served_common (s : PosSys σ) (h : Nat) (b : PosBody) (c : PosCommon σ) (offset : Int) (d : List Byte)
    (e : Option Err) :
    (Pos.served s h b c offset d e).1.common.refcnt = c.refcnt ∧
    (Pos.served s h b c offset d e).1.common.hasR = c.hasR ∧
    (Pos.served s h b c offset d e).1.common.rdr = c.rdr ∧
    (Pos.served s h b c offset d e).1.common.length =
      if e.isSome ∧ offset < c.length then offset else c.length := by
  cases e with
  | none => exact ⟨rfl, rfl, rfl, by simp [Pos.served]⟩
  | some e =>
    simp only [Pos.served, Option.isSome_some, true_and]
    split <;> exact ⟨rfl, rfl, rfl, rfl⟩

theorem posInv_step (K : PosKind σ) (s : PosSys σ) (op : Op) (hs : PosInv s) : PosInv (Pos.step K s op).1 := by
  unfold Pos.step
  cases hb : s.heap[op.h]? with
  | none => exact hs
  | some b =>
    have hbo := hs.off b (List.mem_of_getElem? hb)
    cases op with
    | read h k =>
      simp only [Op.h] at hb ⊢
      unfold Pos.read
      by_cases hc : b.closed = true
      · simp only [hc, if_true]; exact hs
      · have hc : b.closed = false := by simpa using hc
        cases he : b.err with
        | some e => simp only [hc, Bool.false_eq_true, if_false]; exact hs
        | none =>
          simp only [hc, Bool.false_eq_true, if_false]
          generalize hr : Pos.attempt K s.common k b.offset = r
          obtain ⟨c', r⟩ := r
          obtain ⟨h1, h2, h3⟩ := attempt_common K _ _ _ hr
          have hplain : PosInv { s with common := c' } :=
            ⟨by simp only; rw [h1]; exact hs.len, hs.off, by simp only; rw [h2]; exact hs.cnt,
              by intro h; simp only; rw [h3]; exact hs.live h⟩
          cases r with
          | panic p => exact hplain
          | hang => exact hplain
          | ret de =>
            obtain ⟨d, e⟩ := de
            simp only
            generalize ho : ((if b.offset > s.common.length then s.common.length else b.offset) + (d.length : Int)) = o
            have ho0 : 0 ≤ o := by
              have := hs.len
              split at ho <;> omega
            obtain ⟨g1, g2, g3, g4⟩ := served_common s h b c' o d e
            have g5 := (served_heap s h b c' o d e).1
            have := posInv_set (b' := { b with offset := o, err := e }) hs hb hc hc ho0
              (c := (Pos.served s h b c' o d e).1.common)
              (by rw [g4]; have := hs.len; split <;> omega) (by rw [g1, h2]) (by rw [g2, h3])
            rw [← g5] at this
            exact this
    | readAt h k off =>
      simp only [Op.h] at hb ⊢
      unfold Pos.readAt
      split
      · exact hs
      · split
        · exact hs
        · generalize hr : Pos.attempt K s.common k off = r
          obtain ⟨c', r⟩ := r
          obtain ⟨h1, h2, h3⟩ := attempt_common K _ _ _ hr
          have hplain : PosInv { s with common := c' } :=
            ⟨by simp only; rw [h1]; exact hs.len, hs.off, by simp only; rw [h2]; exact hs.cnt,
              by intro h; simp only; rw [h3]; exact hs.live h⟩
          cases r with
          | panic p => exact hplain
          | hang => exact hplain
          | ret de => exact hplain
    | seek h off wh =>
      simp only [Op.h] at hb ⊢
      rcases pos_seek_cases s h b off wh hs.len with ⟨e, h1⟩ | ⟨hc, o, h1, _, h2⟩
      · rw [h1]; exact hs
      · rw [h2]; exact posInv_set (b' := { b with offset := o, err := none }) hs hb hc hc h1 hs.len rfl rfl
    | remaining h => exact hs
    | copy h =>
      simp only [Op.h] at hb ⊢
      by_cases hc : b.closed = true
      · simp only [hc, if_true]; exact hs
      · have hc : b.closed = false := by simpa using hc
        simp only [hc, Bool.false_eq_true, if_false]
        refine ⟨hs.len, ?_, ?_, ?_⟩
        · intro x hx
          rcases List.mem_append.1 hx with h1 | h1
          · exact hs.off x h1
          · simp at h1; rw [h1]; exact hbo
        · simp [posOpen, List.countP_append, hc, hs.cnt]
        · intro _; exact hs.live (posOpen_pos hb hc)
    | close h =>
      simp only [Op.h] at hb ⊢
      by_cases hc : b.closed = true
      · simp only [hc, if_true]; exact hs
      · have hc : b.closed = false := by simpa using hc
        simp only [hc, Bool.false_eq_true, if_false]
        have hcount := posOpen_set (b' := { closed := true }) hb
        simp only [hc, Bool.false_eq_true, if_false, if_true] at hcount
        have hcnt := hs.cnt
        have hoff : ∀ x ∈ s.heap.set h { closed := true }, 0 ≤ x.offset := by
          intro x hx
          rcases List.mem_or_eq_of_mem_set hx with h1 | h1
          · exact hs.off x h1
          · rw [h1]; decide
        unfold Pos.unref
        by_cases hrc : s.common.refcnt - 1 > 0
        · rw [if_pos hrc]
          exact ⟨hs.len, hoff, by simp only; omega, fun _ => hs.live (by omega)⟩
        · rw [if_neg hrc]
          split
          · cases (K.R.close s.common.rdr).2 with
            | ok e => exact ⟨by simp, hoff, by simp only; omega, by simp only; omega⟩
            | panics p => exact ⟨hs.len, hoff, by simp only; omega, by simp only; omega⟩
          · exact ⟨by simp, hoff, by simp only; omega, by simp only; omega⟩
    | unwrap h => exact hs
    | writeTo h w => exact hs

end Verif
