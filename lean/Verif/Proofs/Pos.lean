import Verif.Model.Positional
import Verif.Spec.Positional
import Verif.Spec.Log
import Verif.Proofs.Generic
import Verif.Proofs.Bytes

/-! # ReaderAt- and Seeker-backed families: common proofs

The two models have the same shape; the proofs are done once for a machine `Pos.step` with a parameter,
and both models are shown to be instances of it. -/

set_option linter.unusedSimpArgs false

set_option autoImplicit false

namespace Verif
open Spec

variable {σ : Type}

/-- What distinguishes the two: how bytes are fetched and whether `BytesRemaining` clamps. -/
structure PosKind (σ : Type) where
  R : Rdr σ
  get : σ → Nat → Int → σ × Res (List Byte × Option Err)
  clamp : Bool

namespace Pos

def fetch (K : PosKind σ) (c : PosCommon σ) (x : Nat) (off : Int) : PosCommon σ × Res (List Byte × Option Err) :=
  if !c.hasR then (c, .panic .nilDeref)
  else ({ c with rdr := (K.get c.rdr x off).1 }, (K.get c.rdr x off).2)

/-- The common part of `Read` and `ReadAt`. -/
def attempt (K : PosKind σ) (c : PosCommon σ) (k : Nat) (off : Int) : PosCommon σ × Res (List Byte × Option Err) :=
  let length := c.length
  let offset := if off > length then length else off
  let avail := length - offset
  let eof := decide ((k : Int) > avail)
  let x := if eof then avail else k
  let r := if avail > 0 then
      match goSlice (List.replicate k (0 : Byte)) 0 x with
      | none => (c, .panic .bounds)
      | some p => fetch K c p.length offset
    else (c, .ret ([], none))
  (r.1, match r.2 with
    | .panic p => .panic p
    | .hang => .hang
    | .ret (d, err) => .ret (d, if eof && err.isNone then some .eof else err))

def unref (R : Rdr σ) (c : PosCommon σ) : PosCommon σ × XResp (Option Err) :=
  if c.refcnt - 1 > 0 then ({ c with refcnt := c.refcnt - 1 }, .ok none)
  else if c.hasR && R.isCloser then
    (match (R.close c.rdr).2 with
      | .ok _ => { rdr := (R.close c.rdr).1, hasR := false, length := 0, refcnt := 0 }
      | .panics _ => { c with rdr := (R.close c.rdr).1, refcnt := c.refcnt - 1 }, (R.close c.rdr).2)
  else ({ rdr := c.rdr, hasR := false, length := 0, refcnt := 0 }, .ok none)


def served (s : PosSys σ) (h : Nat) (b : PosBody) (c : PosCommon σ) (offset : Int) (d : List Byte) :
    Option Err → PosSys σ × Out
  | none => ({ common := c, heap := s.heap.set h { b with offset := offset, err := none } }, .read d none)
  | some e => ({ common := if offset < c.length then { c with length := offset } else c,
                 heap := s.heap.set h { b with offset := offset, err := some e } }, .read d (some e))

def read (K : PosKind σ) (s : PosSys σ) (h : Nat) (b : PosBody) (k : Nat) : PosSys σ × Out :=
  if b.closed then (s, .read [] (some .closed))
  else match b.err with
  | some e => (s, .read [] (some e))
  | none =>
    match attempt K s.common k b.offset with
    | (c, .panic p) => ({ s with common := c }, .panic p)
    | (c, .hang) => ({ s with common := c }, .hang)
    | (c, .ret (d, err)) =>
      served s h b c ((if b.offset > s.common.length then s.common.length else b.offset) + d.length) d err

def readAt (K : PosKind σ) (s : PosSys σ) (b : PosBody) (k : Nat) (offset : Int) : PosSys σ × Out :=
  if b.closed then (s, .read [] (some .closed))
  else if offset < 0 then (s, .read [] (some (.negReadAt offset)))
  else match attempt K s.common k offset with
    | (c, .panic p) => ({ s with common := c }, .panic p)
    | (c, .hang) => ({ s with common := c }, .hang)
    | (c, .ret (d, err)) => ({ s with common := c }, .read d err)

def seek (s : PosSys σ) (h : Nat) (b : PosBody) (offset whence : Int) : PosSys σ × Out :=
  ReaderAtBody.seek s h b offset whence

def remaining (K : PosKind σ) (s : PosSys σ) (b : PosBody) : Int :=
  if b.closed then 0
  else if K.clamp && decide (b.offset ≥ s.common.length) then 0 else s.common.length - b.offset

def step (K : PosKind σ) (s : PosSys σ) (op : Op) : PosSys σ × Out :=
  match s.heap[op.h]? with
  | none => (s, .unsupported)
  | some b =>
    match op with
    | .read h k => read K s h b k
    | .readAt _ k off => readAt K s b k off
    | .seek h off wh => seek s h b off wh
    | .remaining _ => (s, .remaining (remaining K s b))
    | .copy _ => if b.closed then (s, .copiedClosed)
      else ({ common := { s.common with refcnt := s.common.refcnt + 1 }, heap := s.heap ++ [b] }, .copied s.heap.length)
    | .close h => if b.closed then (s, .closed (some .closed))
      else ({ common := (unref K.R s.common).1, heap := s.heap.set h { closed := true } },
        passedOn (unref K.R s.common).2)
    | .unwrap _ => (s, .unwrap (!b.closed && s.common.hasR))
    | .writeTo _ _ => (s, .unsupported)

end Pos

/-- The answer of an external `Read`/`ReadAt` after the assertions about its count. -/
def checked (x : Nat) : RResp → Res (List Byte × Option Err)
  | .panics p => .panic p
  | .negative => .panic .badReader
  | .got d err => if d.length ≤ x then .ret (d, err) else .panic .badReader

def atKind (R : Rdr σ) : PosKind σ where
  R := R
  get st x off := ((R.readAt st x off).1, checked x (R.readAt st x off).2)
  clamp := true

def seekKind (R : Rdr σ) : PosKind σ where
  R := R
  get st x off :=
    match (R.seek st off 0).2 with
    | .panics p => ((R.seek st off 0).1, .panic p)
    | .ok (_, some e) => ((R.seek st off 0).1, .ret ([], some e))
    | .ok (_, none) => ((R.read (R.seek st off 0).1 x).1, checked x (R.read (R.seek st off 0).1 x).2)
  clamp := false

theorem at_fetch (R : Rdr σ) (c : PosCommon σ) (x : Nat) (off : Int) :
    ReaderAtBody.commonReadAt R c x off = Pos.fetch (atKind R) c x off := by
  unfold ReaderAtBody.commonReadAt Pos.fetch atKind checked
  by_cases h : c.hasR = true
  · simp only [h, Bool.not_true, Bool.false_eq_true, if_false]
    generalize R.readAt c.rdr x off = r
    obtain ⟨st, resp⟩ := r
    cases resp with
    | got d e => simp only; by_cases hd : d.length ≤ x <;> simp [hd]
    | _ => rfl
  · simp [h]

theorem seek_fetch (R : Rdr σ) (c : PosCommon σ) (x : Nat) (off : Int) :
    SeekerBody.commonReadAt R c x off = Pos.fetch (seekKind R) c x off := by
  unfold SeekerBody.commonReadAt Pos.fetch seekKind checked
  by_cases h : c.hasR = true
  · simp only [h, Bool.not_true, Bool.false_eq_true, if_false]
    generalize R.seek c.rdr off 0 = q
    obtain ⟨st, ⟨n, e⟩ | p⟩ := q
    rotate_left
    · rfl
    cases e with
    | some e => rfl
    | none =>
      simp only
      generalize R.read st x = r
      obtain ⟨st, resp⟩ := r
      cases resp with
      | got d e => simp only; by_cases hd : d.length ≤ x <;> simp [hd]
      | _ => rfl
  · simp [h]

/-- The `Read` of both files, as a function of the fetch. -/
theorem read_form (K : PosKind σ) (s : PosSys σ) (h : Nat) (b : PosBody) (k : Nat)
    (f : PosCommon σ → Nat → Int → PosCommon σ × Res (List Byte × Option Err))
    (hf : ∀ c x off, f c x off = Pos.fetch K c x off) :
    (if b.closed then (s, .read [] (some .closed))
    else match b.err with
    | some e => (s, .read [] (some e))
    | none =>
      let length := s.common.length
      let offset := if b.offset > length then length else b.offset
      let avail := length - offset
      let eof := decide ((k : Int) > avail)
      let x := if eof then avail else k
      let r := if avail > 0 then
          match goSlice (List.replicate k (0 : Byte)) 0 x with
          | none => (s.common, .panic .bounds)
          | some p => f s.common p.length offset
        else (s.common, .ret ([], none))
      match r.2 with
      | .panic p => ({ s with common := r.1 }, .panic p)
      | .hang => ({ s with common := r.1 }, .hang)
      | .ret (d, err) =>
        let err := if eof && err.isNone then some .eof else err
        let offset := offset + d.length
        let b := { b with offset := offset }
        match err with
        | none => ({ common := r.1, heap := s.heap.set h b }, .read d none)
        | some e =>
          let b := { b with err := some e }
          let c := if offset < r.1.length then { r.1 with length := offset } else r.1
          ({ common := c, heap := s.heap.set h b }, .read d (some e)) : PosSys σ × Out) = Pos.read K s h b k := by
  have hf' : f = Pos.fetch K := by funext c x off; exact hf c x off
  subst hf'
  unfold Pos.read Pos.attempt
  by_cases hc : b.closed = true
  · simp only [hc, if_true]
  · rw [if_neg hc, if_neg hc]
    cases b.err with
    | some e => rfl
    | none =>
      simp only
      generalize (if s.common.length - (if b.offset > s.common.length then s.common.length else b.offset) > 0 then _
        else _ : PosCommon σ × Res (List Byte × Option Err)) = r
      obtain ⟨c, res⟩ := r
      cases res with
      | panic p => rfl
      | hang => rfl
      | ret de =>
        obtain ⟨d, e⟩ := de
        simp only [Pos.served]

theorem readAt_form (K : PosKind σ) (s : PosSys σ) (b : PosBody) (k : Nat) (offset : Int)
    (f : PosCommon σ → Nat → Int → PosCommon σ × Res (List Byte × Option Err))
    (hf : ∀ c x off, f c x off = Pos.fetch K c x off) :
    (if b.closed then (s, .read [] (some .closed))
    else if offset < 0 then (s, .read [] (some (.negReadAt offset)))
    else
      let length := s.common.length
      let offset := if offset > length then length else offset
      let avail := length - offset
      let eof := decide ((k : Int) > avail)
      let x := if eof then avail else k
      let r := if avail > 0 then
          match goSlice (List.replicate k (0 : Byte)) 0 x with
          | none => (s.common, .panic .bounds)
          | some p => f s.common p.length offset
        else (s.common, .ret ([], none))
      match r.2 with
      | .panic p => ({ s with common := r.1 }, .panic p)
      | .hang => ({ s with common := r.1 }, .hang)
      | .ret (d, err) => ({ s with common := r.1 }, .read d (if eof && err.isNone then some .eof else err)) :
        PosSys σ × Out) = Pos.readAt K s b k offset := by
  have hf' : f = Pos.fetch K := by funext c x off; exact hf c x off
  subst hf'
  unfold Pos.readAt Pos.attempt
  by_cases hc : b.closed = true
  · simp only [hc, if_true]
  · rw [if_neg hc, if_neg hc]
    by_cases ho : offset < 0
    · rw [if_pos ho, if_pos ho]
    · rw [if_neg ho, if_neg ho]
      simp only
      generalize (if s.common.length - (if offset > s.common.length then s.common.length else offset) > 0 then _
        else _ : PosCommon σ × Res (List Byte × Option Err)) = r
      obtain ⟨c, res⟩ := r
      cases res with
      | panic p => rfl
      | hang => rfl
      | ret de => rfl

theorem at_unref (R : Rdr σ) (c : PosCommon σ) : ReaderAtBody.unref R c = Pos.unref R c := by
  unfold ReaderAtBody.unref Pos.unref
  simp only
  by_cases hr : c.refcnt - 1 > 0
  · rw [if_pos hr, if_pos hr]
  · rw [if_neg hr, if_neg hr]
    by_cases hh : (c.hasR && R.isCloser) = true
    · rw [if_pos hh, if_pos hh]
      cases (R.close c.rdr).2 <;> rfl
    · rw [if_neg hh, if_neg hh]

theorem seek_unref (R : Rdr σ) (c : PosCommon σ) : SeekerBody.unref R c = Pos.unref R c := at_unref R c

theorem at_step (R : Rdr σ) : ReaderAtBody.step R = Pos.step (atKind R) := by
  funext s op
  unfold ReaderAtBody.step Pos.step
  cases s.heap[op.h]? with
  | none => rfl
  | some b =>
    cases op with
    | read h k => exact read_form (atKind R) s h b k _ (at_fetch R)
    | readAt h k off => exact readAt_form (atKind R) s b k off _ (at_fetch R)
    | seek h off wh => rfl
    | remaining h =>
      simp only [ReaderAtBody.bytesRemaining, Pos.remaining, ReaderAtBody.commonRemaining, atKind]
      simp
    | copy h => rfl
    | close h =>
      show ReaderAtBody.close R s h b = if b.closed then (s, .closed (some .closed)) else
        ({ common := (Pos.unref R s.common).1, heap := s.heap.set h { closed := true } }, passedOn (Pos.unref R s.common).2)
      rw [← at_unref]; unfold ReaderAtBody.close passedOn; rfl
    | unwrap h =>
      simp only [ReaderAtBody.unwrap]
      cases b.closed <;> rfl
    | writeTo h w => rfl

theorem seek_step (R : Rdr σ) : SeekerBody.step R = Pos.step (seekKind R) := by
  funext s op
  unfold SeekerBody.step Pos.step
  cases s.heap[op.h]? with
  | none => rfl
  | some b =>
    cases op with
    | read h k => exact read_form (seekKind R) s h b k _ (seek_fetch R)
    | readAt h k off => exact readAt_form (seekKind R) s b k off _ (seek_fetch R)
    | seek h off wh => rfl
    | remaining h =>
      simp only [SeekerBody.bytesRemaining, Pos.remaining, SeekerBody.commonRemaining, seekKind]
      simp
    | copy h => rfl
    | close h =>
      show SeekerBody.close R s h b = if b.closed then (s, .closed (some .closed)) else
        ({ common := (Pos.unref R s.common).1, heap := s.heap.set h { closed := true } }, passedOn (Pos.unref R s.common).2)
      rw [← seek_unref]; unfold SeekerBody.close passedOn; rfl
    | unwrap h =>
      simp only [SeekerBody.unwrap]
      cases b.closed <;> rfl
    | writeTo h w => rfl

/-! ## Refinement -/

/-- `get` delivers the bytes of `F` at the requested position; it is asked only for ranges inside `F`. -/
structure GoodGet (K : PosKind σ) (F : List Byte) (Inv : σ → Prop) : Prop where
  get : ∀ st x (off : Nat), Inv st → off < F.length → off + x ≤ F.length → off < 2 ^ 63 → ∃ st' e,
    K.get st x off = (st', .ret ((F.drop off).take x, e)) ∧ Inv st' ∧
    (e = none ∨ (e = some .eof ∧ off + x = F.length))

theorem goodGet_at {R : Rdr σ} {F : List Byte} {Inv : σ → Prop} (h : IsReaderAt R F Inv) :
    GoodGet (atKind R) F Inv := by
  refine ⟨fun st x off hi _ hle h63 => ?_⟩
  obtain ⟨st', e, h1, h2, _, h4, h5⟩ := h.readAt st x off hi (by omega) (by omega)
  refine ⟨st', e, ?_, h2, ?_⟩
  · simp only [atKind, h1, checked, Int.toNat_natCast]
    rw [if_pos (by simp; omega)]
  · rcases h5 with h5 | h5
    · exact .inl h5
    · refine .inr ⟨h5, ?_⟩
      have : ¬ off + x < F.length := by
        intro hlt; have := h4 (by simpa using hlt); rw [this] at h5; cases h5
      omega

theorem goodGet_seek {R : Rdr σ} {F : List Byte} {At : σ → Nat → Prop} (h : IsFullSeeker R F At) :
    GoodGet (seekKind R) F (fun st => ∃ p, At st p) := by
  refine ⟨fun st x off hi _ hle h63 => ?_⟩
  obtain ⟨p, hp⟩ := hi
  obtain ⟨st1, n, h1, h2⟩ := h.seek st p off hp (by omega) (by omega)
  simp only [Int.toNat_natCast] at h2
  obtain ⟨st', e, h3, h4, h5, h6⟩ := h.read st1 off x h2
  refine ⟨st', e, ?_, ⟨_, h4⟩, ?_⟩
  · simp only [seekKind, h1, h3, checked]
    rw [if_pos (by simp; omega)]
  · rcases h6 with h6 | h6
    · exact .inl h6
    · refine .inr ⟨h6, ?_⟩
      have : ¬ off + x < F.length := by
        intro hlt; have := h5 hlt; rw [this] at h6; cases h6
      omega

theorem goSlice_zeros (k : Nat) (x : Int) (h0 : 0 ≤ x) (h1 : x ≤ k) :
    goSlice (List.replicate k (0 : Byte)) 0 x = some (List.replicate x.toNat 0) := by
  unfold goSlice
  rw [if_pos (by simp; omega)]
  simp
  omega

/-- The shared part over a well-behaved source. -/
theorem attempt_good {K : PosKind σ} {F : List Byte} {Inv : σ → Prop} (hG : GoodGet K F Inv) {c : PosCommon σ}
    {n : Nat} (hL : c.length = n) (hn : n ≤ F.length) (hn63 : n < 2 ^ 63) (hR : c.hasR = true) (hI : Inv c.rdr) (k off : Nat) :
    ∃ st' e, Pos.attempt K c k off =
        ({ c with rdr := st' }, .ret (((F.take n).drop (min off n)).take k, e)) ∧ Inv st' ∧
      ((n < min off n + k ∧ e = some .eof) ∨
        (min off n + k ≤ n ∧ (e = none ∨ (e = some .eof ∧ 0 < k ∧ min off n + k = n)))) := by
  unfold Pos.attempt
  simp only [hL]
  have ho : (if (off : Int) > (n : Int) then (n : Int) else off) = ((min off n : Nat) : Int) := by
    split <;> omega
  rw [ho]
  generalize hm : min off n = m
  have hmn : m ≤ n := by omega
  by_cases hav : (n : Int) - (m : Int) > 0
  · rw [if_pos hav]
    by_cases hk : (k : Int) > (n : Int) - (m : Int)
    · simp only [decide_eq_true hk, if_true]
      rw [goSlice_zeros k _ (by omega) (by omega)]
      simp only [List.length_replicate]
      obtain ⟨st', e, h1, h2, h3⟩ := hG.get c.rdr ((n : Int) - m).toNat m hI (by omega) (by omega) (by omega)
      refine ⟨st', some .eof, ?_, h2, .inl ⟨by omega, rfl⟩⟩
      simp only [Pos.fetch, hR, Bool.not_true, Bool.false_eq_true, if_false, h1]
      have hd : (F.drop m).take ((n : Int) - m).toNat = ((F.take n).drop m).take k := by
        rw [List.drop_take, List.take_take]
        congr 1; omega
      rw [hd]
      rcases h3 with h3 | ⟨h3, _⟩ <;> simp [h3, hL]
    · simp only [decide_eq_false hk, Bool.false_eq_true, if_false]
      rw [goSlice_zeros k _ (by omega) (by omega)]
      simp only [List.length_replicate, Int.toNat_natCast]
      obtain ⟨st', e, h1, h2, h3⟩ := hG.get c.rdr k m hI (by omega) (by omega) (by omega)
      refine ⟨st', e, ?_, h2, .inr ⟨by omega, ?_⟩⟩
      · simp only [Pos.fetch, hR, Bool.not_true, Bool.false_eq_true, if_false, h1]
        have hd : (F.drop m).take k = ((F.take n).drop m).take k := by
          rw [List.drop_take, List.take_take]
          congr 1; omega
        rw [hd]
        simp [hL]
      · rcases h3 with h3 | ⟨h3, h4⟩
        · exact .inl h3
        · exact .inr ⟨h3, by omega, by omega⟩
  · rw [if_neg hav]
    have hmn : m = n := by omega
    subst hmn
    have hd : ((F.take m).drop m).take k = [] := by
      apply List.eq_nil_of_length_eq_zero; simp
    rw [hd]
    by_cases hk : (k : Int) > (m : Int) - (m : Int)
    · refine ⟨c.rdr, some .eof, ?_, hI, .inl ⟨by omega, rfl⟩⟩
      have hk' : 0 < k := by omega
      rw [← hL]
      simp [hk']
    · refine ⟨c.rdr, none, ?_, hI, .inr ⟨by omega, .inl rfl⟩⟩
      have hk' : k = 0 := by omega
      rw [← hL]
      simp [hk']

/-- Body and cursor. -/
structure PRel (C : List Byte) (b : PosBody) (c : Cursor) : Prop where
  opn : c.isOpen = !b.closed
  content : c.content = C
  le : c.pos ≤ C.length
  pos : b.closed = false → b.offset = c.pos
  err : b.closed = false → b.err = if c.done then some .eof else none

/-- Number of open bodies. -/
def posOpen (heap : List PosBody) : Nat := heap.countP (fun b => !b.closed)

/-- Family and cursors. -/
structure PSim (C : List Byte) (Inv : σ → Prop) (s : PosSys σ) (f : List Cursor) : Prop where
  pw : Pw (PRel C) s.heap f
  cnt : s.common.refcnt = posOpen s.heap
  live : 0 < posOpen s.heap → s.common.hasR = true ∧ s.common.length = C.length ∧ Inv s.common.rdr

theorem posOpen_pos {heap : List PosBody} {h : Nat} {b : PosBody} (hb : heap[h]? = some b)
    (hc : b.closed = false) : 0 < posOpen heap :=
  List.countP_pos_iff.2 ⟨b, List.mem_of_getElem? hb, by simp [hc]⟩

theorem posOpen_set {heap : List PosBody} {h : Nat} {b b' : PosBody} (hb : heap[h]? = some b) :
    posOpen (heap.set h b') + (if b.closed then 0 else 1) = posOpen heap + (if b'.closed then 0 else 1) := by
  obtain ⟨h', e⟩ := List.getElem?_eq_some_iff.1 hb
  unfold posOpen
  rw [List.countP_set h', e]
  have : b.closed = false → 0 < heap.countP (fun b => !b.closed) := posOpen_pos hb
  cases hc : b.closed <;> cases hc' : b'.closed <;> simp_all <;> omega

theorem posOpen_eq {C : List Byte} {s : List PosBody} {f : List Cursor} (h : Pw (PRel C) s f) :
    openCount f = posOpen s := by
  unfold openCount posOpen
  obtain ⟨hl, hp⟩ := h
  induction s generalizing f with
  | nil => cases f with
    | nil => rfl
    | cons c f => simp at hl
  | cons b s ih => cases f with
    | nil => simp at hl
    | cons c f =>
      have h0 := hp 0 b c rfl rfl
      have := ih (by simpa using hl) (fun i a c ha hc => hp (i + 1) a c (by simpa using ha) (by simpa using hc))
      rw [List.countP_cons, List.countP_cons, this, h0.opn]

/-- Choices that can occur: no panics, no stale lengths. -/
def PosAllowed (ch : Choice) : Prop := ch.stale = false ∧ ch.crash = none

theorem psim_set {C : List Byte} {Inv : σ → Prop} {s : PosSys σ} {f : List Cursor} (hs : PSim C Inv s f)
    {h : Nat} {b b' : PosBody} {c' : Cursor} (hb : s.heap[h]? = some b) (hc : b.closed = false)
    (hc' : b'.closed = false) (hr : PRel C b' c') {st' : σ} (hi : Inv st') :
    PSim C Inv { common := { s.common with rdr := st' }, heap := s.heap.set h b' } (f.set h c') := by
  have hcount := posOpen_set (b' := b') hb
  simp only [hc, hc', Bool.false_eq_true, if_false] at hcount
  refine ⟨hs.pw.set h hr, ?_, ?_⟩
  · simp only; rw [hs.cnt]; omega
  · intro _
    obtain ⟨h1, h2, _⟩ := hs.live (posOpen_pos hb hc)
    exact ⟨h1, h2, hi⟩

theorem psim_rdr {C : List Byte} {Inv : σ → Prop} {s : PosSys σ} {f : List Cursor} (hs : PSim C Inv s f)
    (hp : 0 < posOpen s.heap) {st' : σ} (hi : Inv st') :
    PSim C Inv { s with common := { s.common with rdr := st' } } f := by
  obtain ⟨h1, h2, _⟩ := hs.live hp
  exact ⟨hs.pw, hs.cnt, fun _ => ⟨h1, h2, hi⟩⟩

instance (R : Rdr σ) [h : R.CloseOk] : (atKind R).R.CloseOk := h

instance (R : Rdr σ) [h : R.CloseOk] : (seekKind R).R.CloseOk := h

/-- A `Close` that does not panic. -/
theorem unref_ok (R : Rdr σ) [R.CloseOk] (c : PosCommon σ) : ∃ e, (Pos.unref R c).2 = .ok e := by
  unfold Pos.unref
  split
  · exact ⟨none, rfl⟩
  · split
    · rename_i h; exact Rdr.CloseOk.close (by simp at h; exact h.2) _
    · exact ⟨none, rfl⟩

theorem psim_step {K : PosKind σ} [K.R.CloseOk] {F : List Byte} {Inv : σ → Prop} (hG : GoodGet K F Inv) {n : Nat}
    (hn : n ≤ F.length) (hn63 : n < 2 ^ 63) (s : PosSys σ) (f : List Cursor) (op : Op) (hv : op.Valid)
    (hs : PSim (F.take n) Inv s f) :
    ∃ ch, PosAllowed ch ∧ (Pos.step K s op).2 = (Spec.step (posCfg n) ch f op).2 ∧
      PSim (F.take n) Inv (Pos.step K s op).1 (Spec.step (posCfg n) ch f op).1 := by
  have hClen : (F.take n).length = n := by simp; omega
  unfold Pos.step Spec.step
  cases hb : s.heap[op.h]? with
  | none =>
    rw [(hs.pw.none_iff _).1 hb]
    exact ⟨{}, ⟨rfl, rfl⟩, rfl, hs⟩
  | some b =>
    obtain ⟨c, hc, hr⟩ := hs.pw.get hb
    rw [hc]
    have hle := hr.le
    rw [hClen] at hle
    cases op with
    | read h k =>
      simp only [Op.h] at hb hc ⊢
      unfold Pos.read
      by_cases hcl : b.closed = true
      · refine ⟨{}, ⟨rfl, rfl⟩, ?_, ?_⟩
        · simp [Cursor.read, hr.opn, hcl]
        · simp only [Cursor.read, hr.opn, hcl, Bool.not_true, Bool.not_false, if_true]
          rw [set_self hc]; exact hs
      · have hcl : b.closed = false := by simpa using hcl
        obtain ⟨l1, l2, l3⟩ := hs.live (posOpen_pos hb hcl)
        rw [hClen] at l2
        have hpos := hr.pos hcl
        have herr := hr.err hcl
        have hop : c.isOpen = true := by rw [hr.opn, hcl]; rfl
        cases hd : c.done with
        | true =>
          rw [hd] at herr
          refine ⟨{}, ⟨rfl, rfl⟩, ?_, ?_⟩
          · simp [Cursor.read, hop, hd, hcl, herr, posCfg]
          · simp only [Cursor.read, hop, hd, hcl, herr, Bool.not_true, Bool.false_eq_true, if_true, if_false]
            rw [set_self hc]; exact hs
        | false =>
          rw [hd] at herr
          simp only [Bool.false_eq_true, if_false] at herr
          obtain ⟨st', e, h1, h2, h3⟩ := attempt_good hG l2 hn hn63 l1 l3 k c.pos
          have hmin : min c.pos n = c.pos := by omega
          rw [hmin] at h1 h3
          rw [hpos] at *
          simp only [hcl, Bool.false_eq_true, if_false, herr, h1]
          have hlenD : (((F.take n).drop c.pos).take k).length = min k (n - c.pos) := by simp; omega
          rw [if_neg (by omega)]
          generalize hD : ((F.take n).drop c.pos).take k = D at *
          have hspec : ∀ ch : Choice, ch.crash = none → c.read (posCfg n) ch k =
              ({ c with pos := c.pos + D.length, done := decide (n < c.pos + k) || (ch.early && decide (0 < k) && decide (c.pos + k = n)) },
                .read D (if (decide (n < c.pos + k) || (ch.early && decide (0 < k) && decide (c.pos + k = n))) = true then some .eof else none)) := by
            intro ch hch
            simp only [Cursor.read, hop, hd, hch, Bool.not_true, Bool.false_eq_true, if_false, hr.content, hClen, hD, posCfg]
          refine ⟨{ early := e.isSome }, ⟨rfl, rfl⟩, ?_⟩
          rw [hspec _ rfl]
          have hended : (decide (n < c.pos + k) || (e.isSome && decide (0 < k) && decide (c.pos + k = n))) = e.isSome := by
            rcases h3 with ⟨h3, h4⟩ | ⟨h3, h4 | ⟨h4, h5, h6⟩⟩
            · simp [h3, h4]
            · simp [h4]; omega
            · simp [h4, h5, h6]
          simp only [hended]
          have hle' : c.pos + D.length ≤ n := by omega
          cases e with
          | none =>
            refine ⟨rfl, ?_⟩
            simp only [Pos.served]
            exact psim_set (b' := { b with offset := (c.pos : Int) + (D.length : Int), err := none })
              (c' := { c with pos := c.pos + D.length, done := false }) hs hb hcl hcl
              ⟨by simp [hop, hcl], hr.content, by rw [hClen]; exact hle', by intro _; simp, by intro _; simp⟩ h2
          | some er =>
            have her : er = .eof := by
              rcases h3 with ⟨h3, h4⟩ | ⟨h3, h4 | ⟨h4, h5, h6⟩⟩
              · simpa using h4
              · cases h4
              · simpa using h4
            subst her
            have hend : c.pos + D.length = n := by
              rcases h3 with ⟨h3, h4⟩ | ⟨h3, h4 | ⟨h4, h5, h6⟩⟩
              · omega
              · cases h4
              · omega
            refine ⟨rfl, ?_⟩
            simp only [Pos.served]
            rw [if_neg (by omega)]
            exact psim_set (b' := { b with offset := (c.pos : Int) + (D.length : Int), err := some .eof })
              (c' := { c with pos := c.pos + D.length, done := true }) hs hb hcl hcl
              ⟨by simp [hop, hcl], hr.content, by rw [hClen]; exact hle', by intro _; simp, by intro _; simp⟩ h2
    | readAt h k off =>
      simp only [Op.h, posCfg, if_true] at hb hc ⊢
      unfold Pos.readAt
      by_cases hcl : b.closed = true
      · refine ⟨{}, ⟨rfl, rfl⟩, ?_, ?_⟩
        · simp [Cursor.readAt, hr.opn, hcl]
        · simp only [hcl, if_true]; exact hs
      · have hcl : b.closed = false := by simpa using hcl
        have hop : c.isOpen = true := by rw [hr.opn, hcl]; rfl
        obtain ⟨l1, l2, l3⟩ := hs.live (posOpen_pos hb hcl)
        rw [hClen] at l2
        by_cases hoff : off < 0
        · refine ⟨{}, ⟨rfl, rfl⟩, ?_, ?_⟩
          · simp [Cursor.readAt, hop, hcl, hoff]
          · simp only [hcl, hoff, Bool.false_eq_true, if_true, if_false]; exact hs
        · obtain ⟨o, rfl⟩ : ∃ o : Nat, off = o := ⟨off.toNat, by omega⟩
          obtain ⟨st', e, h1, h2, h3⟩ := attempt_good hG l2 hn hn63 l1 l3 k o
          simp only [hcl, hoff, Bool.false_eq_true, if_false, h1]
          refine ⟨{ early := e.isSome }, ⟨rfl, rfl⟩, ?_, psim_rdr hs (posOpen_pos hb hcl) h2⟩
          simp only [Cursor.readAt, hop, Bool.not_true, Bool.false_eq_true, if_false, hoff, Int.toNat_natCast,
            hr.content, hClen]
          congr 1
          rcases h3 with ⟨h3, h4⟩ | ⟨h3, h4 | ⟨h4, h5, h6⟩⟩
          · simp [h3, h4]
          · simp [h4]; omega
          · simp [h4, h5, h6]
    | seek h off wh =>
      simp only [Op.h, posCfg, if_true] at hb hc ⊢
      refine ⟨{}, ⟨rfl, rfl⟩, ?_⟩
      unfold Pos.seek ReaderAtBody.seek
      by_cases hcl : b.closed = true
      · simp only [Cursor.seek, hr.opn, hcl, Bool.not_true, Bool.not_false, if_true]
        rw [set_self hc]; exact ⟨trivial, hs⟩
      · have hcl : b.closed = false := by simpa using hcl
        have hop : c.isOpen = true := by rw [hr.opn, hcl]; rfl
        obtain ⟨l1, l2, l3⟩ := hs.live (posOpen_pos hb hcl)
        rw [hClen] at l2
        have hpos := hr.pos hcl
        obtain ⟨berr, boff, bcl⟩ := b
        obtain ⟨ct, p, dn, io⟩ := c
        obtain rfl : ct = F.take n := hr.content
        obtain rfl : bcl = false := hcl
        obtain rfl : io = true := hop
        obtain rfl : boff = (p : Int) := hpos
        simp only at hle
        simp only [hcl, Bool.false_eq_true, if_false, ReaderAtBody.commonRemaining, l2]
        have hv' : IsI64 off := hv
        have keep : PSim (F.take n) Inv s (f.set h ⟨F.take n, p, dn, true⟩) := by rw [set_self hc]; exact hs
        have good : ∀ m : Nat, PSim (F.take n) Inv
            { s with heap := s.heap.set h { err := none, offset := ((min m n : Nat) : Int) } }
            (f.set h { content := F.take n, isOpen := true, pos := min m n, done := false }) := by
          intro m
          exact psim_set (b' := { err := none, offset := ((min m n : Nat) : Int) })
            (c' := { content := F.take n, isOpen := true, pos := min m n, done := false }) hs hb rfl rfl
            ⟨rfl, rfl, by rw [hClen]; exact Nat.min_le_right _ _,
            by intro _; rfl, by intro _; rfl⟩ l3
        simp only [Cursor.seek, Bool.not_true, Bool.false_eq_true, if_false, seekTarget, hr.content, hClen]
        unfold IsI64 at hv'
        by_cases w0 : wh = 0
        · subst w0
          by_cases hneg : off < 0
          · simp [hneg]; exact keep
          · have hb63 : ¬ (9223372036854775808 : Int) ≤ off := by omega
            simp only [hneg, and_false, if_false, true_and, ne_eq, not_true, false_and, if_true]
            have e1 : (if off > (n : Int) then (n : Int) else off) = ((min off.toNat n : Nat) : Int) := by
              split <;> omega
            simp only [e1]
            rw [if_neg (by simpa using hb63)]
            exact ⟨rfl, good _⟩
        · have hw : ∀ t : Int, -(2 ^ 63) ≤ t → t < 2 ^ 64 → ∀ (cond : Bool),
              ((if i64 t < 0 then (s, Out.seek (-1) (some (.negComputed (i64 t))))
                else ({ s with heap := s.heap.set h { err := none, offset := (if i64 t > (n : Int) then (n : Int) else i64 t) } },
                  Out.seek (if i64 t > (n : Int) then (n : Int) else i64 t) none) : PosSys σ × Out)) =
              (if t < 0 then (s, Out.seek (-1) (some (.negComputed t)))
                else if 2 ^ 63 ≤ t then (s, Out.seek (-1) (some (.negComputed (t - 2 ^ 64))))
                else ({ s with heap := s.heap.set h { err := none, offset := ((min t.toNat n : Nat) : Int) } },
                  Out.seek ((min t.toNat n : Nat) : Int) none)) := by
            intro t h1 h2 _
            by_cases hbig : 2 ^ 63 ≤ t
            · rw [i64_over hbig h2, if_pos (by omega), if_neg (by omega), if_pos hbig]
            · rw [i64_of_isI64 ⟨by omega, by omega⟩]
              by_cases hneg : t < 0
              · rw [if_pos hneg, if_pos hneg]
              · rw [if_neg hneg, if_neg hneg, if_neg hbig]
                have e1 : (if t > (n : Int) then (n : Int) else t) = ((min t.toNat n : Nat) : Int) := by
                  split <;> omega
                rw [e1]
          have fin : ∀ t : Int, -(2 ^ 63) ≤ t → t < 2 ^ 64 →
              ((if t < 0 then (s, Out.seek (-1) (some (.negComputed t)))
                else if 2 ^ 63 ≤ t then (s, Out.seek (-1) (some (.negComputed (t - 2 ^ 64))))
                else ({ s with heap := s.heap.set h { err := none, offset := ((min t.toNat n : Nat) : Int) } },
                  Out.seek ((min t.toNat n : Nat) : Int) none) : PosSys σ × Out)).2 =
              ((if t < 0 then (⟨F.take n, p, dn, true⟩, Out.seek (-1) (some (.negComputed t)))
                else if 2 ^ 63 ≤ t then (⟨F.take n, p, dn, true⟩, Out.seek (-1) (some (.negComputed (t - 2 ^ 64))))
                else ({ content := F.take n, isOpen := true, pos := min t.toNat n, done := false }, Out.seek (min t.toNat n : Nat) none) : Cursor × Out)).2 ∧
              PSim (F.take n) Inv ((if t < 0 then (s, Out.seek (-1) (some (.negComputed t)))
                else if 2 ^ 63 ≤ t then (s, Out.seek (-1) (some (.negComputed (t - 2 ^ 64))))
                else ({ s with heap := s.heap.set h { err := none, offset := ((min t.toNat n : Nat) : Int) } },
                  Out.seek ((min t.toNat n : Nat) : Int) none) : PosSys σ × Out)).1
                (f.set h ((if t < 0 then (⟨F.take n, p, dn, true⟩, Out.seek (-1) (some (.negComputed t)))
                else if 2 ^ 63 ≤ t then (⟨F.take n, p, dn, true⟩, Out.seek (-1) (some (.negComputed (t - 2 ^ 64))))
                else ({ content := F.take n, isOpen := true, pos := min t.toNat n, done := false }, Out.seek (min t.toNat n : Nat) none) : Cursor × Out)).1) := by
            intro t h1 h2
            by_cases hneg : t < 0
            · rw [if_pos hneg, if_pos hneg]; exact ⟨rfl, keep⟩
            · rw [if_neg hneg, if_neg hneg]
              by_cases hbig : (2 : Int) ^ 63 ≤ t
              · rw [if_pos hbig, if_pos hbig]; exact ⟨rfl, keep⟩
              · rw [if_neg hbig, if_neg hbig]; exact ⟨rfl, good _⟩
          by_cases w1 : wh = 1
          · subst w1
            simp only [show ¬ ((1 : Int) = 0) by omega, false_and, if_false, ne_eq, not_true, not_false_eq_true, and_false,
              true_and, if_true]
            rw [hw (off + (p : Int)) (by omega) (by omega) true, Int.add_comm off]
            exact fin _ (by omega) (by omega)
          · by_cases w2 : wh = 2
            · subst w2
              simp only [show ¬ ((2 : Int) = 0) by omega, show ¬ ((2 : Int) = 1) by omega, false_and, if_false, ne_eq,
                not_true, not_false_eq_true, and_false, true_and, if_true]
              rw [hw (off + (n : Int)) (by omega) (by omega) true, Int.add_comm off]
              exact fin _ (by omega) (by omega)
            · simp only [w0, w1, w2, false_and, if_false, ne_eq, not_false_eq_true, and_self, if_true]
              exact ⟨trivial, keep⟩
    | remaining h =>
      simp only [Op.h] at hb hc ⊢
      refine ⟨{}, ⟨rfl, rfl⟩, ?_, hs⟩
      simp only [Pos.remaining, Cursor.remaining, Bool.false_eq_true, if_false]
      by_cases hcl : b.closed = true
      · simp [hcl, hr.opn]
      · have hcl : b.closed = false := by simpa using hcl
        obtain ⟨l1, l2, l3⟩ := hs.live (posOpen_pos hb hcl)
        have hpos := hr.pos hcl
        simp only [hcl, hr.opn, Bool.not_false, Bool.not_true, Bool.false_eq_true, if_false, l2, hpos, hr.content, hClen]
        congr 1
        split
        · rename_i hh
          simp at hh
          omega
        · rfl
    | copy h =>
      simp only [Op.h] at hb hc ⊢
      refine ⟨{}, ⟨rfl, rfl⟩, ?_⟩
      by_cases hcl : b.closed = true
      · simp only [hcl, hr.opn, if_true, Bool.not_true, Bool.false_eq_true, if_false]
        exact ⟨trivial, hs⟩
      · have hcl : b.closed = false := by simpa using hcl
        simp only [hcl, hr.opn, if_true, Bool.not_false, Bool.false_eq_true, if_false]
        refine ⟨by rw [hs.pw.1], hs.pw.append hr, ?_, ?_⟩
        · simp only [posOpen, List.countP_append]
          rw [hs.cnt]
          simp [posOpen, hcl]
        · intro _
          exact hs.live (posOpen_pos hb hcl)
    | close h =>
      simp only [Op.h] at hb hc ⊢
      by_cases hcl : b.closed = true
      · refine ⟨{}, ⟨rfl, rfl⟩, ?_⟩
        simp only [hcl, hr.opn, if_true, Bool.not_true, Bool.false_eq_true, if_false]
        exact ⟨trivial, hs⟩
      · have hcl : b.closed = false := by simpa using hcl
        obtain ⟨ce, hce⟩ := unref_ok K.R s.common
        refine ⟨{ closeErr := ce }, ⟨rfl, rfl⟩, ?_⟩
        simp only [hcl, hr.opn, if_true, Bool.not_false, Bool.false_eq_true, if_false]
        rw [hce]
        obtain ⟨l1, l2, l3⟩ := hs.live (posOpen_pos hb hcl)
        have hcount := posOpen_set (b' := { closed := true }) hb
        simp only [hcl, Bool.false_eq_true, if_false, if_true] at hcount
        have hrel : PRel (F.take n) { closed := true } { c with isOpen := false } :=
          ⟨by simp, hr.content, hr.le, by intro h; simp at h, by intro h; simp at h⟩
        have hcnt := hs.cnt
        have hoc := posOpen_eq hs.pw
        refine ⟨?_, hs.pw.set h hrel, ?_, ?_⟩
        · simp only [posCfg, Bool.true_and, passedOn]
          unfold Pos.unref at hce
          by_cases hrc : s.common.refcnt - 1 > 0
          · rw [if_pos hrc] at hce
            rw [if_neg (by simp; omega)]
            cases hce; rfl
          · have ho1 : decide (openCount f = 1) = true := by simp; omega
            rw [if_pos ho1]
        · simp only
          unfold Pos.unref
          by_cases hrc : s.common.refcnt - 1 > 0
          · rw [if_pos hrc]; simp only; omega
          · rw [if_neg hrc]
            split
            · split <;> (simp only; omega)
            · simp only; omega
        · intro hpos
          simp only at hpos ⊢
          unfold Pos.unref
          rw [if_pos (by omega)]
          exact ⟨l1, l2, l3⟩
    | unwrap h =>
      simp only [Op.h] at hb hc ⊢
      refine ⟨{}, ⟨rfl, rfl⟩, ?_, hs⟩
      simp only [posCfg, Bool.true_and, hr.opn]
      cases hcl : b.closed with
      | true => rfl
      | false => rw [(hs.live (posOpen_pos hb hcl)).1]; rfl
    | writeTo h w => exact ⟨{}, ⟨rfl, rfl⟩, rfl, hs⟩

end Verif
