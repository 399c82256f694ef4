import Verif.Props.Positional
import Verif.Spec.Weakest

/-! # C16, C18, C19, C20: exactly which Readers make them true; C17: exactly when it holds -/

set_option autoImplicit false

namespace Verif
open Spec

variable {σ : Type}

/-! ## Both kinds -/

/-- `get`, asked for one range after the other, delivers what `F` has there. -/
def Gets (K : PosKind σ) (F : List Byte) : σ → List (Nat × Nat) → Prop
  | _, [] => True
  | st, (p, x) :: l =>
    (∃ e, (K.get st x p).2 = .ret ((F.drop p).take x, e) ∧ (e = none ∨ (e = some .eof ∧ p + x = F.length))) ∧
    Gets K F (K.get st x p).1 l

theorem checked_iff {F : List Byte} {p x : Nat} (hx : p + x ≤ F.length) (r : RResp) (e : Option Err) :
    checked x r = .ret ((F.drop p).take x, e) ↔ r = .got ((F.drop p).take x) e := by
  have hl : ((F.drop p).take x).length = x := by simp; omega
  constructor
  · intro h
    cases r with
    | panics q => cases h
    | negative => cases h
    | got d err =>
      simp only [checked] at h
      split at h
      · rename_i hd
        simp only [Res.ret.injEq, Prod.mk.injEq] at h
        rw [h.1, h.2]
      · cases h
  · intro h
    rw [h]
    simp only [checked]
    rw [if_pos (by omega)]

theorem gets_at (R : Rdr σ) (F : List Byte) (l : List (Nat × Nat)) (hl : Inside F.length l) (st : σ) :
    Gets (atKind R) F st l ↔ AtDelivers R F st l := by
  induction l generalizing st with
  | nil => rfl
  | cons q l ih =>
    obtain ⟨p, x⟩ := q
    have h1 := hl (p, x) (by simp)
    unfold Gets AtDelivers
    rw [ih (fun q h => hl q (by simp [h]))]
    simp only [atKind, checked_iff h1.2]

theorem gets_seek (R : Rdr σ) (F : List Byte) (l : List (Nat × Nat)) (hl : Inside F.length l) (st : σ) :
    Gets (seekKind R) F st l ↔ SeekDelivers R F st l := by
  induction l generalizing st with
  | nil => rfl
  | cons q l ih =>
    obtain ⟨p, x⟩ := q
    have h1 := hl (p, x) (by simp)
    unfold Gets SeekDelivers
    rw [ih (fun q h => hl q (by simp [h]))]
    simp only [seekKind]
    cases hs : (R.seek st p 0).2 with
    | panics q => simp
    | ok a =>
      obtain ⟨m, e⟩ := a
      cases e with
      | some e =>
        simp only [XResp.ok.injEq, Prod.mk.injEq, reduceCtorEq, and_false, exists_false, false_and, iff_false, Res.ret.injEq]
        rintro ⟨⟨e', ⟨h2, h3⟩, h4⟩, -⟩
        subst h3
        rcases h4 with h4 | ⟨-, h4⟩
        · cases h4
        · have := congrArg List.length h2
          simp only [List.length_nil, List.length_take, List.length_drop] at this
          omega
      | none => simp [checked_iff h1.2]

/-- Nothing else is needed. -/
theorem goodGet_gets (K : PosKind σ) (F : List Byte) : GoodGet K F fun st => ∀ l, Inside F.length l → Gets K F st l := by
  refine ⟨fun st x off hi h1 h2 _ => ?_⟩
  have hin : Inside F.length [(off, x)] := by intro q hq; simp only [List.mem_singleton] at hq; subst hq; exact ⟨h1, h2⟩
  obtain ⟨⟨e, h3, h4⟩, -⟩ := hi _ hin
  refine ⟨(K.get st x off).1, e, ?_, fun l hl => ?_, h4⟩
  · rw [← h3]
  · have hin' : Inside F.length ((off, x) :: l) := by
      intro q hq
      rcases List.mem_cons.1 hq with rfl | hq
      · exact ⟨h1, h2⟩
      · exact hl q hq
    exact (hi _ hin').2

/-- What a `ReadAt` inside the content does. -/
theorem pos_readAt_inside {K : PosKind σ} {s : PosSys σ} {n h : Nat} {b : PosBody} (hb : s.heap[h]? = some b) (hc : b.closed = false)
    (hr : s.common.hasR = true) (hL : s.common.length = n) (p x : Nat) (hp : p < n) (hx : p + x ≤ n) :
    Pos.step K s (.readAt h x p) =
      ({ s with common := { s.common with rdr := (K.get s.common.rdr x p).1 } },
        match (K.get s.common.rdr x p).2 with
        | .ret (d, e) => .read d e
        | .panic q => .panic q
        | .hang => .hang) := by
  unfold Pos.step
  simp only [Op.h, hb]
  unfold Pos.readAt
  rw [if_neg (by simp [hc]), if_neg (by omega)]
  unfold Pos.attempt
  simp only [hL]
  rw [if_neg (show ¬ ((p : Int) > n) by omega), if_pos (show (n : Int) - p > 0 by omega)]
  simp only [decide_eq_false (show ¬ ((x : Int) > (n : Int) - p) by omega), Bool.false_eq_true, if_false]
  rw [goSlice_zeros x _ (by omega) (by omega)]
  simp only [Pos.fetch, hr, Bool.not_true, Bool.false_eq_true, if_false, List.length_replicate, Int.toNat_natCast, Bool.false_and]
  generalize K.get s.common.rdr x p = g
  obtain ⟨st', o⟩ := g
  cases o with
  | ret de => simp [hL]
  | panic q => simp [hL]
  | hang => simp [hL]

/-- A row of `ReadAt`s. -/
def row (h : Nat) (l : List (Nat × Nat)) : List Op := l.map fun q => .readAt h q.2 q.1

theorem row_valid {n : Nat} (hn : n < 2 ^ 63) {l : List (Nat × Nat)} (hl : Inside n l) (h : Nat) : ∀ op ∈ row h l, op.Valid := by
  intro op ho
  obtain ⟨q, hq, rfl⟩ := List.mem_map.1 ho
  have := (hl q hq).1
  simp only [Op.Valid, IsI64]
  omega

/-- If a row of `ReadAt`s is answered as by a cursor, then the source has delivered. -/
theorem gets_of_row {K : PosKind σ} {F : List Byte} (l : List (Nat × Nat)) (hl : Inside F.length l) {s : PosSys σ} {b : PosBody}
    (hb : s.heap[0]? = some b) (hc : b.closed = false) (hr : s.common.hasR = true) (hL : s.common.length = F.length) {chs : List Choice}
    (h1 : chs.length = l.length) (h2 : ∀ ch ∈ chs, PosAllowed ch)
    (h3 : (run (Pos.step K) s (row 0 l)).2 = (Spec.run (posCfg F.length) [{ content := F }] (chs.zip (row 0 l))).2) :
    Gets K F s.common.rdr l := by
  induction l generalizing s chs with
  | nil => trivial
  | cons q l ih =>
    obtain ⟨p, x⟩ := q
    obtain ⟨ch, chs, rfl⟩ : ∃ ch c, chs = ch :: c := by
      cases chs with
      | nil => cases h1
      | cons a c => exact ⟨a, c, rfl⟩
    obtain ⟨i1, i2⟩ := hl (p, x) (by simp)
    simp only at i1 i2
    simp only [row, List.map_cons, List.zip_cons_cons] at h3
    rw [run_cons, pos_readAt_inside hb hc hr hL p x i1 i2] at h3
    have e : Spec.step (posCfg F.length) ch [{ content := F }] (.readAt 0 x p) =
        ([{ content := F }], .read ((F.drop p).take x) (if ch.early && decide (0 < x) && decide (p + x = F.length) then some .eof else none)) := by
      have hcr := (h2 ch (by simp)).2
      have hm : min p F.length = p := by omega
      have hd : ¬ F.length < p + x := by omega
      simp [Spec.step, Op.h, posCfg, Cursor.readAt, hcr, hm, hd, show ¬ ((p : Int) < 0) by omega]
    simp only [Spec.run] at h3
    rw [e] at h3
    simp only [List.cons.injEq] at h3
    obtain ⟨h4, h5⟩ := h3
    constructor
    · cases hg : (K.get s.common.rdr x p).2 with
      | panic q => rw [hg] at h4; cases h4
      | hang => rw [hg] at h4; cases h4
      | ret de =>
        obtain ⟨d, e⟩ := de
        rw [hg] at h4
        simp only [Out.read.injEq] at h4
        refine ⟨e, by rw [h4.1], ?_⟩
        rw [h4.2]
        split
        · rename_i he
          simp only [Bool.and_eq_true, decide_eq_true_eq] at he
          exact .inr ⟨rfl, he.2⟩
        · exact .inl rfl
    · exact ih (fun q hq => hl q (by simp [hq])) (s := { s with common := { s.common with rdr := (K.get s.common.rdr x p).1 } }) hb hr hL
        (by simpa using h1) (fun c hc => h2 c (by simp [hc])) h5

theorem pos_refines_iff (K : PosKind σ) [K.R.CloseOk] (F : List Byte) (h63 : F.length < 2 ^ 63) (st : σ)
    (hN : ∀ s op, (Pos.step K s op).2 ≠ .hang) :
    Refines (Pos.step K) (posCfg F.length) Op.Valid PosAllowed (ReaderAtBody.init st F.length) [{ content := F }] ↔
      ∀ l, Inside F.length l → Gets K F st l := by
  constructor
  · intro h l hl
    obtain ⟨chs, h1, h2, h3⟩ := h (row 0 l) (row_valid h63 hl 0) (noHang_run hN _ _)
    exact gets_of_row l hl (s := ReaderAtBody.init st F.length) rfl rfl rfl rfl (by simpa [row] using h1) h2 h3
  · intro h
    have := psim_init (n := F.length) (Inv := fun st => ∀ l, Inside F.length l → Gets K F st l) h (Nat.le_refl _)
    simp only [List.take_length] at this
    have hs := psim_step' (goodGet_gets K F) (Nat.le_refl F.length) h63
    simp only [List.take_length] at hs
    exact refines_of_sim _ hs this

theorem pos_readAts_iff (K : PosKind σ) [K.R.CloseOk] (F : List Byte) (h63 : F.length < 2 ^ 63) (st : σ)
    (hN : ∀ s op, (Pos.step K s op).2 ≠ .hang) :
    (∀ ops : List Op, (∀ op ∈ ops, op.Valid) → ∀ h, IsOpen (Pos.step K) (run (Pos.step K) (ReaderAtBody.init st F.length) ops).1 h →
      ReadAtExact (Pos.step K) F (run (Pos.step K) (ReaderAtBody.init st F.length) ops).1 h) ↔
      ∀ l, Inside F.length l → Gets K F st l := by
  constructor
  · intro h l hl
    suffices ∀ (l : List (Nat × Nat)) (s : PosSys σ), Inside F.length l → s.heap = [{}] → s.common.hasR = true → s.common.length = F.length →
        (∀ ops : List Op, (∀ op ∈ ops, op.Valid) → ∀ h, IsOpen (Pos.step K) (run (Pos.step K) s ops).1 h →
          ReadAtExact (Pos.step K) F (run (Pos.step K) s ops).1 h) → Gets K F s.common.rdr l from
      this l (ReaderAtBody.init st F.length) hl rfl rfl rfl h
    intro l
    induction l with
    | nil => intros; trivial
    | cons q l ih =>
      intro s hl hh hr hL h
      obtain ⟨p, x⟩ := q
      obtain ⟨i1, i2⟩ := hl (p, x) (by simp)
      simp only at i1 i2
      have hb : s.heap[0]? = some ({} : PosBody) := by rw [hh]; rfl
      have hst := pos_readAt_inside (K := K) hb rfl hr hL p x i1 i2
      have hv : IsI64 (p : Int) := by simp only [IsI64]; omega
      have h0 := (h [] (by simp) 0 (pos_isOpen.2 ⟨_, hb, rfl⟩) x p hv).2 (by omega)
      rw [run_nil, hst] at h0
      simp only [Int.toNat_natCast] at h0
      have hd : ¬ F.length - p < x := by omega
      rw [if_neg hd] at h0
      constructor
      · cases hg : (K.get s.common.rdr x p).2 with
        | panic q => rw [hg] at h0; simp at h0
        | hang => rw [hg] at h0; simp at h0
        | ret de =>
          obtain ⟨d, e⟩ := de
          rw [hg] at h0
          simp only [Out.read.injEq] at h0
          rcases h0 with ⟨h1, h2⟩ | ⟨-, h4, h1, h2⟩
          · exact ⟨e, by rw [h1], .inl h2⟩
          · exact ⟨e, by rw [h1], .inr ⟨h2, h4.symm⟩⟩
      · refine ih { s with common := { s.common with rdr := (K.get s.common.rdr x p).1 } } (fun q hq => hl q (by simp [hq])) hh hr hL ?_
        intro ops hops g hg
        have := h (.readAt 0 x p :: ops) (by
          intro op ho
          rcases List.mem_cons.1 ho with rfl | ho
          · exact hv
          · exact hops op ho) g
        rw [run_cons, hst] at this
        exact this hg
  · intro h ops hv g hg
    have := (pos_readAt (goodGet_gets K F) (Nat.le_refl F.length) h63 h hN ops hv g hg).1
    simpa only [List.take_length] using this

/-! ## The statements -/

/-- **C16**: which Readers make C16 true, exactly: the Bodies over a Reader with `ReadAt` behave as independent cursors over `F` if and only if the Reader,
asked for one range inside `F` after the other, delivers. -/
theorem C16_iff (R : Rdr σ) [R.CloseOk] (F : List Byte) (h63 : F.length < 2 ^ 63) (st : σ) :
    Refines (ReaderAtBody.step R) (posCfg F.length) Op.Valid PosAllowed (ReaderAtBody.init st F.length) [{ content := F }] ↔
      ∀ l, Inside F.length l → AtDelivers R F st l := by
  have hN := at_noHang R
  rw [at_step] at *
  rw [pos_refines_iff _ _ h63 _ hN]
  exact forall_congr' fun l => forall_congr' fun hl => gets_at R F l hl st

/-- **C18**: the same over a Reader with `Seek` and without `ReadAt`: C18 holds if and only if after each `Seek` to a position inside `F`, `Read` fills
the buffer. -/
theorem C18_iff (R : Rdr σ) [R.CloseOk] (F : List Byte) (h63 : F.length < 2 ^ 63) (st : σ) :
    Refines (SeekerBody.step R) (posCfg F.length) Op.Valid PosAllowed (SeekerBody.init st F.length) [{ content := F }] ↔
      ∀ l, Inside F.length l → SeekDelivers R F st l := by
  have hN := seek_noHang R
  rw [seek_step] at *
  refine Iff.trans (pos_refines_iff (seekKind R) _ h63 st hN) ?_
  exact forall_congr' fun l => forall_congr' fun hl => gets_seek R F l hl st

/-- **C19**: and so do all `ReadAt`s on them honour the contract. -/
theorem C19_iff (R : Rdr σ) [R.CloseOk] (F : List Byte) (h63 : F.length < 2 ^ 63) (st : σ) :
    (∀ ops : List Op, (∀ op ∈ ops, op.Valid) → ∀ h, IsOpen (SeekerBody.step R) (seekAfter R st F.length ops) h →
      ReadAtExact (SeekerBody.step R) F (seekAfter R st F.length ops) h) ↔
      ∀ l, Inside F.length l → SeekDelivers R F st l := by
  have hN := seek_noHang R
  simp only [seekAfter, seek_step] at *
  refine Iff.trans (pos_readAts_iff (seekKind R) _ h63 st hN) ?_
  exact forall_congr' fun l => forall_congr' fun hl => gets_seek R F l hl st

/-! Examples -/

/-- A file; but it panics if asked for anything that does not lie in it, and at the end.  So it keeps no contract. -/
def touchyRdr (F : List Byte) : Rdr Nat :=
  { fileRdr F with
    read := fun p x => if p < F.length ∧ p + x ≤ F.length then (p + x, .got ((F.drop p).take x) none) else (p, .panics .badArg)
    readAt := fun q x off => if 0 ≤ off ∧ off.toNat < F.length ∧ off.toNat + x ≤ F.length then (q, .got ((F.drop off.toNat).take x) none) else (q, .panics .badArg)
    seek := fun p off wh => if 0 ≤ off ∧ off < F.length ∧ wh = 0 then (off.toNat, .ok (off, none)) else (p, .panics .badArg) }

instance (F : List Byte) : (touchyRdr F).CloseOk := ⟨fun _ _ => ⟨some (.ext 7), rfl⟩⟩

theorem touchyRdr_at (F : List Byte) (l : List (Nat × Nat)) (hl : Inside F.length l) (st : Nat) : AtDelivers (touchyRdr F) F st l := by
  induction l generalizing st with
  | nil => trivial
  | cons q l ih =>
    obtain ⟨p, x⟩ := q
    have h := hl (p, x) (by simp)
    refine ⟨⟨none, ?_, .inl rfl⟩, ih (fun q hq => hl q (by simp [hq])) _⟩
    simp only [touchyRdr]
    rw [if_pos ⟨by omega, by simpa using h⟩]
    simp

theorem touchyRdr_seek (F : List Byte) (l : List (Nat × Nat)) (hl : Inside F.length l) (st : Nat) : SeekDelivers (touchyRdr F) F st l := by
  induction l generalizing st with
  | nil => trivial
  | cons q l ih =>
    obtain ⟨p, x⟩ := q
    have h := hl (p, x) (by simp)
    simp only at h
    have e : (touchyRdr F).seek st p 0 = (p, .ok (p, none)) := by
      simp only [touchyRdr]
      rw [if_pos ⟨by omega, by omega, trivial⟩]
      simp
    refine ⟨⟨p, by rw [e]⟩, ⟨none, ?_, .inl rfl⟩, ih (fun q hq => hl q (by simp [hq])) _⟩
    rw [e]
    simp only [touchyRdr]
    rw [if_pos h]

/-- That is enough. -/
example (F : List Byte) (h : F.length < 2 ^ 63) :
    Refines (ReaderAtBody.step (touchyRdr F)) (posCfg F.length) Op.Valid PosAllowed (ReaderAtBody.init 0 F.length) [{ content := F }] ∧
    Refines (SeekerBody.step (touchyRdr F)) (posCfg F.length) Op.Valid PosAllowed (SeekerBody.init 0 F.length) [{ content := F }] :=
  ⟨(C16_iff _ F h 0).2 fun l hl => touchyRdr_at F l hl 0, (C18_iff _ F h 0).2 fun l hl => touchyRdr_seek F l hl 0⟩

example : seekOuts (touchyRdr [1, 2, 3]) 0 3 [.read 0 2, .readAt 0 5 1, .read 0 2, .seek 0 9 0, .read 0 1, .readAt 0 0 3] =
    [.read [1, 2] none, .read [2, 3] (some .eof), .read [3] (some .eof), .seek 3 none, .read [] (some .eof), .read [] none] := by decide +kernel

/-- A seeker that delivers one byte at a time is not: it fails at the first range of two bytes. -/
example : ¬ SeekDelivers (shortRdr [1, 2]) [1, 2] 0 [(0, 2)] := by
  rintro ⟨-, ⟨e, h, -⟩, -⟩
  simp [shortRdr, fileRdr] at h
example : SeekDelivers (shortRdr [1, 2]) [1, 2] 0 [(1, 1), (0, 1)] := by
  simp only [SeekDelivers, shortRdr, fileRdr]
  simp

/-! ## C20 -/

/-- `get`, asked for one range after the other, reports no error before the end, and delivers all the rest when asked for it. -/
def Lasts (K : PosKind σ) (n : Nat) : σ → List (Nat × Nat) → Prop
  | _, [] => True
  | st, (p, x) :: l =>
    (∀ d e, (K.get st x p).2 = .ret (d, e) → e ≠ none ∨ p + x = n → p + d.length = n) ∧ Lasts K n (K.get st x p).1 l

theorem checked_ret {x : Nat} {r : RResp} {d : List Byte} {e : Option Err} : checked x r = .ret (d, e) ↔ r = .got d e ∧ d.length ≤ x := by
  cases r with
  | panics q => simp [checked]
  | negative => simp [checked]
  | got d' e' =>
    simp only [checked]
    split
    · rename_i h
      simp only [Res.ret.injEq, Prod.mk.injEq, RResp.got.injEq]
      constructor
      · rintro ⟨rfl, rfl⟩; exact ⟨⟨rfl, rfl⟩, h⟩
      · exact fun h => h.1
    · rename_i h
      simp only [reduceCtorEq, RResp.got.injEq, false_iff]
      rintro ⟨⟨rfl, rfl⟩, h'⟩
      exact h h'

theorem lasts_seek (R : Rdr σ) (n : Nat) (l : List (Nat × Nat)) (hl : Inside n l) (st : σ) : Lasts (seekKind R) n st l ↔ SeekLasts R n st l := by
  induction l generalizing st with
  | nil => rfl
  | cons q l ih =>
    obtain ⟨p, x⟩ := q
    have h1 := hl (p, x) (by simp)
    simp only at h1
    have ih' := ih (fun q h => hl q (by simp [h]))
    unfold Lasts SeekLasts
    rw [ih']
    simp only [seekKind]
    rcases hs : R.seek st p 0 with ⟨st1, ⟨m, e⟩ | q⟩
    · cases e with
      | some e =>
        simp only [iff_false, not_and]
        intro h
        have := h [] (some e) rfl (.inl (by simp))
        simp only [List.length_nil] at this
        omega
      | none =>
        simp only [checked_ret]
        constructor
        · rintro ⟨h2, h3⟩; exact ⟨fun d e a b c => h2 d e ⟨a, b⟩ c, h3⟩
        · rintro ⟨h2, h3⟩; exact ⟨fun d e a c => h2 d e a.1 a.2 c, h3⟩
    · simp

/-- As long as a Body is open, the length is `n` and the source is as required. -/
def Lasting (K : PosKind σ) (n : Nat) (s : PosSys σ) : Prop :=
  0 < posOpen s.heap → s.common.length = n ∧ ∀ l, Inside n l → Lasts K n s.common.rdr l

theorem attempt_lasting {K : PosKind σ} (hK : GetShort K) {n : Nat} {c : PosCommon σ} (hR : c.hasR = true) (hL : c.length = n)
    (hI : ∀ l, Inside n l → Lasts K n c.rdr l) (k : Nat) {off : Int} (h0 : 0 ≤ off) {c' : PosCommon σ} {r : Res (List Byte × Option Err)}
    (h : Pos.attempt K c k off = (c', r)) :
    (∀ l, Inside n l → Lasts K n c'.rdr l) ∧
    ∀ d e, r = .ret (d, some e) → (if off > n then (n : Int) else off) + d.length = n := by
  by_cases hl : c.length ≤ off
  · rw [attempt_end hl] at h
    cases h
    refine ⟨hI, fun d e he => ?_⟩
    simp only [Res.ret.injEq, Prod.mk.injEq] at he
    rw [← he.1]
    simp only [List.length_nil]
    split <;> omega
  · rw [attempt_mid hR (by omega)] at h
    obtain ⟨p, rfl⟩ : ∃ p : Nat, off = p := ⟨off.toNat, by omega⟩
    rw [hL] at hl h
    generalize hx : min k ((n : Int) - p).toNat = x at h
    have hin : Inside n [(p, x)] := by intro q hq; simp only [List.mem_singleton] at hq; subst hq; simp only; omega
    simp only [Prod.mk.injEq] at h
    obtain ⟨rfl, rfl⟩ := h
    refine ⟨fun l hl' => ?_, fun d e he => ?_⟩
    · have := hI ((p, x) :: l) (by
        intro q hq
        rcases List.mem_cons.1 hq with rfl | hq
        · exact hin _ (by simp)
        · exact hl' q hq)
      exact this.2
    · have h1 := (hI _ hin).1
      cases hg : (K.get c.rdr x p).2 with
      | panic q => rw [hg] at he; cases he
      | hang => rw [hg] at he; cases he
      | ret de =>
        obtain ⟨d', e'⟩ := de
        rw [hg] at he
        simp only [finish, Res.ret.injEq, Prod.mk.injEq] at he
        obtain ⟨rfl, he⟩ := he
        have := h1 d' e' hg (by
          cases e' with
          | some e' => exact .inl (by simp)
          | none =>
            right
            simp only [Option.isNone_none, Bool.and_true, decide_eq_true_eq] at he
            split at he
            · omega
            · cases he)
        rw [if_neg (by omega)]
        omega

theorem lasting_step {K : PosKind σ} (hK : GetShort K) {n : Nat} {s : PosSys σ} (hi : PosInv s) (hs : Lasting K n s) (op : Op) :
    Lasting K n (Pos.step K s op).1 := by
  unfold Pos.step
  cases hb : s.heap[op.h]? with
  | none => exact hs
  | some b =>
    have hbo := hi.off b (List.mem_of_getElem? hb)
    cases op with
    | remaining h => exact hs
    | unwrap h => exact hs
    | writeTo h w => exact hs
    | readAt h k off =>
      simp only [Op.h] at hb ⊢
      unfold Pos.readAt
      by_cases hc : b.closed = true
      · simp only [hc, if_true]; exact hs
      have hc : b.closed = false := by simpa using hc
      by_cases ho : off < 0
      · simp only [hc, Bool.false_eq_true, if_false, ho, if_true]; exact hs
      simp only [hc, Bool.false_eq_true, if_false, ho]
      generalize hr : Pos.attempt K s.common k off = r
      obtain ⟨c', r⟩ := r
      obtain ⟨h1, h2, h3⟩ := attempt_common K _ _ _ hr
      obtain ⟨l1, l2⟩ := hs (posOpen_pos hb hc)
      have h4 := (attempt_lasting hK (hi.live (posOpen_pos hb hc)) l1 l2 k (by omega) hr).1
      have hplain : Lasting K n { s with common := c' } := fun _ => ⟨by simp only; rw [h1]; exact l1, h4⟩
      cases r with
      | panic p => exact hplain
      | hang => exact hplain
      | ret de => exact hplain
    | read h k =>
      simp only [Op.h] at hb ⊢
      unfold Pos.read
      by_cases hc : b.closed = true
      · simp only [hc, if_true]; exact hs
      have hc : b.closed = false := by simpa using hc
      cases he : b.err with
      | some e => simp only [hc, Bool.false_eq_true, if_false]; exact hs
      | none =>
        simp only [hc, Bool.false_eq_true, if_false]
        generalize hr : Pos.attempt K s.common k b.offset = r
        obtain ⟨c', r⟩ := r
        obtain ⟨h1, h2, h3⟩ := attempt_common K _ _ _ hr
        obtain ⟨l1, l2⟩ := hs (posOpen_pos hb hc)
        obtain ⟨h4, h5⟩ := attempt_lasting hK (hi.live (posOpen_pos hb hc)) l1 l2 k hbo hr
        have hplain : Lasting K n { s with common := c' } := fun _ => ⟨by simp only; rw [h1]; exact l1, h4⟩
        cases r with
        | panic p => exact hplain
        | hang => exact hplain
        | ret de =>
          obtain ⟨d, e⟩ := de
          simp only
          rw [l1]
          obtain ⟨g1, g2, g3, g4⟩ := served_common s h b c' ((if b.offset > n then (n : Int) else b.offset) + (d.length : Int)) d e
          intro _
          rw [g3, g4]
          refine ⟨?_, h4⟩
          cases e with
          | none => simp [h1, l1]
          | some e =>
            rw [h5 d e rfl, h1, l1]
            simp
    | seek h off wh =>
      simp only [Op.h] at hb ⊢
      rcases pos_seek_cases s h b off wh hi.len with ⟨e, h1⟩ | ⟨hc, o, h1, _, h2⟩
      · rw [h1]; exact hs
      · rw [h2]; exact fun _ => hs (posOpen_pos hb hc)
    | copy h =>
      simp only [Op.h] at hb ⊢
      by_cases hc : b.closed = true
      · simp only [hc, if_true]; exact hs
      · have hc : b.closed = false := by simpa using hc
        simp only [hc, Bool.false_eq_true, if_false]
        exact fun _ => hs (posOpen_pos hb hc)
    | close h =>
      simp only [Op.h] at hb ⊢
      by_cases hc : b.closed = true
      · simp only [hc, if_true]; exact hs
      · have hc : b.closed = false := by simpa using hc
        simp only [hc, Bool.false_eq_true, if_false]
        have hcount := posOpen_set (b' := { closed := true }) hb
        simp only [hc, Bool.false_eq_true, if_false, if_true] at hcount
        have hcnt := hi.cnt
        intro hpos
        simp only at hpos
        unfold Pos.unref
        rw [if_pos (by omega)]
        exact hs (posOpen_pos hb hc)

theorem lasting_run {K : PosKind σ} (hK : GetShort K) {n : Nat} (ops : List Op) {s : PosSys σ} (hi : PosInv s) (hs : Lasting K n s) :
    Lasting K n (run (Pos.step K) s ops).1 := by
  induction ops generalizing s with
  | nil => exact hs
  | cons op ops ih => rw [run_cons]; exact ih (posInv_step K s op hi) (lasting_step hK hi hs op)

/-- A `Read` after a `Seek` to `p`, where another Body stands at the end. -/
theorem probe {K : PosKind σ} (hK : GetShort K) {n : Nat} (hn : n < 2 ^ 63) {s : PosSys σ} {b0 b1 : PosBody} (hh : s.heap = [b0, b1])
    (hc : b0.closed = false) (hr : s.common.hasR = true) (hL : s.common.length = n) (p x : Nat) (hp : p < n) (hx : p + x ≤ n) :
    let s' := (run (Pos.step K) s [.seek 0 p 0, .read 0 (if p + x = n then x + 1 else x)]).1
    (∃ b, s'.heap = [b, b1] ∧ b.closed = false) ∧ s'.common.hasR = true ∧ s'.common.rdr = (K.get s.common.rdr x p).1 ∧
    (s'.common.length = n ∨ s'.common.length < n) ∧
    (∀ d e, (K.get s.common.rdr x p).2 = .ret (d, e) → e ≠ none ∨ p + x = n → s'.common.length = p + d.length) := by
  intro s'
  obtain ⟨⟨hasR, rdr, length, rc⟩, heap⟩ := s
  obtain ⟨er, o, cl⟩ := b0
  simp only at hh hc hr hL
  subst hh hc hr hL
  generalize hk : (if p + x = n then x + 1 else x) = k at s'
  have hkx : min k ((n : Int) - p).toNat = x := by rw [← hk]; split <;> omega
  have hs' : s' = (Pos.step K { common := { rdr := rdr, length := n, refcnt := rc }, heap := [{ offset := p }, b1] } (.read 0 k)).1 := by
    show (run _ _ _).1 = _
    rw [run_cons, run_cons, run_nil]
    simp only [Pos.step, Op.h, List.getElem?_cons_zero, Pos.seek, ReaderAtBody.seek, ReaderAtBody.commonRemaining]
    simp only [Bool.false_eq_true, if_false, true_and, if_neg (show ¬ ((p : Int) < 0) by omega), if_neg (show ¬ ((p : Int) > n) by omega), if_true,
      ne_eq, not_true_eq_false, false_and, List.set_cons_zero, List.getElem?_cons_zero, hk]
  clear_value s'
  subst hs'
  simp only [Pos.step, Op.h, List.getElem?_cons_zero, Pos.read, Bool.false_eq_true, if_false]
  rw [attempt_mid rfl (show (p : Int) < n by omega)]
  simp only
  rw [hkx]
  cases hg : (K.get rdr x p).2 with
  | panic q => exact ⟨⟨_, rfl, rfl⟩, rfl, rfl, .inl rfl, by simp⟩
  | hang => exact ⟨⟨_, rfl, rfl⟩, rfl, rfl, .inl rfl, by simp⟩
  | ret de =>
    obtain ⟨d, e⟩ := de
    have hd := hK _ _ _ _ _ hg
    simp only [finish]
    rw [if_neg (show ¬ ((p : Int) > n) by omega)]
    generalize he' : (if (decide ((n : Int) - p < (k : Int)) && e.isNone) = true then some Err.eof else e) = e'
    generalize hS : ({ common := { rdr := rdr, length := (n : Int), refcnt := rc }, heap := [{ offset := p }, b1] } : PosSys σ) = S
    have hSh : S.heap = [{ offset := p }, b1] := by rw [← hS]
    generalize hC : ({ rdr := (K.get rdr x p).1, length := (n : Int), refcnt := rc } : PosCommon σ) = C
    obtain ⟨g1, g2, g3, g4⟩ := served_common S 0 { offset := (p : Int) } C ((p : Int) + d.length) d e'
    have g5 := (served_heap S 0 { offset := (p : Int) } C ((p : Int) + d.length) d e').1
    rw [g5, g2, g3, g4, hSh, ← hC]
    simp only
    refine ⟨⟨_, rfl, rfl⟩, trivial, trivial, ?_, fun d' f hdf hor => ?_⟩
    · split
      · rename_i h; exact .inr h.2
      · exact .inl rfl
    · simp only [Res.ret.injEq, Prod.mk.injEq] at hdf
      obtain ⟨rfl, rfl⟩ := hdf
      have hsome : e'.isSome = true := by
        rw [← he']
        cases e with
        | some e => simp
        | none =>
          have hpx : p + x = n := by
            rcases hor with h | h
            · exact absurd rfl h
            · exact h
          rw [if_pos hpx] at hk
          rw [if_pos (by simp only [Option.isNone_none, Bool.and_true, decide_eq_true_eq]; omega)]
          rfl
      simp only [hsome, true_and]
      split <;> omega

theorem run_append_fst {S O Q : Type} (step : S → O → S × Q) (s : S) (xs ys : List O) :
    (run step s (xs ++ ys)).1 = (run step (run step s xs).1 ys).1 := by rw [run_append]

theorem pos_nonneg_iff {K : PosKind σ} (hK : GetShort K) (hcl : K.clamp = false) (n : Nat) (hn : n < 2 ^ 63) (st : σ) :
    (∀ ops : List Op, (∀ op ∈ ops, op.Valid) → ∀ h m,
      (Pos.step K (run (Pos.step K) (ReaderAtBody.init st n) ops).1 (.remaining h)).2 = .remaining m → 0 ≤ m) ↔
      ∀ l, Inside n l → Lasts K n st l := by
  constructor
  · intro h l hl
    suffices ∀ (l : List (Nat × Nat)) (s : PosSys σ) (b0 b1 : PosBody), Inside n l → s.heap = [b0, b1] → b0.closed = false → b1.closed = false →
        b1.offset = n → s.common.hasR = true → s.common.length = n →
        (∀ ops : List Op, (∀ op ∈ ops, op.Valid) → ∀ h m, (Pos.step K (run (Pos.step K) s ops).1 (.remaining h)).2 = .remaining m → 0 ≤ m) →
          Lasts K n s.common.rdr l by
      have e : (run (Pos.step K) (ReaderAtBody.init st n) [.copy 0, .seek 1 n 0]).1 =
          { common := { rdr := st, length := n, refcnt := 2 }, heap := [{}, { offset := n }] } := by
        simp only [run_cons, run_nil, Pos.step, Op.h, ReaderAtBody.init, ReaderAtBody.ref, List.getElem?_cons_zero, Pos.seek, ReaderAtBody.seek,
          ReaderAtBody.commonRemaining]
        simp only [List.cons_append, List.nil_append, List.length_cons, List.length_nil, List.getElem?_cons_succ, List.getElem?_cons_zero,
          Bool.false_eq_true, if_false, true_and, if_neg (show ¬ ((n : Int) < 0) by omega), if_neg (show ¬ ((n : Int) > n) by omega), if_true,
          ne_eq, not_true_eq_false, false_and, List.set_cons_succ, List.set_cons_zero]
        rfl
      have := this l (run (Pos.step K) (ReaderAtBody.init st n) [.copy 0, .seek 1 n 0]).1 {} { offset := n } hl (by rw [e]) rfl rfl rfl
        (by rw [e]) (by rw [e]) (by
          intro ops hv g m hm
          rw [← run_append_fst] at hm
          refine h _ ?_ g m hm
          intro op ho
          simp only [List.cons_append, List.nil_append, List.mem_cons] at ho
          rcases ho with rfl | rfl | ho
          · trivial
          · simp only [Op.Valid, IsI64]; omega
          · exact hv op ho)
      rw [e] at this
      exact this
    intro l
    induction l with
    | nil => intros; trivial
    | cons q l ih =>
      intro s b0 b1 hl hh hc0 hc1 ho hr hL h
      obtain ⟨p, x⟩ := q
      obtain ⟨i1, i2⟩ := hl (p, x) (by simp)
      simp only at i1 i2
      obtain ⟨⟨b, p1, p2⟩, p3, p4, p5, p6⟩ := probe hK hn hh hc0 hr hL p x i1 i2
      have hv : ∀ op ∈ ([.seek 0 p 0, .read 0 (if p + x = n then x + 1 else x)] : List Op), op.Valid := by
        intro op ho
        simp only [List.mem_cons, List.not_mem_nil, or_false] at ho
        rcases ho with rfl | rfl
        · simp only [Op.Valid, IsI64]; omega
        · trivial
      have hnn := h _ hv 1
      generalize hq : (run (Pos.step K) s [.seek 0 p 0, .read 0 (if p + x = n then x + 1 else x)]).1 = s' at *
      have hlen : s'.common.length = n := by
        have := hnn (s'.common.length - n) (by simp [Pos.step, Op.h, p1, Pos.remaining, hc1, hcl, ho])
        omega
      constructor
      · intro d e hg hor
        have := p6 d e hg hor
        omega
      · rw [← p4]
        refine ih s' b b1 (fun q hq => hl q (by simp [hq])) p1 p2 hc1 ho p3 hlen ?_
        intro ops hops g m hm
        rw [← hq, ← run_append_fst] at hm
        refine h _ ?_ g m hm
        intro op ho
        rcases List.mem_append.1 ho with ho | ho
        · exact hv op ho
        · exact hops op ho
  · intro h ops _ g m hm
    have hi := posInv_run K ops (posInv_init st n)
    have hb := posBound_run hK (by omega : (0 : Int) ≤ n) ops (posInv_init st n)
      ⟨Int.le_refl _, by intro b hb; simp only [ReaderAtBody.init, List.mem_singleton] at hb; subst hb; simp only; omega⟩
    have hs := lasting_run hK ops (posInv_init st n) (n := n) (fun _ => ⟨rfl, h⟩)
    generalize (run (Pos.step K) (ReaderAtBody.init st n) ops).1 = s at *
    simp only [Pos.step, Op.h] at hm
    cases hg : s.heap[g]? with
    | none => simp [hg] at hm
    | some b =>
      simp only [hg, Pos.remaining, hcl, Bool.false_and, Bool.false_eq_true, if_false, Out.remaining.injEq] at hm
      by_cases hc : b.closed = true
      · rw [if_pos hc] at hm; omega
      · rw [if_neg hc] at hm
        have h1 := hb.off b (List.mem_of_getElem? hg)
        have h2 := (hs (posOpen_pos hg (by simpa using hc))).1
        omega

/-- **C20**: `BytesRemaining` of the Bodies over a Reader with `Seek` and without `ReadAt` is never negative if and only if that Reader does not fail
before the end. -/
theorem C20_iff (R : Rdr σ) (n : Nat) (hn : n < 2 ^ 63) (st : σ) :
    (∀ ops : List Op, (∀ op ∈ ops, op.Valid) → ∀ h m,
      (SeekerBody.step R (seekAfter R st n ops) (.remaining h)).2 = .remaining m → 0 ≤ m) ↔ ∀ l, Inside n l → SeekLasts R n st l := by
  simp only [seekAfter, seek_step]
  refine Iff.trans (pos_nonneg_iff (getShort_seek R) rfl n hn st) ?_
  exact forall_congr' fun l => forall_congr' fun hl => lasts_seek R n l hl st

/-- A Reader that has nothing but errors after the first byte does not last; nor one that delivers one byte at a time, once it is asked for all the rest;
one that panics instead does. -/
example : ¬ SeekLasts (shortRdr [1, 2]) 2 0 [(0, 1), (0, 2)] := by
  simp only [SeekLasts, shortRdr, fileRdr]
  simp
example : SeekLasts (shortRdr [1, 2]) 2 0 [(0, 1), (1, 1)] := by
  simp only [SeekLasts, shortRdr, fileRdr]
  simp

def angryRdr : Rdr Nat := { fileRdr [] with read := fun p _ => (p, .panics .badArg) }

theorem angryRdr_lasts (n : Nat) (l : List (Nat × Nat)) (st : Nat) : SeekLasts angryRdr n st l := by
  induction l generalizing st with
  | nil => trivial
  | cons q l ih =>
    obtain ⟨p, x⟩ := q
    exact ⟨fun d e h => by simp [angryRdr] at h, ih _⟩

example (ops : List Op) (hv : ∀ op ∈ ops, op.Valid) (h : Nat) (m : Int)
    (hm : (SeekerBody.step angryRdr (seekAfter angryRdr 0 5 ops) (.remaining h)).2 = .remaining m) : 0 ≤ m :=
  (C20_iff angryRdr 5 (by decide) 0).2 (fun l _ => angryRdr_lasts 5 l 0) ops hv h m hm

/-! ## C17 -/

/-- A Read from the start of the content. -/
theorem at_first_read (R : Rdr σ) (st st' : σ) (n k : Nat) (rc : Int) (d : List Byte) (e : Option Err) (hn : 0 < n) (hd : d.length ≤ min k n)
    (h : Nat) (heap : List PosBody) (hr : R.readAt st (min k n) 0 = (st', .got d e)) :
    ReaderAtBody.read R ⟨{ rdr := st, length := n, refcnt := rc }, heap⟩ h {} k =
      match (if n < k ∧ e = none then some Err.eof else e) with
      | none => (⟨{ rdr := st', length := n, refcnt := rc }, heap.set h { offset := d.length }⟩, .read d none)
      | some e => (⟨{ rdr := st', length := if d.length < n then d.length else n, refcnt := rc },
          heap.set h { err := some e, offset := d.length }⟩, .read d (some e)) := by
  have hg : ∀ m : Nat, m ≤ k → goSlice (List.replicate k (0 : Byte)) 0 (m : Int) = some (List.replicate m 0) := by
    intro m hm
    have : min m k = m := by omega
    simp [goSlice, hm, this]
  have hgt : ¬ ((0 : Int) > n) := by omega
  have hav : (n : Int) - 0 > 0 := by omega
  have hx : (if decide ((k : Int) > (n : Int) - 0) = true then ((n : Int) - 0) else (k : Int)) = ((min k n : Nat) : Int) := by
    by_cases h : n < k
    · rw [if_pos (by simp; omega)]; omega
    · rw [if_neg (by simp; omega)]; omega
  simp only [ReaderAtBody.read, Bool.false_eq_true, if_false, if_neg hgt, if_pos hav, hx, hg _ (Nat.min_le_left k n),
    ReaderAtBody.commonReadAt, Bool.not_true, List.length_replicate, hr, hd, not_true, if_false]
  have hdec : (decide ((k : Int) > (n : Int) - 0) && e.isNone) = decide (n < k ∧ e = none) := by
    cases e <;> simp
  rw [hdec]
  by_cases hc : n < k ∧ e = none
  · simp only [hc, and_self, decide_true, if_true, Int.ofNat_lt, Int.zero_add]
    split <;> rfl
  · simp only [hc, decide_false, Bool.false_eq_true, if_false]
    cases e with
    | none => simp
    | some x =>
      simp only [Int.zero_add, Int.ofNat_lt]
      split <;> rfl

/-- **C17**, what happens to the other copies: a Read on one copy fails after `d` (the reader being well-behaved from then on).  What
another copy then delivers is the content cut off where the failing Read stopped. -/
theorem C17_cut {R : Rdr σ} {F : List Byte} {Inv : σ → Prop} (hR : IsReaderAt R F Inv) (st : σ) (d : List Byte) (e : Err) (k : Nat)
    (hd : d.length ≤ min k F.length) (hF : F ≠ [])
    (hfail : (R.readAt st (min k F.length) 0).2 = .got d (some e)) (hi : Inv (R.readAt st (min k F.length) 0).1) :
    ∃ e', atOuts R st F.length [.copy 0, .read 0 k, .read 1 F.length] =
      [.copied 1, .read d (some e), .read (F.take d.length) e'] ∧ (d.length < F.length → e' = some .eof) := by
  have hF0 : 0 < F.length := List.length_pos_iff.2 hF
  rcases hr : R.readAt st (min k F.length) 0 with ⟨st', a⟩
  rw [hr] at hfail hi
  simp only at hfail hi
  subst hfail
  have hs : ∀ (s : PosSys σ) h b j, s.heap[h]? = some b → ReaderAtBody.step R s (.read h j) = ReaderAtBody.read R s h b j := by
    intro s h b j hb
    simp only [ReaderAtBody.step, Op.h, hb]
  have hc : ReaderAtBody.step R (ReaderAtBody.init st F.length) (.copy 0) =
      (⟨{ rdr := st, length := F.length, refcnt := 2 }, [{}, {}]⟩, .copied 1) := rfl
  have hlen : (if d.length < F.length then (d.length : Int) else (F.length : Int)) = d.length := by split <;> omega
  have h1 : ReaderAtBody.step R ⟨{ rdr := st, length := F.length, refcnt := 2 }, [{}, {}]⟩ (.read 0 k) =
      (⟨{ rdr := st', length := d.length, refcnt := 2 }, [{ err := some e, offset := d.length }, {}]⟩, .read d (some e)) := by
    rw [hs _ 0 {} k rfl, at_first_read R st st' F.length k 2 d (some e) hF0 hd 0 [{}, {}] hr]
    simp only [reduceCtorEq, and_false, if_false, hlen]
    rfl
  simp only [atOuts, run, hc, h1]
  rw [hs _ 1 {} F.length rfl]
  by_cases h0 : d.length = 0
  · have hd0 : d = [] := List.length_eq_zero_iff.1 h0
    subst hd0
    refine ⟨some .eof, ?_, fun _ => rfl⟩
    simp [ReaderAtBody.read]
    rw [if_pos hF0]
  · obtain ⟨st2, e2, h2, -, h4, -, h5⟩ := hR.readAt st' d.length 0 hi (by omega) (by omega)
    have hm : min F.length d.length = d.length := by omega
    have h3 := at_first_read R st' st2 d.length F.length 2 (F.take d.length) e2 (by omega)
      (by rw [List.length_take]; omega) 1 [{ err := some e, offset := (d.length : Int) }, {}] (by rw [hm]; simpa using h2)
    rw [h3]
    refine ⟨if d.length < F.length ∧ e2 = none then some .eof else e2, ?_, ?_⟩
    · cases (if d.length < F.length ∧ e2 = none then some Err.eof else e2) <;> rfl
    · intro hlt
      rcases h5 with h5 | h5 <;> simp [h5, hlt]

/-- **C17**, exactly when it holds: the other copy delivers all of the content if and only if the failing Read did. -/
theorem C17_iff {R : Rdr σ} {F : List Byte} {Inv : σ → Prop} (hR : IsReaderAt R F Inv) (st : σ) (d : List Byte) (e : Err) (k : Nat)
    (hd : d.length ≤ min k F.length) (hF : F ≠ [])
    (hfail : (R.readAt st (min k F.length) 0).2 = .got d (some e)) (hi : Inv (R.readAt st (min k F.length) 0).1) :
    (∃ o o' e', atOuts R st F.length [.copy 0, .read 0 k, .read 1 F.length] = [o, o', .read F e']) ↔ d.length = F.length := by
  obtain ⟨e', h1, -⟩ := C17_cut hR st d e k hd hF hfail hi
  rw [h1]
  constructor
  · rintro ⟨o, o', e2, h2⟩
    simp only [List.cons.injEq, Out.read.injEq, and_true] at h2
    have := congrArg List.length h2.2.2.1
    rw [List.length_take] at this
    omega
  · intro h
    exact ⟨_, _, e', by rw [List.take_of_length_le (Nat.le_of_eq h.symm)]⟩

/-- The failing Read may have delivered something: what it delivered is what remains of the content. -/
def tornRdr (F : List Byte) : Rdr (Bool × Nat) :=
  { flakyRdr F with readAt := fun s x off => if s.1 then (flakyRdr F).readAt s x off else ((true, s.2), .got ((F.drop off.toNat).take 2) (some (.ext 3))) }

example : atOuts (tornRdr [1, 2, 3, 4]) (false, 0) 4 [.copy 0, .read 0 3, .read 1 4] =
    [.copied 1, .read [1, 2] (some (.ext 3)), .read [1, 2] (some .eof)] := by decide +kernel
example : atOuts (tornRdr [1, 2]) (false, 0) 2 [.copy 0, .read 0 3, .read 1 2] =
    [.copied 1, .read [1, 2] (some (.ext 3)), .read [1, 2] none] := by decide +kernel

end Verif
