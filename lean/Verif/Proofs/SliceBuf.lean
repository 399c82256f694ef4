import Verif.Model.SliceBuf
import Verif.Proofs.Slices
import Verif.Proofs.BufRun
import Verif.Proofs.BufCongr

/-! # Stream-backed bodies: the model with slices follows the model with lists -/

set_option autoImplicit false

namespace Verif
variable {σ : Type}

/-- The slice replaced by its bytes. -/
def SBufCommon.abs (m : BMem) (c : SBufCommon σ) : BufCommon σ :=
  { hasR := c.hasR, rdr := c.rdr, err := c.err, bodies := c.bodies, bytes := m.bytes c.bytes, length := c.length, start := c.start, refcnt := c.refcnt }

def SBufSys.abs (s : SBufSys σ) : BufSys σ := { common := s.common.abs s.mem, heap := s.heap }

namespace SBufSys

theorem answer_facts (m : BMem) (p : BSlice) (x : List Byte) (r : RResp) (hp : p.Valid m) :
    (answer m p x r).1.length = m.length ∧ (∀ a, a ≠ p.arr → (answer m p x r).1[a]? = m[a]?) ∧
    (∀ s : BSlice, s.Valid (answer m p x r).1 ↔ s.Valid m) := by
  cases r <;> exact ⟨BMem.length_store _ _ _, fun a h => BMem.get_store_ne _ _ _ a h, fun s => BMem.valid_store _ _ _ _ hp⟩

/-- How the loop of the model with slices relates to that of the other one. -/
structure LoopOK (m : BMem) (arr : Nat) (start : Int) (r : BMem × SBufCommon σ × Option MOut) (q : BufCommon σ × Option Out) : Prop where
  out : r.2.2 = q.2.map .other
  abs : q.1 = r.2.1.abs r.1
  length : r.1.length = m.length
  frame : ∀ a, a ≠ arr → r.1[a]? = m[a]?
  valid : r.2.1.bytes.Valid r.1
  arr : r.2.1.bytes.arr = arr
  start : r.2.1.start = start

theorem readLoop_abs (R : Rdr σ) (w : Scratch σ) (fuel : Nat) (m : BMem) (c : SBufCommon σ) (buf : BSlice) (bl n : Int)
    (hoff : buf.off = 0) (hbl : 0 ≤ bl) (hn : 0 ≤ n) (hcap : (buf.cap : Int) = bl + n) (hA : (m[buf.arr]?.getD []).length = buf.cap)
    (hcb : c.bytes = ⟨buf.arr, 0, bl.toNat, buf.cap⟩) :
    LoopOK m buf.arr c.start (readLoop R w fuel m c buf bl n) (BufSys.readLoop R fuel (c.abs m) n) := by
  induction fuel generalizing m c bl n with
  | zero =>
    have hv : c.bytes.Valid m := by rw [hcb]; constructor <;> simp only <;> omega
    unfold readLoop BufSys.readLoop
    by_cases h1 : n > 0
    · simp only [h1, not_true_eq_false, if_false]
      exact ⟨rfl, rfl, rfl, fun _ _ => rfl, hv, by rw [hcb], rfl⟩
    · simp only [h1, not_false_eq_true, if_true]
      exact ⟨rfl, rfl, rfl, fun _ _ => rfl, hv, by rw [hcb], rfl⟩
  | succ fuel ih =>
    have hv : c.bytes.Valid m := by rw [hcb]; constructor <;> simp only <;> omega
    unfold readLoop BufSys.readLoop
    by_cases h1 : n > 0
    · simp only [h1, not_true_eq_false, if_false]
      have hs : buf.sub bl (bl + n) = some ⟨buf.arr, buf.off + bl.toNat, (bl + n - bl).toNat, buf.cap - bl.toNat⟩ := by
        unfold BSlice.sub; rw [if_pos ⟨hbl, by omega, by omega⟩]
      rw [hs]
      have hl : (bl + n - bl).toNat = n.toNat := by congr 1; omega
      simp only [hoff, Nat.zero_add, hl]
      generalize hp : (⟨buf.arr, bl.toNat, n.toNat, buf.cap - bl.toNat⟩ : BSlice) = p
      have hpl : p.len = n.toNat := by rw [← hp]
      have hpa : p.arr = buf.arr := by rw [← hp]
      have hpo : p.off = bl.toNat := by rw [← hp]
      have hpv : p.Valid m := by rw [← hp]; constructor <;> simp only <;> omega
      have hplt : p.arr < m.length := BMem.arr_lt m p hpv (by rw [← hp]; simp only; omega)
      cases h2 : c.hasR with
      | false =>
        have : (c.abs m).hasR = false := h2
        simp only [this, Bool.not_false, if_true]
        exact ⟨rfl, rfl, rfl, fun _ _ => rfl, hv, by rw [hcb], rfl⟩
      | true =>
        have h2' : (c.abs m).hasR = true := h2
        have e1 : (c.abs m).rdr = c.rdr := rfl
        simp only [h2', e1, Bool.not_true, Bool.false_eq_true, if_false, Rdr.readInto, hpl]
        generalize w c.rdr (m.bytes p) = scr
        obtain ⟨f1, f2, f3⟩ := answer_facts m p scr (R.read c.rdr n.toNat).2 hpv
        rw [hpa] at f2
        -- what was in the buffer before is still there
        have hkeep : (answer m p scr (R.read c.rdr n.toNat).2).1.bytes c.bytes = m.bytes c.bytes := by
          have hb : bl.toNat ≤ (m[buf.arr]?.getD []).length := by omega
          have key : ∀ d : List Byte, (m.store p d).bytes c.bytes = m.bytes c.bytes := by
            intro d
            simp only [BMem.bytes, hcb, List.drop_zero]
            rw [← hpa, BMem.getD_store m p d hplt, hpa, hpo]
            have := overwrite_take (m[buf.arr]?.getD []) bl.toNat (d.take p.len) 0 hb (Nat.zero_le _)
            simpa using this
          cases (R.read c.rdr n.toNat).2 <;> exact key _
        rcases hr : R.read c.rdr n.toNat with ⟨st', resp⟩
        rw [hr] at f1 f2 f3 hkeep
        cases resp with
        | panics q =>
          simp only [answer] at f1 f2 f3 hkeep ⊢
          exact ⟨rfl, by simp only [SBufCommon.abs, hkeep, h2], f1, f2, (f3 _).2 hv, by rw [hcb], rfl⟩
        | negative =>
          simp only [answer] at f1 f2 f3 hkeep ⊢
          have : ¬ (-1 : Int) ≥ 0 := by omega
          simp only [this, not_false_eq_true, if_true]
          exact ⟨rfl, by simp only [SBufCommon.abs, hkeep, h2], f1, f2, (f3 _).2 hv, by rw [hcb], rfl⟩
        | got d err =>
          simp only [answer] at f1 f2 f3 hkeep ⊢
          have h0 : (d.length : Int) ≥ 0 := by omega
          by_cases h3 : (d.length : Int) ≤ n
          · simp only [h0, h3, not_true_eq_false, if_false]
            have hs2 : buf.sub 0 (bl + d.length) = some ⟨buf.arr, 0, (bl + d.length).toNat, buf.cap⟩ := by
              unfold BSlice.sub; rw [if_pos ⟨by omega, by omega, by omega⟩, hoff]; simp
            rw [hs2]
            generalize hm' : m.store p (d ++ scr) = m' at f1 f2 f3 hkeep ⊢
            have hnew : m'.bytes ⟨buf.arr, 0, (bl + d.length).toNat, buf.cap⟩ = m.bytes c.bytes ++ d := by
              rw [← hm']
              simp only [BMem.bytes, hcb, List.drop_zero]
              rw [← hpa, BMem.getD_store m p _ hplt, hpa, hpo]
              have hb : bl.toNat ≤ (m[buf.arr]?.getD []).length := by omega
              have := overwrite_take (m[buf.arr]?.getD []) bl.toNat ((d ++ scr).take p.len) d.length hb
                (by rw [hpl]; simp only [List.length_take, List.length_append]; omega)
              rw [show (bl + (d.length : Int)).toNat = bl.toNat + d.length by omega, this]
              congr 1
              rw [List.take_take, Nat.min_eq_left (by rw [hpl]; omega), List.take_left' rfl]
            have hA' : (m'[buf.arr]?.getD []).length = buf.cap := by
              have hv1 : (⟨buf.arr, 0, 0, buf.cap⟩ : BSlice).Valid m := ⟨Nat.zero_le _, by simp only; omega⟩
              have h4 := BMem.getD_store m p (d ++ scr) hplt
              rw [hm', hpa] at h4
              rw [h4, length_overwrite, hA]
              rw [hpo, hpl, hA]
              simp only [List.length_take]; omega
            have hnl : (m.bytes c.bytes).length = bl.toNat := by rw [BMem.length_bytes m _ hv, hcb]
            cases err with
            | some e =>
              dsimp only
              refine ⟨rfl, ?_, f1, f2, ?_, rfl, rfl⟩
              · simp only [SBufCommon.abs, hnew, h2, List.length_append, hnl, BufCommon.mk.injEq, true_and, and_true]
                omega
              · constructor <;> simp only <;> omega
            | none =>
              dsimp only
              have hle : 0 ≤ bl + (d.length : Int) := by omega
              have := ih m' { c with rdr := st', bytes := ⟨buf.arr, 0, (bl + d.length).toNat, buf.cap⟩ } (bl + d.length) (n - d.length)
                hle (by omega) (by omega) hA' rfl
              have e2 : SBufCommon.abs m' { c with rdr := st', bytes := ⟨buf.arr, 0, (bl + d.length).toNat, buf.cap⟩ } =
                  { c.abs m with rdr := st', bytes := (c.abs m).bytes ++ d } := by simp only [SBufCommon.abs, hnew]
              rw [e2] at this
              simp only [h2, h2'] at this
              exact ⟨this.out, this.abs, by rw [this.length, f1], fun a ha => by rw [this.frame a ha, f2 a ha], this.valid, this.arr, this.start⟩
          · simp only [h0, h3, not_true_eq_false, not_false_eq_true, if_false, if_true]
            exact ⟨rfl, by simp only [SBufCommon.abs, hkeep, h2], f1, f2, (f3 _).2 hv, by rw [hcb], rfl⟩
    · simp only [h1, not_false_eq_true, if_true]
      exact ⟨rfl, rfl, rfl, fun _ _ => rfl, hv, by rw [hcb], rfl⟩

/-- How the block that fills the buffer relates to that of the other model. -/
structure FillOK (m : BMem) (c : SBufCommon σ) (r : BMem × SBufCommon σ × Option MOut × List Nat) (q : BufCommon σ × Option Out) : Prop where
  out : r.2.2.1 = q.2.map .other
  abs : q.1 = r.2.1.abs r.1
  length : m.length ≤ r.1.length
  frame : ∀ a, a < m.length → r.1[a]? = m[a]?
  valid : r.2.1.bytes.Valid r.1
  own : r.2.1.bytes = c.bytes ∨ r.2.1.bytes.arr ∈ r.2.2.2
  fresh : ∀ a ∈ r.2.2.2, m.length ≤ a ∧ a < r.1.length
  start : r.2.1.start = c.start

theorem bytes_append (m : BMem) (s : BSlice) (x : List Byte) (h : s.Valid m) : s.Valid (m ++ [x]) ∧ BMem.bytes (m ++ [x]) s = m.bytes s :=
  BMem.valid_grow _ _ _ h fun _ ha => List.getElem?_append_left ha

/-- The end of the block, after the loop. -/
theorem fill_tail (m : BMem) (c : SBufCommon σ) (eof : Bool) (m2 : BMem) (a : Nat) (st : Int) (r : BMem × SBufCommon σ × Option MOut)
    (q : BufCommon σ × Option Out) (key : LoopOK m2 a st r q) (hst : st = c.start) (hrl : r.1.length = a + 1)
    (hfr : ∀ b, b < m.length → r.1[b]? = m[b]?) (ha : a = m.length := by rfl) :
    FillOK m c
      (match r.2.2 with
        | some o => (r.1, r.2.1, some o, [a])
        | none =>
          if eof ∧ r.2.1.err = none then (r.1, { r.2.1 with length := r.2.1.start + r.2.1.bytes.len, err := some .eof }, none, [a])
          else (r.1, r.2.1, none, [a]))
      (match q.2 with
        | some o => (q.1, some o)
        | none =>
          if eof ∧ q.1.err = none then ({ q.1 with length := q.1.start + q.1.bytes.length, err := some .eof }, none)
          else (q.1, none)) := by
  have ho := key.out
  cases ho2 : q.2 with
  | some o =>
    rw [ho2] at ho
    simp only [ho, Option.map_some]
    exact ⟨rfl, key.abs, by simp only; omega, hfr, key.valid, .inr (by simp [key.arr]), by simp [hrl, ha], key.start.trans hst⟩
  | none =>
    rw [ho2] at ho
    have he1 : q.1.err = r.2.1.err := by rw [key.abs]; rfl
    simp only [ho, Option.map_none, he1]
    by_cases h5 : eof = true ∧ r.2.1.err = none
    · simp only [if_pos h5]
      refine ⟨rfl, ?_, by simp only; omega, hfr, key.valid, .inr (by simp [key.arr]), by simp [hrl, ha], key.start.trans hst⟩
      have hqb : (q.1.bytes.length : Int) = r.2.1.bytes.len := by
        rw [key.abs]; simp only [SBufCommon.abs]; rw [BMem.length_bytes _ _ key.valid]
      rw [hqb, key.abs]
      rfl
    · simp only [if_neg h5]
      exact ⟨rfl, key.abs, by simp only; omega, hfr, key.valid, .inr (by simp [key.arr]), by simp [hrl, ha], key.start.trans hst⟩

theorem fill_abs (R : Rdr σ) (w : Scratch σ) (fuel : Nat) (m : BMem) (c : SBufCommon σ) (e : Int) (hv : c.bytes.Valid m) (h0 : 0 ≤ c.start)
    (he : e - (c.start + c.bytes.len) < 2 ^ 62) : FillOK m c (fill R w fuel m c e) (BufSys.fill R fuel (c.abs m) e) := by
  have hlen : ((c.abs m).bytes.length : Int) = c.bytes.len := by simp only [SBufCommon.abs]; rw [BMem.length_bytes m _ hv]
  have e1 : (c.abs m).start = c.start := rfl
  have e2 : (c.abs m).err = c.err := rfl
  have e3 : (c.abs m).length = c.length := rfl
  unfold fill BufSys.fill
  simp only [hlen, e1, e2, e3]
  by_cases h1 : c.err = none ∧ e > c.start + c.bytes.len
  · simp only [if_pos h1]
    by_cases h2 : c.length ≥ 0 ∧ ¬ c.start + (c.bytes.len : Int) ≤ c.length
    · simp only [if_pos h2]
      exact ⟨rfl, rfl, Nat.le_refl _, fun _ _ => rfl, hv, .inl rfl, by simp, rfl⟩
    · simp only [if_neg h2]
      obtain ⟨r1, -, -⟩ := roundUp_spec (e - (c.start + c.bytes.len)) (by omega) (by omega)
      generalize BufSys.roundUp (e - (c.start + c.bytes.len)) = ru at r1 ⊢
      generalize heof : decide (c.length ≥ 0 ∧ ru ≥ c.length - (c.start + (c.bytes.len : Int))) = eof
      have hn : 0 ≤ (if eof = true then c.length - (c.start + (c.bytes.len : Int)) else ru) := by
        cases eof with
        | true =>
          have := of_decide_eq_true heof
          simp only [if_true]; omega
        | false => simp only [Bool.false_eq_true, if_false]; omega
      generalize (if eof = true then c.length - (c.start + (c.bytes.len : Int)) else ru) = n at hn ⊢
      have hcap : ¬ (c.bytes.len : Int) + n < 0 := by omega
      simp only [if_neg hcap, BMem.make]
      generalize hN : ((c.bytes.len : Int) + n).toNat = N
      have s1 : (⟨m.length, 0, N, N⟩ : BSlice).sub 0 c.bytes.len = some ⟨m.length, 0, c.bytes.len, N⟩ := by
        unfold BSlice.sub; rw [if_pos ⟨by omega, by omega, by simp only; omega⟩]; simp
      have s2 : c.bytes.sub 0 c.bytes.len = some c.bytes := by
        have := hv.1
        unfold BSlice.sub; rw [if_pos ⟨by omega, by omega, by omega⟩]; simp
      simp only [s1, s2]
      obtain ⟨m1, hm1⟩ : ∃ x : BMem, m ++ [List.replicate N (0 : Byte)] = x := ⟨_, rfl⟩
      have hm1l : m1.length = m.length + 1 := by rw [← hm1]; simp
      have hm1n : m1[m.length]?.getD [] = List.replicate N (0 : Byte) := by rw [← hm1]; simp
      obtain ⟨hv1, hb1⟩ := bytes_append m c.bytes (List.replicate N (0 : Byte)) hv
      rw [hm1] at hv1 hb1
      have hdv : (⟨m.length, 0, c.bytes.len, N⟩ : BSlice).Valid m1 := by
        constructor
        · simp only; omega
        · simp only [hm1n, List.length_replicate]; omega
      have hbl := BMem.length_bytes m _ hv
      obtain ⟨m2, hm2⟩ : ∃ x : BMem, BMem.copy m1 ⟨m.length, 0, c.bytes.len, N⟩ c.bytes = x := ⟨_, rfl⟩
      have hm2l : m2.length = m1.length := by rw [← hm2]; exact BMem.length_store _ _ _
      have hm2n : m2[m.length]?.getD [] = overwrite (List.replicate N 0) 0 (m.bytes c.bytes) := by
        have := BMem.getD_store m1 ⟨m.length, 0, c.bytes.len, N⟩ (m1.bytes c.bytes) (by simp only; omega)
        rw [← hm2]
        refine this.trans ?_
        simp only [hm1n, hb1]
        rw [List.take_of_length_le (by omega)]
      have hm2b : m2.bytes ⟨m.length, 0, c.bytes.len, N⟩ = m.bytes c.bytes := by
        simp only [BMem.bytes, hm2n, List.drop_zero]
        have := overwrite_take (List.replicate N 0) 0 (m.bytes c.bytes) c.bytes.len (by simp) (by omega)
        simp only [Nat.zero_add, List.take_zero, List.nil_append] at this
        refine this.trans ?_
        rw [List.take_of_length_le (by omega)]; rfl
      have hm2A : (m2[m.length]?.getD []).length = N := by
        rw [hm2n, length_overwrite _ _ _ (by simp; omega)]; simp
      have hm2f : ∀ a, a < m.length → m2[a]? = m[a]? := by
        intro a ha
        rw [← hm2]
        rw [show BMem.copy m1 ⟨m.length, 0, c.bytes.len, N⟩ c.bytes = m1.store ⟨m.length, 0, c.bytes.len, N⟩ (m1.bytes c.bytes) from rfl,
          BMem.get_store_ne _ _ _ _ (by simp only; omega), ← hm1, List.getElem?_append_left ha]
      have key := readLoop_abs R w fuel m2 { c with bytes := ⟨m.length, 0, c.bytes.len, N⟩ } ⟨m.length, 0, N, N⟩ c.bytes.len n
        rfl (by omega) hn (by simp only; omega) hm2A (by simp)
      have e4 : SBufCommon.abs m2 { c with bytes := ⟨m.length, 0, c.bytes.len, N⟩ } = c.abs m := by simp only [SBufCommon.abs, hm2b]
      rw [e4] at key
      have hfr : ∀ a, a < m.length → (readLoop R w fuel m2 { c with bytes := ⟨m.length, 0, c.bytes.len, N⟩ } ⟨m.length, 0, N, N⟩ c.bytes.len n).1[a]? = m[a]? :=
        fun a ha => by rw [key.frame a (by simp only; omega), hm2f a ha]
      have hl := key.length
      have hrl := hl.trans (hm2l.trans hm1l)
      clear hl hm2f hm2A hm2b hm2n hm2l hv1 hb1 hm1n hm1l hdv e4
      subst hm2
      subst hm1
      exact fill_tail m c eof _ _ _ _ _ key rfl hrl hfr
  · simp only [if_neg h1]
    exact ⟨rfl, rfl, Nat.le_refl _, fun _ _ => rfl, hv, .inl rfl, by simp, rfl⟩

/-! ## The steps that leave the memory alone -/

/-- The slice is either `nil` or in an array of the family. -/
def Mine (own : List Nat) (t : BSlice) : Prop := t = .nil ∨ t.arr ∈ own

theorem sub_mine (own : List Nat) (t u : BSlice) (i j : Int) (h : Mine own t) (hu : t.sub i j = some u) : Mine own u := by
  unfold BSlice.sub at hu
  split at hu
  · rename_i hc
    injection hu with hu
    rcases h with h | h
    · left
      subst h
      rw [← hu]
      simp only [BSlice.nil] at hc ⊢
      simp; omega
    · right; rw [← hu]; exact h
  · cases hu

structure Quiet {α : Type} (m : BMem) (ow : List Nat) (hp : List BufBody) (r : SBufSys σ × α) (q : BufSys σ × α) : Prop where
  abs : r.1.abs = q.1
  out : r.2 = q.2
  mem : r.1.mem = m
  own : r.1.own = ow
  heap : r.1.heap = hp
  valid : r.1.common.bytes.Valid m
  mine : Mine ow r.1.common.bytes
  start : 0 ≤ r.1.common.start

theorem updateStart_abs (s : SBufSys σ) (hv : s.common.bytes.Valid s.mem) (hm : Mine s.own s.common.bytes) (h0 : 0 ≤ s.common.start) :
    Quiet s.mem s.own s.heap s.updateStart s.abs.updateStart := by
  have hlen : ((s.abs).common.bytes.length : Int) = s.common.bytes.len := by
    simp only [SBufSys.abs, SBufCommon.abs]; rw [BMem.length_bytes _ _ hv]
  have e0 : s.abs.offsets = s.offsets := rfl
  have e1 : s.abs.common.start = s.common.start := rfl
  have e2 : s.abs.common.bytes = s.mem.bytes s.common.bytes := rfl
  unfold updateStart BufSys.updateStart
  simp only [hlen, e0, e1]
  by_cases h1 : (s.offsets.foldl BufSys.scan (0, 0)).1 ≥ s.common.start
  · simp only [h1, not_true_eq_false, if_false]
    by_cases h2 : (s.offsets.foldl BufSys.scan (0, 0)).2 ≥ 1
    · simp only [h2, not_true_eq_false, if_false]
      rw [e2, BMem.sub_bytes _ _ _ _ hv (by omega)]
      cases hs : s.common.bytes.sub ((s.offsets.foldl BufSys.scan (0, 0)).1 - s.common.start) s.common.bytes.len with
      | none => exact ⟨rfl, rfl, rfl, rfl, rfl, hv, hm, h0⟩
      | some t =>
        exact ⟨rfl, rfl, rfl, rfl, rfl, (BMem.sub_valid _ _ _ _ _ hv hs).1, sub_mine _ _ _ _ _ hm hs, by simp only; omega⟩
    · simp only [h2, not_false_eq_true, if_true]
      exact ⟨rfl, rfl, rfl, rfl, rfl, hv, hm, h0⟩
  · simp only [h1, not_false_eq_true, if_true]
    exact ⟨rfl, rfl, rfl, rfl, rfl, hv, hm, h0⟩

theorem advance_abs (s : SBufSys σ) (o n : Int) (hv : s.common.bytes.Valid s.mem) (hm : Mine s.own s.common.bytes) (h0 : 0 ≤ s.common.start) :
    Quiet s.mem s.own s.heap (s.advance o n) (s.abs.advance o n) := by
  have hlen : ((s.abs).common.bytes.length : Int) = s.common.bytes.len := by
    simp only [SBufSys.abs, SBufCommon.abs]; rw [BMem.length_bytes _ _ hv]
  have e1 : s.abs.common.start = s.common.start := rfl
  have e3 : s.abs.common.refcnt = s.common.refcnt := rfl
  unfold advance BufSys.advance
  simp only [hlen, e1, e3]
  split
  · exact ⟨rfl, rfl, rfl, rfl, rfl, hv, hm, h0⟩
  split
  · exact ⟨rfl, rfl, rfl, rfl, rfl, hv, hm, h0⟩
  split
  · exact ⟨rfl, rfl, rfl, rfl, rfl, hv, hm, h0⟩
  split
  · split
    · exact updateStart_abs { s with common := { s.common with refcnt := s.common.refcnt - 1 } } hv hm h0
    · exact ⟨rfl, rfl, rfl, rfl, rfl, hv, hm, h0⟩
  · exact ⟨rfl, rfl, rfl, rfl, rfl, hv, hm, h0⟩

theorem unref_abs (R : Rdr σ) (s : SBufSys σ) (h : Nat) (b : BufBody) (hv : s.common.bytes.Valid s.mem) (hm : Mine s.own s.common.bytes)
    (h0 : 0 ≤ s.common.start) : Quiet s.mem s.own s.heap (unref R s h b) (BufSys.unref R s.abs h b) := by
  have e1 : s.abs.common.start = s.common.start := rfl
  have e2 : s.abs.common.bodies = s.common.bodies := rfl
  have e3 : s.abs.common.refcnt = s.common.refcnt := rfl
  have e4 : s.abs.common.hasR = s.common.hasR := rfl
  have e5 : s.abs.common.rdr = s.common.rdr := rfl
  unfold unref BufSys.unref
  simp only [e1, e2, e3, e4, e5]
  split
  · split
    · split
      · have := updateStart_abs { s with common := { s.common with refcnt := s.common.refcnt - 1, bodies := s.common.bodies.filter (· ≠ h) } } hv hm h0
        exact ⟨this.abs, by have := this.out; exact congrArg (fun x => ((none : Option Err), x)) this, this.mem, this.own, this.heap, this.valid,
          this.mine, this.start⟩
      · exact ⟨rfl, rfl, rfl, rfl, rfl, hv, hm, h0⟩
    · exact ⟨rfl, rfl, rfl, rfl, rfl, hv, hm, h0⟩
  · split
    · cases (R.close s.common.rdr).2 with
      | ok e =>
        refine ⟨?_, rfl, rfl, rfl, rfl, BSlice.nil_valid _, .inl rfl, Int.le_refl _⟩
        simp only [SBufSys.abs, SBufCommon.abs, BMem.bytes_nil]
      | panics p =>
        refine ⟨?_, rfl, rfl, rfl, rfl, BSlice.nil_valid _, .inl rfl, Int.le_refl _⟩
        simp only [SBufSys.abs, SBufCommon.abs, BMem.bytes_nil]
    · refine ⟨?_, rfl, rfl, rfl, rfl, BSlice.nil_valid _, .inl rfl, Int.le_refl _⟩
      simp only [SBufSys.abs, SBufCommon.abs, BMem.bytes_nil]

/-! ## Whole calls -/

/-- What holds between calls. -/
structure Inv (s : SBufSys σ) : Prop where
  valid : s.common.bytes.Valid s.mem
  mine : Mine s.own s.common.bytes
  old : ∀ a ∈ s.own, a < s.mem.length
  start : 0 ≤ s.common.start

/-- `r` returned the same as `q`; the bytes are at the front of `p`. -/
def SameOut (m : BMem) (p : BSlice) : MOut → Out → Prop
  | .read n e, .read d e' => e = e' ∧ n = d.length ∧ d.length ≤ p.len ∧ (m.bytes p).take d.length = d
  | .other (.read _ _), _ => False
  | .other o, o' => o = o'
  | .read _ _, _ => False

/-- How a call on the model with slices relates to that on the model with lists.  `d` is what was stored at the front of `p`. -/
structure StepOK (m : BMem) (own : List Nat) (p : BSlice) (late : Out → Prop) (r : SBufSys σ × MOut) (q : BufSys σ × Out) : Prop where
  abs : r.1.abs = q.1
  out : SameOut r.1.mem p r.2 q.2
  inv : r.1.Inv
  length : m.length ≤ r.1.mem.length
  kept : ∀ a ∈ own, a ∈ r.1.own
  fresh : ∀ a ∈ r.1.own, a ∉ own → m.length ≤ a
  frame : ∃ d, d.length ≤ p.len ∧ (∀ a, a < m.length → a ∉ own → r.1.mem[a]? = (m.store p d)[a]?) ∧
    (∀ d' e, q.2 = .read d' e → d = d') ∧ ((∀ d' e, q.2 ≠ .read d' e) → ¬ late q.2 → d = [])

/-- A call that stored nothing. -/
theorem StepOK.quiet (s : SBufSys σ) (own : List Nat) (p : BSlice) (late : Out → Prop) (r : SBufSys σ × Out) (q : BufSys σ × Out) (hs : ∀ a ∈ own, a < s.mem.length)
    (h : Quiet s.mem own r.1.heap r q) (hne : ∀ d e, q.2 ≠ .read d e) : StepOK s.mem own p late (r.1, MOut.other r.2) q := by
  refine ⟨h.abs, ?_, ⟨h.mem ▸ h.valid, h.own ▸ h.mine, ?_, h.start⟩, by rw [h.mem]; exact Nat.le_refl _, ?_, ?_, [], Nat.zero_le _, ?_, ?_, fun _ _ => rfl⟩
  · have := h.out
    cases hq : q.2 <;> rw [hq] at this hne <;> simp only [this, SameOut]
    exact absurd rfl (hne _ _)
  · intro a ha; rw [h.own] at ha; rw [h.mem]; exact hs a ha
  · intro a ha; rw [h.own]; exact ha
  · intro a ha hn; rw [h.own] at ha; exact absurd ha hn
  · intro a _ _
    rw [h.mem]; simp only [BMem.store, List.take_nil, overwrite_nil]
    by_cases hl : p.arr < s.mem.length
    · simp [hl]
    · rw [List.set_eq_of_length_le (by omega)]
  · intro d' e hd; exact absurd hd (hne d' e)

theorem store_nil (m : BMem) (p : BSlice) : m.store p [] = m := by
  simp only [BMem.store, List.take_nil, overwrite_nil]
  by_cases hl : p.arr < m.length
  · simp [hl]
  · rw [List.set_eq_of_length_le (by omega)]

/-- Storing into a slice that is not the family's. -/
theorem store_mine (m : BMem) (own : List Nat) (p t : BSlice) (d : List Byte) (hp : p.Valid m) (hna : p.cap = 0 ∨ p.arr ∉ own) (ht : Mine own t) (hv : t.Valid m) :
    (m.store p d).bytes t = m.bytes t ∧ t.Valid (m.store p d) := by
  refine ⟨?_, (BMem.valid_store _ _ _ _ hp).2 hv⟩
  rcases hna with h | h
  · rw [BMem.store_empty _ _ _ (by have := hp.1; omega)]
  · rcases ht with ht | ht
    · subst ht; rw [BMem.bytes_nil, BMem.bytes_nil]
    · exact BMem.bytes_congr _ _ _ (BMem.get_store_ne _ _ _ _ (fun hc => h (hc ▸ ht)))

theorem finishRead_abs (s : SBufSys σ) (h : Nat) (b : BufBody) (p : BSlice) (hi : s.Inv) (hp : p.Valid s.mem) (hna : p.cap = 0 ∨ p.arr ∉ s.own) :
    StepOK s.mem s.own p (fun o => ∃ q, o = .panic q) (s.finishRead h b p) (s.abs.finishRead h b p.len) := by
  have hlen : ((s.abs).common.bytes.length : Int) = s.common.bytes.len := by
    simp only [SBufSys.abs, SBufCommon.abs]; rw [BMem.length_bytes _ _ hi.valid]
  have e1 : s.abs.common.start = s.common.start := rfl
  have e2 : s.abs.common.bytes = s.mem.bytes s.common.bytes := rfl
  have e3 : s.abs.common.err = s.common.err := rfl
  have e4 : s.abs.heap = s.heap := rfl
  unfold finishRead BufSys.finishRead
  simp only [hlen, e1, e3, e4]
  generalize hsh : decide (b.offset + (p.len : Int) > s.common.start + (s.common.bytes.len : Int)) = short
  have hE : (if short = true then s.common.start + (s.common.bytes.len : Int) else b.offset + p.len) ≤ s.common.start + (s.common.bytes.len : Int) ∧
      (if short = true then s.common.start + (s.common.bytes.len : Int) else b.offset + p.len) ≤ b.offset + p.len := by
    cases short with
    | true => have := of_decide_eq_true hsh; simp only [if_true]; omega
    | false => have := of_decide_eq_false hsh; simp only [Bool.false_eq_true, if_false]; omega
  generalize (if short = true then s.common.start + (s.common.bytes.len : Int) else b.offset + p.len) = E at hE ⊢
  generalize (if short = true then s.common.err else none) = er
  generalize (if short = true then ({ b with eof := true } : BufBody) else b) = b1
  rw [e2, BMem.sub_bytes _ _ _ _ hi.valid (by omega)]
  have hpl := hp.1
  by_cases hx : 0 ≤ E - s.common.start - (b.offset - s.common.start)
  · have g1 : goSlice (List.replicate p.len (0 : Byte)) 0 (E - s.common.start - (b.offset - s.common.start)) =
        some (((List.replicate p.len (0 : Byte)).drop (0 : Int).toNat).take (E - s.common.start - (b.offset - s.common.start) - 0).toNat) := by
      unfold goSlice; rw [if_pos ⟨by omega, hx, by simp; omega⟩]
    have g2 : p.sub 0 (E - s.common.start - (b.offset - s.common.start)) =
        some ⟨p.arr, p.off + (0 : Int).toNat, (E - s.common.start - (b.offset - s.common.start) - 0).toNat, p.cap - (0 : Int).toNat⟩ := by
      unfold BSlice.sub; rw [if_pos ⟨by omega, hx, by omega⟩]
    rw [g1, g2]
    cases hs : s.common.bytes.sub (b.offset - s.common.start) (E - s.common.start) with
    | none =>
      simp only [Option.map_none]
      exact StepOK.quiet { s with heap := s.heap.set h b1 } s.own p _ ({ s with heap := s.heap.set h b1 }, Out.panic .bounds) _ hi.old
        ⟨rfl, rfl, rfl, rfl, rfl, hi.valid, hi.mine, hi.start⟩ (by intro d e; simp)
    | some src =>
      simp only [Option.map_some]
      obtain ⟨hsv, hsa, hsl, hso, hsc⟩ := BMem.sub_valid _ _ _ _ _ hi.valid hs
      have hdl := BMem.length_bytes _ _ hsv
      have hst : s.mem.copy ⟨p.arr, p.off + (0 : Int).toNat, (E - s.common.start - (b.offset - s.common.start) - 0).toNat, p.cap - (0 : Int).toNat⟩ src =
          s.mem.store p (s.mem.bytes src) := BMem.store_sub _ _ _ _ rfl (by simp) (by simp only; omega) (by omega)
      rw [hst]
      obtain ⟨hb1, hb2⟩ := store_mine s.mem s.own p s.common.bytes (s.mem.bytes src) hp hna hi.mine hi.valid
      have key := advance_abs { s with mem := s.mem.store p (s.mem.bytes src), heap := (s.heap.set h b1).set h { b1 with offset := E } } b.offset E
        hb2 hi.mine hi.start
      have ha : SBufSys.abs { s with mem := s.mem.store p (s.mem.bytes src), heap := (s.heap.set h b1).set h { b1 with offset := E } } =
          { s.abs with heap := (s.heap.set h b1).set h { b1 with offset := E } } := by
        simp only [SBufSys.abs, SBufCommon.abs, hb1]
      rw [ha] at key
      generalize advance { s with mem := s.mem.store p (s.mem.bytes src), heap := (s.heap.set h b1).set h { b1 with offset := E } } b.offset E = r at key ⊢
      generalize BufSys.advance { s.abs with heap := (s.heap.set h b1).set h { b1 with offset := E } } b.offset E = q at key ⊢
      have hinv : r.1.Inv := ⟨key.mem ▸ key.valid, key.own ▸ key.mine,
        by intro a ha; rw [key.own] at ha; rw [key.mem, BMem.length_store]; exact hi.old a ha, key.start⟩
      have hl : s.mem.length ≤ r.1.mem.length := by rw [key.mem, BMem.length_store]; exact Nat.le_refl _
      have hk : ∀ a ∈ s.own, a ∈ r.1.own := by intro a ha; rw [key.own]; exact ha
      have hf : ∀ a ∈ r.1.own, a ∉ s.own → s.mem.length ≤ a := by intro a ha hn; rw [key.own] at ha; exact absurd ha hn
      have ho := key.out
      cases hq2 : q.2 with
      | some pn =>
        rw [hq2] at ho
        rw [ho]
        exact ⟨key.abs, by simp [SameOut], hinv, hl, hk, hf, s.mem.bytes src, by omega, fun a _ _ => by simp only; rw [key.mem], by simp,
          fun _ hn => absurd ⟨pn, rfl⟩ hn⟩
      | none =>
        rw [hq2] at ho
        rw [ho]
        refine ⟨key.abs, ⟨rfl, ?_, by omega, ?_⟩, hinv, hl, hk, hf, s.mem.bytes src, by omega, fun a _ _ => by simp only; rw [key.mem], ?_, ?_⟩
        · omega
        · simp only; rw [key.mem]
          exact BMem.bytes_store_take _ _ _ hp (by omega)
        · intro d' e hd; simp only at hd; injection hd
        · intro hn; exact absurd rfl (hn _ _)
  · have g1 : goSlice (List.replicate p.len (0 : Byte)) 0 (E - s.common.start - (b.offset - s.common.start)) = none := by
      unfold goSlice; rw [if_neg (fun hc => hx hc.2.1)]
    have g2 : p.sub 0 (E - s.common.start - (b.offset - s.common.start)) = none := by
      unfold BSlice.sub; rw [if_neg (fun hc => hx hc.2.1)]
    rw [g1, g2]
    simp only
    exact StepOK.quiet { s with heap := s.heap.set h b1 } s.own p _ ({ s with heap := s.heap.set h b1 }, Out.panic .bounds) _ hi.old
      ⟨rfl, rfl, rfl, rfl, rfl, hi.valid, hi.mine, hi.start⟩ (by intro d e; simp)

theorem readLoop_outs (R : Rdr σ) (fuel : Nat) : ∀ (c : BufCommon σ) (n : Int) (d : List Byte) (e : Option Err),
    (BufSys.readLoop R fuel c n).2 ≠ some (.read d e) := by
  induction fuel with
  | zero =>
    intro c n d e
    unfold BufSys.readLoop
    split <;> simp
  | succ fuel ih =>
    intro c n d e
    unfold BufSys.readLoop
    split
    · simp
    simp only
    split
    · simp
    split
    · simp
    · simp
    · split
      · simp
      split
      · simp
      · exact ih _ _ _ _

theorem fill_outs (R : Rdr σ) (fuel : Nat) (c : BufCommon σ) (n : Int) (d : List Byte) (e : Option Err) : (BufSys.fill R fuel c n).2 ≠ some (.read d e) := by
  unfold BufSys.fill
  simp only
  split
  · split
    · simp
    · split
      · rename_i o ho
        intro hc
        simp only at hc
        rw [← ho] at hc
        exact readLoop_outs R fuel c _ d e hc
      · have key : ∀ (P : Prop) [Decidable P] (a b : BufCommon σ), (if P then (a, (none : Option Out)) else (b, none)).2 = none := by
          intro P _ a b; split <;> rfl
        rw [key]; simp
  · simp

/-- The family could not say what it read: the bytes are in the caller's slice, and `advance` panicked. -/
def Late (R : Rdr σ) (fuel : Nat) (s : BufSys σ) (h : Nat) (b : BufBody) (k : Nat) : Prop :=
  b.closed = false ∧ b.eof = false ∧ (BufSys.fill R fuel s.common (b.offset + k)).2 = none ∧
    ∃ q, (BufSys.finishRead { s with common := (BufSys.fill R fuel s.common (b.offset + k)).1 } h b k).2 = .panic q

theorem read_abs (R : Rdr σ) (w : Scratch σ) (fuel : Nat) (s : SBufSys σ) (h : Nat) (b : BufBody) (p : BSlice) (hi : s.Inv) (hp : p.Valid s.mem)
    (hna : p.cap = 0 ∨ p.arr ∉ s.own) (hsmall : b.closed = false → b.offset + p.len - (s.common.start + s.common.bytes.len) < 2 ^ 62) :
    StepOK s.mem s.own p (fun _ => Late R fuel s.abs h b p.len) (s.read R w fuel h b p) (s.abs.read R fuel h b p.len) := by
  have e1 : s.abs.common.start = s.common.start := rfl
  have e3 : s.abs.common.err = s.common.err := rfl
  have e4 : s.abs.common = s.common.abs s.mem := rfl
  generalize hlate : Late R fuel s.abs h b p.len = late
  unfold read BufSys.read
  by_cases hc : b.closed = true
  · simp only [hc, if_true]
    exact ⟨rfl, ⟨rfl, rfl, Nat.zero_le _, by simp⟩, hi, Nat.le_refl _, fun _ ha => ha, fun _ ha hn => absurd ha hn, [], Nat.zero_le _,
      fun a _ _ => by rw [store_nil], fun d' e hd => by injection hd, fun _ _ => rfl⟩
  simp only [hc, Bool.false_eq_true, if_false]
  by_cases he : b.eof = true
  · simp only [he, if_true]
    exact ⟨rfl, ⟨rfl, rfl, Nat.zero_le _, by simp⟩, hi, Nat.le_refl _, fun _ ha => ha, fun _ ha hn => absurd ha hn, [], Nat.zero_le _,
      fun a _ _ => by rw [store_nil], fun d' e hd => by injection hd, fun _ _ => rfl⟩
  simp only [he, Bool.false_eq_true, if_false, e1]
  by_cases ho : b.offset ≥ s.common.start
  · simp only [ho, not_true_eq_false, if_false, e4]
    have F := fill_abs R w fuel s.mem s.common (b.offset + p.len) hi.valid hi.start (hsmall (by simpa using hc))
    have hl2 : ∀ q, (BufSys.fill R fuel (s.common.abs s.mem) (b.offset + p.len)).2 = none →
        (BufSys.finishRead { s.abs with common := (BufSys.fill R fuel (s.common.abs s.mem) (b.offset + p.len)).1 } h b p.len).2 = .panic q → late :=
      fun q h1 h2 => hlate ▸ ⟨by simpa using hc, by simpa using he, h1, q, h2⟩
    have hne0 := fill_outs R fuel (s.common.abs s.mem) (b.offset + p.len)
    generalize fill R w fuel s.mem s.common (b.offset + p.len) = r at F ⊢
    generalize BufSys.fill R fuel (s.common.abs s.mem) (b.offset + p.len) = q at F hl2 hne0 ⊢
    have hinv : Inv { s with mem := r.1, common := r.2.1, own := s.own ++ r.2.2.2 } := by
      refine ⟨F.valid, ?_, ?_, by simp only; rw [F.start]; exact hi.start⟩
      · rcases F.own with h1 | h1
        · simp only; rw [h1]
          rcases hi.mine with h2 | h2
          · exact .inl h2
          · exact .inr (List.mem_append_left _ h2)
        · exact .inr (List.mem_append_right _ h1)
      · intro a ha
        have hln := F.length
        simp only at ha ⊢
        rcases List.mem_append.1 ha with h1 | h1
        · have := hi.old a h1; omega
        · exact (F.fresh a h1).2
    have hnew : ∀ a ∈ s.own ++ r.2.2.2, a ∉ s.own → s.mem.length ≤ a := by
      intro a ha hn
      rcases List.mem_append.1 ha with h1 | h1
      · exact absurd h1 hn
      · exact (F.fresh a h1).1
    have hout := F.out
    cases hq2 : q.2 with
    | some o =>
      rw [hq2] at hout
      rw [hout]
      simp only [Option.map_some]
      have hne : ∀ d e, o ≠ .read d e := fun d e hc => hne0 d e (by rw [hq2, hc])
      refine ⟨?_, ?_, hinv, F.length, fun a ha => List.mem_append_left _ ha, hnew, [], Nat.zero_le _, ?_, ?_, fun _ _ => rfl⟩
      · simp only [SBufSys.abs, F.abs]
      · simp only
        cases o <;> simp only [SameOut]
        exact absurd rfl (hne _ _)
      · intro a hal _
        rw [store_nil]; exact F.frame a hal
      · intro d' e hd; exact absurd hd (hne d' e)
    | none =>
      rw [hq2] at hout
      rw [hout]
      simp only [Option.map_none]
      have hp' := (BMem.valid_grow _ _ _ hp F.frame).1
      have key := finishRead_abs { s with mem := r.1, common := r.2.1, own := s.own ++ r.2.2.2 } h b p hinv hp' (by
        rcases hna with h1 | h1
        · exact .inl h1
        · by_cases hcap : p.cap = 0
          · exact .inl hcap
          · right
            intro hm
            have := BMem.arr_lt _ _ hp (by omega)
            have := hnew _ hm h1
            omega)
      have ha : SBufSys.abs { s with mem := r.1, common := r.2.1, own := s.own ++ r.2.2.2 } = { s.abs with common := q.1 } := by
        rw [F.abs]; rfl
      rw [ha] at key
      have hl3 := fun x => hl2 x hq2
      generalize finishRead { s with mem := r.1, common := r.2.1, own := s.own ++ r.2.2.2 } h b p = r2 at key ⊢
      generalize BufSys.finishRead { s.abs with common := q.1 } h b p.len = q2 at key hl3 ⊢
      obtain ⟨d, d1, d2, d3, d4⟩ := key.frame
      refine ⟨key.abs, key.out, key.inv, Nat.le_trans F.length key.length, fun a ha => key.kept a (List.mem_append_left _ ha), ?_, d, d1, ?_, d3, ?_⟩
      · intro a ha hn
        by_cases hm : a ∈ s.own ++ r.2.2.2
        · exact hnew a hm hn
        · exact Nat.le_trans F.length (key.fresh a ha hm)
      · intro a hal han
        have hm : a ∉ s.own ++ r.2.2.2 := by
          intro hm; have := hnew a hm han; omega
        have hln := F.length
        rw [d2 a (by simp only; omega) hm]
        exact BMem.store_congr _ _ _ _ _ (F.frame a hal)
      · intro hn hl
        exact d4 hn (fun ⟨x, hx⟩ => hl (hl3 x hx))
  · simp only [ho, not_false_eq_true, if_true]
    exact StepOK.quiet s s.own p _ (s, Out.panic .internal) _ hi.old
      ⟨rfl, rfl, rfl, rfl, rfl, hi.valid, hi.mine, hi.start⟩ (by intro d e; simp)

theorem close_abs (R : Rdr σ) (s : SBufSys σ) (h : Nat) (b : BufBody) (p : BSlice) (hi : s.Inv) :
    StepOK s.mem s.own p (fun _ => False) ((s.close R h b).1, MOut.other (s.close R h b).2) (s.abs.close R h b) := by
  unfold close BufSys.close
  by_cases hc : b.closed = true
  · simp only [hc, if_true]
    exact StepOK.quiet s s.own p _ (s, Out.closed (some .closed)) _ hi.old ⟨rfl, rfl, rfl, rfl, rfl, hi.valid, hi.mine, hi.start⟩ (by intro d e; simp)
  · simp only [hc, Bool.false_eq_true, if_false]
    have U := unref_abs R s h b hi.valid hi.mine hi.start
    generalize unref R s h b = r at U ⊢
    generalize BufSys.unref R s.abs h b = q at U ⊢
    have ho := U.out
    rw [ho]
    cases hq : q.2.2 with
    | some pn =>
      exact StepOK.quiet s s.own p _ (r.1, Out.panic pn) _ hi.old ⟨U.abs, rfl, U.mem, U.own, rfl, U.valid, U.mine, U.start⟩ (by intro d e; simp)
    | none =>
      have ha : q.1.heap = r.1.heap := by rw [← U.abs]; rfl
      refine StepOK.quiet s s.own p _ ({ r.1 with heap := r.1.heap.set h { offset := 0, eof := false, closed := true } }, Out.closed q.2.1) _ hi.old
        ⟨?_, rfl, U.mem, U.own, rfl, U.valid, U.mine, U.start⟩ (by intro d e; simp)
      rw [← U.abs]; rfl

theorem copy_abs (s : SBufSys σ) (b : BufBody) (p : BSlice) (hi : s.Inv) :
    StepOK s.mem s.own p (fun _ => False) ((s.copy b).1, MOut.other (s.copy b).2) (s.abs.copy b) := by
  have e1 : s.abs.common.hasR = s.common.hasR := rfl
  unfold copy BufSys.copy
  simp only [e1]
  split
  · exact StepOK.quiet s s.own p _ (s, Out.copiedClosed) _ hi.old ⟨rfl, rfl, rfl, rfl, rfl, hi.valid, hi.mine, hi.start⟩ (by intro d e; simp)
  split
  · exact StepOK.quiet s s.own p _ (s, Out.panic .nilDeref) _ hi.old ⟨rfl, rfl, rfl, rfl, rfl, hi.valid, hi.mine, hi.start⟩ (by intro d e; simp)
  · refine StepOK.quiet s s.own p _ (_, Out.copied s.heap.length) _ hi.old ⟨?_, rfl, rfl, rfl, rfl, ?_, ?_, ?_⟩ (by intro d e; simp)
    · unfold ref BufSys.ref
      have e3 : s.abs.common.start = s.common.start := rfl
      simp only [e3]
      split <;> rfl
    · unfold ref; simp only; split <;> exact hi.valid
    · unfold ref; simp only; split <;> exact hi.mine
    · unfold ref; simp only; split <;> exact hi.start

/-- A call that the client may make: it has left the family's arrays alone, and does not lend one of them. -/
structure Legal (s : SBufSys σ) (x : MCall) : Prop where
  own : ∀ a ∈ s.own, x.mem[a]? = s.mem[a]?
  valid : x.p.Valid x.mem
  lent : x.p.cap = 0 ∨ x.p.arr ∉ s.own
  len : ∀ h k, x.op = .read h k → k = x.p.len

theorem inv_client (s : SBufSys σ) (x : MCall) (hi : s.Inv) (hx : s.Legal x) :
    Inv { s with mem := x.mem } ∧ SBufSys.abs { s with mem := x.mem } = s.abs := by
  have hb : s.common.bytes.Valid x.mem ∧ x.mem.bytes s.common.bytes = s.mem.bytes s.common.bytes := by
    rcases hi.mine with h | h
    · rw [h]; exact ⟨BSlice.nil_valid _, by rw [BMem.bytes_nil, BMem.bytes_nil]⟩
    · exact ⟨(BMem.valid_congr _ _ _ (hx.own _ h)).1 hi.valid, BMem.bytes_congr _ _ _ (hx.own _ h)⟩
  refine ⟨⟨hb.1, hi.mine, ?_, hi.start⟩, by simp only [SBufSys.abs, SBufCommon.abs, hb.2]⟩
  intro a ha
  have h1 := hi.old a ha
  have h2 := hx.own a ha
  apply Classical.byContradiction
  intro hc
  simp only at hc
  rw [List.getElem?_eq_none (l := x.mem) (by omega), List.getElem?_eq_getElem h1] at h2
  cases h2

/-- The exception in `step_abs`. -/
def LateOp (R : Rdr σ) (fuel : Nat) (s : BufSys σ) (op : Op) : Prop := ∃ h k b, op = .read h k ∧ s.heap[h]? = some b ∧ Late R fuel s h b k

/-- One call. -/
theorem step_abs (R : Rdr σ) (w : Scratch σ) (fuel : Nat) (s : SBufSys σ) (x : MCall) (hi : s.Inv) (hx : s.Legal x)
    (hsmall : ∀ h k b, x.op = .read h k → s.heap[h]? = some b → b.closed = false →
      b.offset + k - (s.common.start + s.common.bytes.len) < 2 ^ 62) :
    StepOK x.mem s.own x.p (fun _ => LateOp R fuel s.abs x.op) (s.step R w fuel x) (s.abs.step R fuel x.op) := by
  obtain ⟨hi', ha⟩ := inv_client s x hi hx
  have hlate : ∀ h k b, x.op = .read h k → s.heap[h]? = some b → Late R fuel s.abs h b k → LateOp R fuel s.abs x.op :=
    fun h k b h1 h2 h3 => ⟨h, k, b, h1, h2, h3⟩
  generalize LateOp R fuel s.abs x.op = late at hlate ⊢
  have hh : s.abs.heap = s.heap := rfl
  have weaken : ∀ (r : SBufSys σ × MOut) (q : BufSys σ × Out), StepOK x.mem s.own x.p (fun _ => False) r q →
      StepOK x.mem s.own x.p (fun _ => late) r q := by
    intro r q h
    obtain ⟨d, d1, d2, d3, d4⟩ := h.frame
    exact ⟨h.abs, h.out, h.inv, h.length, h.kept, h.fresh, d, d1, d2, d3, fun hn _ => d4 hn (fun h => h)⟩
  have still : ∀ o, (∀ d e, o ≠ Out.read d e) → StepOK x.mem s.own x.p (fun _ => late)
      ({ s with mem := x.mem }, MOut.other o) (s.abs, o) := fun o ho =>
    StepOK.quiet { s with mem := x.mem } s.own x.p _ ({ s with mem := x.mem }, o) (s.abs, o) hi'.old
      ⟨ha, rfl, rfl, rfl, rfl, hi'.valid, hi'.mine, hi'.start⟩ ho
  unfold step BufSys.step
  simp only [hh]
  cases hb : s.heap[x.op.h]? with
  | none => exact still _ (by intro d e; simp)
  | some b =>
    simp only
    cases hop : x.op with
    | read h k =>
      simp only
      have hk := hx.len h k hop
      rw [hop] at hb
      have key := read_abs R w fuel { s with mem := x.mem } h b x.p hi' hx.valid hx.lent
        (fun hc => by have := hsmall h k b hop hb hc; rw [hk] at this; exact this)
      rw [ha, ← hk] at key
      obtain ⟨d, d1, d2, d3, d4⟩ := key.frame
      exact ⟨key.abs, key.out, key.inv, key.length, key.kept, key.fresh, d, d1, d2, d3,
        fun hn hl => d4 hn (fun hL => hl (hlate h k b hop hb hL))⟩
    | remaining h => exact still (.remaining (s.abs.bytesRemaining b)) (by intro d e; simp)
    | copy h =>
      have := copy_abs { s with mem := x.mem } b x.p hi'
      rw [ha] at this
      exact weaken _ _ this
    | close h =>
      have := close_abs R { s with mem := x.mem } h b x.p hi'
      rw [ha] at this
      exact weaken _ _ this
    | unwrap h =>
      exact still (s.abs.unwrap b) (by intro d e; unfold BufSys.unwrap; split <;> simp)
    | readAt h k off => exact still _ (by intro d e; simp)
    | seek h off wh => exact still _ (by intro d e; simp)
    | writeTo h f => exact still _ (by intro d e; simp)

/-! ## Histories -/

/-- The state is that of a family whose Reader's calls were logged. -/
def Real (L : Int) (s : SBufSys σ) : Prop := ∃ t : BufSys (Rec σ), WInv L t ∧ s.abs = t.erase

theorem real_small {L : Int} {s : SBufSys σ} (hi : s.Inv) (hr : s.Real L) (h k : Nat) (b : BufBody) (hb : s.heap[h]? = some b) (hc : b.closed = false)
    (hk : k < 2 ^ 62) : b.offset + k - (s.common.start + s.common.bytes.len) < 2 ^ 62 := by
  obtain ⟨t, hw, ht⟩ := hr
  have hh : t.heap = s.heap := (congrArg BufSys.heap ht).symm
  have hbm : b ∈ t.heap := hh ▸ List.mem_of_getElem? hb
  have ha := (hw.alive ⟨b, hbm, hc⟩).core
  have h1 := ha.offs b hbm hc
  have hlenB : t.common.start + (t.common.bytes.length : Int) = (obt t).length := by
    rw [ha.bytes]; simp; have := ha.startLe; have := ha.start0; omega
  have hs : s.common.start = t.common.start := congrArg (fun x : BufSys σ => x.common.start) ht
  have hl : s.mem.bytes s.common.bytes = t.common.bytes := congrArg (fun x : BufSys σ => x.common.bytes) ht
  have := BMem.length_bytes _ _ hi.valid
  rw [hl] at this
  omega

theorem real_not_late (R : Rdr σ) (fuel : Nat) {L : Int} {s : SBufSys σ} (hr : s.Real L) (op : Op) (hs : op.Small) : ¬ LateOp R fuel s.abs op := by
  rintro ⟨h, k, b, rfl, hb, hc, he, hf, q, hq⟩
  obtain ⟨t, hw, ht⟩ := hr
  rw [ht] at hb hf hq
  have hb : t.heap[h]? = some b := hb
  have hbm := List.mem_of_getElem? hb
  have ha := hw.alive ⟨b, hbm, hc⟩
  obtain ⟨hb1, hb2, _⟩ := ha.core.offs b hbm hc
  have hlenB : t.common.start + (t.common.bytes.length : Int) = (obt t).length := by
    rw [ha.core.bytes]; simp; have := ha.core.startLe; have := ha.core.start0; omega
  have hs : k < 2 ^ 62 := hs
  obtain ⟨ext, F, hcore⟩ := core_fill R fuel L t ha.core (b.offset + k) (by omega)
  have e0 : t.erase.common = t.common.erase := rfl
  rw [e0, fill_erase] at hf hq
  have hs1 : SetOk { t with common := (BufSys.fill R.record fuel t.common (b.offset + k)).1 } :=
    ⟨fun i => by show i ∈ (BufSys.fill R.record fuel t.common (b.offset + k)).1.bodies ↔ _; rw [F.bodies]; exact hw.set.mem i,
      by show (BufSys.fill R.record fuel t.common (b.offset + k)).1.bodies.Nodup; rw [F.bodies]; exact hw.set.nodup⟩
  have ha1 : Alive L { t with common := (BufSys.fill R.record fuel t.common (b.offset + k)).1 } :=
    ⟨hcore, by
        show (BufSys.fill R.record fuel t.common (b.offset + k)).1.refcnt = _
        rw [F.refcnt]
        show _ = ((t.heap.countP (atPos (BufSys.fill R.record fuel t.common (b.offset + k)).1.start) : Nat) : Int)
        rw [F.start]; exact ha.cnt,
      by show 1 ≤ (BufSys.fill R.record fuel t.common (b.offset + k)).1.refcnt; rw [F.refcnt]; exact ha.pos⟩
  obtain ⟨c', h1, -⟩ := finishRead_spec L { t with common := (BufSys.fill R.record fuel t.common (b.offset + k)).1 } hs1 ha1 hb hc he k (F.enough hf)
  have h2 := finishRead_erase { t with common := (BufSys.fill R.record fuel t.common (b.offset + k)).1 } h b k
  have e1 : BufSys.erase { t with common := (BufSys.fill R.record fuel t.common (b.offset + k)).1 } =
    { t.erase with common := (BufSys.fill R.record fuel t.common (b.offset + k)).1.erase } := rfl
  rw [e1, h1] at h2
  simp only at hq
  rw [h2] at hq
  cases hq

end SBufSys
end Verif
