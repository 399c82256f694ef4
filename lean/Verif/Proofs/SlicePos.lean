import Verif.Model.SlicePos
import Verif.Spec.Memory
import Verif.Proofs.Slices

/-! # Bodies over ReaderAts and Seekers: the models with slices follow the models with lists -/

set_option autoImplicit false

namespace Verif
variable {σ : Type}

/-- How reading into a slice relates to reading a list. -/
structure Into (quiet : Prop) (m : BMem) (p : BSlice) (r : BMem × PosCommon σ × Res (Int × Option Err)) (q : PosCommon σ × Res (List Byte × Option Err)) : Prop where
  common : r.2.1 = q.1
  ret : ∀ d e, q.2 = .ret (d, e) → r.2.2 = .ret ((d.length : Int), e) ∧
    ∃ rest, (d ++ rest).length ≤ p.len ∧ r.1 = m.store p (d ++ rest) ∧ (quiet → rest = [])
  panic : ∀ x, q.2 = .panic x → r.2.2 = .panic x ∧ ∃ d, d.length ≤ p.len ∧ r.1 = m.store p d
  hang : q.2 ≠ .hang

theorem BMem.store_nil (m : BMem) (p : BSlice) : m.store p [] = m := by
  simp only [BMem.store, List.take_nil, overwrite_nil]
  by_cases hl : p.arr < m.length
  · simp [hl]
  · rw [List.set_eq_of_length_le (by omega)]

theorem BMem.store_take (m : BMem) (p : BSlice) (d : List Byte) : m.store p d = m.store p (d.take p.len) := by
  unfold BMem.store
  rw [List.take_take, Nat.min_self]

/-- What an external method that fills a slice does. -/
theorem answer_into (quiet : Prop) (m : BMem) (p : BSlice) (scr : List Byte) (hq : quiet → scr = []) (a : RResp) (c : PosCommon σ) :
    Into quiet m p
      (match (answer m p scr a).2 with
        | .panics q => ((answer m p scr a).1, c, .panic q)
        | .ret n err =>
          if ¬ n ≥ 0 then ((answer m p scr a).1, c, .panic .badReader)
          else if ¬ n ≤ p.len then ((answer m p scr a).1, c, .panic .badReader)
          else ((answer m p scr a).1, c, .ret (n, err)))
      (match a with
        | .panics q => (c, .panic q)
        | .negative => (c, .panic .badReader)
        | .got d err => if ¬ d.length ≤ p.len then (c, .panic .badReader) else (c, .ret (d, err))) := by
  cases a with
  | panics q =>
    simp only [answer]
    exact ⟨rfl, by simp, fun x hx => ⟨by cases hx; rfl, scr.take p.len, by simp; omega, BMem.store_take _ _ _⟩, by simp⟩
  | negative =>
    simp only [answer]
    rw [if_pos (by omega)]
    exact ⟨rfl, by simp, fun x hx => ⟨by cases hx; rfl, scr.take p.len, by simp; omega, BMem.store_take _ _ _⟩, by simp⟩
  | got d err =>
    simp only [answer]
    rw [if_neg (by omega)]
    by_cases h : d.length ≤ p.len
    · have h' : ((d.length : Nat) : Int) ≤ p.len := by omega
      simp only [h, h', not_true_eq_false, if_false]
      refine ⟨rfl, ?_, by simp, by simp⟩
      intro d' e hd
      simp only [Res.ret.injEq, Prod.mk.injEq] at hd
      obtain ⟨rfl, rfl⟩ := hd
      refine ⟨rfl, scr.take (p.len - d.length), by simp; omega, ?_, fun hqq => by rw [hq hqq]; simp⟩
      rw [BMem.store_take, List.take_append, List.take_of_length_le h]
    · have h' : ¬ ((d.length : Nat) : Int) ≤ p.len := by omega
      simp only [h, h', not_false_eq_true, if_true]
      exact ⟨rfl, by simp, fun x hx => ⟨by cases hx; rfl, (d ++ scr).take p.len, by simp; omega, BMem.store_take _ _ _⟩, by simp⟩

/-- Reading into the part `p[0:x]`, or not at all. -/
theorem part_into (quiet : Prop) (f : PosCommon σ → Nat → Int → PosCommon σ × Res (List Byte × Option Err))
    (g : BMem → PosCommon σ → BSlice → Int → BMem × PosCommon σ × Res (Int × Option Err))
    (hfg : ∀ m c p off, Into quiet m p (g m c p off) (f c p.len off)) (m : BMem) (c : PosCommon σ) (p : BSlice) (avail x off : Int)
    (hp : p.len ≤ p.cap) (hx : x ≤ p.len) :
    Into quiet m p
      (if avail > 0 then match p.sub 0 x with
        | none => (m, c, .panic .bounds)
        | some q => g m c q off
       else (m, c, .ret (0, none)))
      (if avail > 0 then match goSlice (List.replicate p.len (0 : Byte)) 0 x with
        | none => (c, .panic .bounds)
        | some q => f c q.length off
       else (c, .ret ([], none))) := by
  by_cases ha : avail > 0
  · simp only [ha, if_true]
    by_cases h0 : 0 ≤ x
    · have g1 : goSlice (List.replicate p.len (0 : Byte)) 0 x = some (((List.replicate p.len (0 : Byte)).drop (0 : Int).toNat).take (x - 0).toNat) := by
        unfold goSlice; rw [if_pos ⟨by omega, h0, by simp; omega⟩]
      have g2 : p.sub 0 x = some ⟨p.arr, p.off + (0 : Int).toNat, (x - 0).toNat, p.cap - (0 : Int).toNat⟩ := by
        unfold BSlice.sub; rw [if_pos ⟨by omega, h0, by omega⟩]
      rw [g1, g2]
      simp only
      have hl : (((List.replicate p.len (0 : Byte)).drop (0 : Int).toNat).take (x - 0).toNat).length = (x - 0).toNat := by
        simp only [List.length_take, List.length_drop, List.length_replicate]; omega
      rw [hl]
      have key := hfg m c ⟨p.arr, p.off + (0 : Int).toNat, (x - 0).toNat, p.cap - (0 : Int).toNat⟩ off
      have hst : ∀ d : List Byte, d.length ≤ (x - 0).toNat →
          m.store ⟨p.arr, p.off + (0 : Int).toNat, (x - 0).toNat, p.cap - (0 : Int).toNat⟩ d = m.store p d :=
        fun d hd => BMem.store_sub _ _ _ _ rfl (by simp) hd (by omega)
      refine ⟨key.common, ?_, ?_, key.hang⟩
      · intro d e hd
        obtain ⟨h1, rest, h2, h3, h4⟩ := key.ret d e hd
        simp only at h2
        exact ⟨h1, rest, by omega, by rw [h3, hst _ h2], h4⟩
      · intro y hy
        obtain ⟨h1, d, h2, h3⟩ := key.panic y hy
        simp only at h2
        exact ⟨h1, d, by omega, by rw [h3, hst _ h2]⟩
    · have g1 : goSlice (List.replicate p.len (0 : Byte)) 0 x = none := by
        unfold goSlice; rw [if_neg (fun hc => h0 hc.2.1)]
      have g2 : p.sub 0 x = none := by
        unfold BSlice.sub; rw [if_neg (fun hc => h0 hc.2.1)]
      rw [g1, g2]
      exact ⟨rfl, by simp, fun y hy => ⟨by cases hy; rfl, [], Nat.zero_le _, (BMem.store_nil _ _).symm⟩, by simp⟩
  · simp only [ha, if_false]
    refine ⟨rfl, ?_, by simp, by simp⟩
    intro d e hd
    simp only [Res.ret.injEq, Prod.mk.injEq] at hd
    obtain ⟨rfl, rfl⟩ := hd
    exact ⟨rfl, [], Nat.zero_le _, (BMem.store_nil _ _).symm, fun _ => rfl⟩

/-- How a whole call relates; `x` is the memory before, `p` the slice. -/
structure CallOK (quiet : Prop) (m : BMem) (p : BSlice) (r : BMem × PosSys σ × MOut) (q : PosSys σ × Out) : Prop where
  sys : r.2.1 = q.1
  read : ∀ d e, q.2 = .read d e → r.2.2 = .read (d.length : Int) e ∧ ∃ rest, (d ++ rest).length ≤ p.len ∧ r.1 = m.store p (d ++ rest) ∧ (quiet → rest = [])
  other : (∀ d e, q.2 ≠ .read d e) → r.2.2 = .other q.2 ∧ ∃ d, d.length ≤ p.len ∧ r.1 = m.store p d ∧ ((∀ y, q.2 ≠ .panic y) → d = [])

theorem CallOK.still (quiet : Prop) (m : BMem) (p : BSlice) (s : PosSys σ) (o : Out) (ho : ∀ d e, o ≠ .read d e) :
    CallOK quiet m p (m, s, .other o) (s, o) :=
  ⟨rfl, fun d e h => absurd h (ho d e), fun _ => ⟨rfl, [], Nat.zero_le _, (BMem.store_nil _ _).symm, fun _ => rfl⟩⟩

theorem CallOK.fail (quiet : Prop) (m : BMem) (p : BSlice) (s : PosSys σ) (e : Option Err) :
    CallOK quiet m p (m, s, .read 0 e) (s, .read [] e) := by
  refine ⟨rfl, ?_, fun h => absurd rfl (h _ _)⟩
  intro d e' h
  simp only [Out.read.injEq] at h
  obtain ⟨rfl, rfl⟩ := h
  exact ⟨rfl, [], Nat.zero_le _, (BMem.store_nil _ _).symm, fun _ => rfl⟩

/-- The end of `Read`. -/
theorem read_tail (quiet : Prop) (m : BMem) (p : BSlice) (s : PosSys σ) (h : Nat) (b : PosBody) (offset : Int) (eof : Bool)
    (r : BMem × PosCommon σ × Res (Int × Option Err)) (q : PosCommon σ × Res (List Byte × Option Err)) (key : Into quiet m p r q) :
    CallOK quiet m p
      (match r.2.2 with
        | .panic q => (r.1, { s with common := r.2.1 }, .other (.panic q))
        | .hang => (r.1, { s with common := r.2.1 }, .other .hang)
        | .ret (n, err) =>
          match (if eof && err.isNone then some .eof else err : Option Err) with
          | none => (r.1, { common := r.2.1, heap := s.heap.set h { b with offset := offset + n } }, .read n none)
          | some e =>
            (r.1, { common := if offset + n < r.2.1.length then { r.2.1 with length := offset + n } else r.2.1,
                    heap := s.heap.set h { b with offset := offset + n, err := some e } }, .read n (some e)))
      (match q.2 with
        | .panic p => ({ s with common := q.1 }, .panic p)
        | .hang => ({ s with common := q.1 }, .hang)
        | .ret (d, err) =>
          match (if eof && err.isNone then some .eof else err : Option Err) with
          | none => ({ common := q.1, heap := s.heap.set h { b with offset := offset + d.length } }, .read d none)
          | some e =>
            ({ common := if offset + d.length < q.1.length then { q.1 with length := offset + d.length } else q.1,
               heap := s.heap.set h { b with offset := offset + d.length, err := some e } }, .read d (some e))) := by
  have hc := key.common
  cases hq : q.2 with
  | hang => exact absurd hq key.hang
  | panic y =>
    obtain ⟨h1, d, h2, h3⟩ := key.panic y hq
    rw [h1]
    simp only [hc]
    exact ⟨rfl, by simp, fun _ => ⟨rfl, d, h2, h3, fun hn => absurd rfl (hn y)⟩⟩
  | ret de =>
    obtain ⟨d, e⟩ := de
    obtain ⟨h1, rest, h2, h3, h4⟩ := key.ret d e hq
    rw [h1]
    simp only [hc]
    cases (if eof && e.isNone then some .eof else e : Option Err) with
    | none =>
      refine ⟨rfl, ?_, fun hn => absurd rfl (hn _ _)⟩
      intro d' e' hd
      simp only [Out.read.injEq] at hd
      obtain ⟨rfl, rfl⟩ := hd
      exact ⟨rfl, rest, h2, h3, h4⟩
    | some e1 =>
      refine ⟨rfl, ?_, fun hn => absurd rfl (hn _ _)⟩
      intro d' e' hd
      simp only [Out.read.injEq] at hd
      obtain ⟨rfl, rfl⟩ := hd
      exact ⟨rfl, rest, h2, h3, h4⟩

/-- The end of `ReadAt`. -/
theorem readAt_tail (quiet : Prop) (m : BMem) (p : BSlice) (s : PosSys σ) (eof : Bool)
    (r : BMem × PosCommon σ × Res (Int × Option Err)) (q : PosCommon σ × Res (List Byte × Option Err)) (key : Into quiet m p r q) :
    CallOK quiet m p
      (match r.2.2 with
        | .panic q => (r.1, { s with common := r.2.1 }, .other (.panic q))
        | .hang => (r.1, { s with common := r.2.1 }, .other .hang)
        | .ret (n, err) => (r.1, { s with common := r.2.1 }, .read n (if eof && err.isNone then some .eof else err)))
      (match q.2 with
        | .panic p => ({ s with common := q.1 }, .panic p)
        | .hang => ({ s with common := q.1 }, .hang)
        | .ret (d, err) => ({ s with common := q.1 }, .read d (if eof && err.isNone then some .eof else err))) := by
  have hc := key.common
  cases hq : q.2 with
  | hang => exact absurd hq key.hang
  | panic y =>
    obtain ⟨h1, d, h2, h3⟩ := key.panic y hq
    rw [h1]
    simp only [hc]
    exact ⟨rfl, by simp, fun _ => ⟨rfl, d, h2, h3, fun hn => absurd rfl (hn y)⟩⟩
  | ret de =>
    obtain ⟨d, e⟩ := de
    obtain ⟨h1, rest, h2, h3, h4⟩ := key.ret d e hq
    rw [h1]
    simp only [hc]
    refine ⟨rfl, ?_, fun hn => absurd rfl (hn _ _)⟩
    intro d' e' hd
    simp only [Out.read.injEq] at hd
    obtain ⟨rfl, rfl⟩ := hd
    exact ⟨rfl, rest, h2, h3, h4⟩

theorem cut_le (k avail : Int) : (if decide (k > avail) = true then avail else k) ≤ k := by
  split
  · rename_i h; have := of_decide_eq_true h; omega
  · omega

/-- The Reader does not scribble on what it does not fill. -/
def Scratch.Quiet (w : Scratch σ) : Prop := ∀ st l, w st l = []

/-- A call as the client may make it. -/
structure MCall.Ok (x : MCall) : Prop where
  valid : x.p.Valid x.mem
  read : ∀ h k, x.op = .read h k → k = x.p.len
  readAt : ∀ h k off, x.op = .readAt h k off → k = x.p.len

namespace ReaderAtBody

theorem commonReadAt_into (R : Rdr σ) (w : Scratch σ) (m : BMem) (c : PosCommon σ) (p : BSlice) (off : Int) :
    Into w.Quiet m p (commonReadAtInto R w m c p off) (commonReadAt R c p.len off) := by
  unfold commonReadAtInto commonReadAt
  by_cases hr : c.hasR = true
  · simp only [hr, Bool.not_true, Bool.false_eq_true, if_false, Rdr.readAtInto]
    exact answer_into w.Quiet m p _ (fun hq => hq _ _) (R.readAt c.rdr p.len off).2 { c with rdr := (R.readAt c.rdr p.len off).1, hasR := true }
  · simp only [hr, Bool.not_false, if_true]
    exact ⟨rfl, by simp, fun y hy => ⟨by cases hy; rfl, [], Nat.zero_le _, (BMem.store_nil _ _).symm⟩, by simp⟩

theorem step_into (R : Rdr σ) (w : Scratch σ) (s : PosSys σ) (x : MCall) (hx : x.Ok) :
    CallOK w.Quiet x.mem x.p (stepInto R w s x) (step R s x.op) := by
  unfold stepInto step
  cases hb : s.heap[x.op.h]? with
  | none => exact CallOK.still _ _ _ _ _ (by simp)
  | some b =>
    simp only
    cases hop : x.op with
    | read h k =>
      rw [hx.read h k hop]
      simp only
      unfold readInto read
      obtain ⟨be, bo, bc⟩ := b
      cases bc with
      | true => exact CallOK.fail _ _ _ _ _
      | false =>
        cases be with
        | some e => exact CallOK.fail _ _ _ _ _
        | none =>
          dsimp only
          rw [if_neg Bool.false_ne_true, if_neg Bool.false_ne_true]
          generalize (if bo > s.common.length then s.common.length else bo) = o
          exact read_tail w.Quiet x.mem x.p s h ⟨none, bo, false⟩ o (decide ((x.p.len : Int) > s.common.length - o)) _ _
            (part_into w.Quiet (commonReadAt R) (commonReadAtInto R w) (commonReadAt_into R w) x.mem s.common x.p (s.common.length - o) _ o hx.valid.1 (cut_le _ _))
    | readAt h k off =>
      rw [hx.readAt h k off hop]
      simp only
      unfold readAtInto readAt
      by_cases hc : b.closed = true
      · simp only [hc, if_true]; exact CallOK.fail _ _ _ _ _
      simp only [hc, Bool.false_eq_true, if_false]
      by_cases ho : off < 0
      · simp only [ho, if_true]; exact CallOK.fail _ _ _ _ _
      simp only [ho, if_false]
      generalize (if off > s.common.length then s.common.length else off) = o
      exact readAt_tail w.Quiet x.mem x.p s (decide ((x.p.len : Int) > s.common.length - o)) _ _
        (part_into w.Quiet (commonReadAt R) (commonReadAtInto R w) (commonReadAt_into R w) x.mem s.common x.p (s.common.length - o) _ o hx.valid.1 (cut_le _ _))
    | seek h off wh => exact CallOK.still _ _ _ _ _ (fun d e h => by unfold seek at h; dsimp only at h; repeat' (first | (cases h; done) | split at h))
    | remaining h => exact CallOK.still _ _ _ _ _ (by simp)
    | copy h => exact CallOK.still _ _ _ _ _ (by intro d e; unfold copy; split <;> simp)
    | close h => exact CallOK.still _ _ _ _ _ (fun d e h => by unfold close at h; dsimp only at h; repeat' (first | (cases h; done) | split at h))
    | unwrap h => exact CallOK.still _ _ _ _ _ (by intro d e; unfold unwrap; split <;> simp)
    | writeTo h f => exact CallOK.still _ _ _ _ _ (by simp)

end ReaderAtBody

namespace SeekerBody

theorem commonReadAt_into (R : Rdr σ) (w : Scratch σ) (m : BMem) (c : PosCommon σ) (p : BSlice) (off : Int) :
    Into w.Quiet m p (commonReadAtInto R w m c p off) (commonReadAt R c p.len off) := by
  unfold commonReadAtInto commonReadAt
  by_cases hr : c.hasR = true
  · simp only [hr, Bool.not_true, Bool.false_eq_true, if_false, Rdr.readInto]
    rcases R.seek c.rdr off 0 with ⟨st, resp⟩
    cases resp with
    | panics y => exact ⟨rfl, by simp, fun y hy => ⟨by cases hy; rfl, [], Nat.zero_le _, (BMem.store_nil _ _).symm⟩, by simp⟩
    | ok ne =>
      obtain ⟨n, e⟩ := ne
      cases e with
      | some e =>
        refine ⟨rfl, ?_, by simp, by simp⟩
        intro d e' hd
        simp only [Res.ret.injEq, Prod.mk.injEq] at hd
        obtain ⟨rfl, rfl⟩ := hd
        exact ⟨rfl, [], Nat.zero_le _, (BMem.store_nil _ _).symm, fun _ => rfl⟩
      | none =>
        exact answer_into w.Quiet m p _ (fun hq => hq _ _) (R.read st p.len).2 { c with rdr := (R.read st p.len).1, hasR := true }
  · simp only [hr, Bool.not_false, if_true]
    exact ⟨rfl, by simp, fun y hy => ⟨by cases hy; rfl, [], Nat.zero_le _, (BMem.store_nil _ _).symm⟩, by simp⟩

theorem step_into (R : Rdr σ) (w : Scratch σ) (s : PosSys σ) (x : MCall) (hx : x.Ok) :
    CallOK w.Quiet x.mem x.p (stepInto R w s x) (step R s x.op) := by
  unfold stepInto step
  cases hb : s.heap[x.op.h]? with
  | none => exact CallOK.still _ _ _ _ _ (by simp)
  | some b =>
    simp only
    cases hop : x.op with
    | read h k =>
      rw [hx.read h k hop]
      simp only
      unfold readInto read
      obtain ⟨be, bo, bc⟩ := b
      cases bc with
      | true => exact CallOK.fail _ _ _ _ _
      | false =>
        cases be with
        | some e => exact CallOK.fail _ _ _ _ _
        | none =>
          dsimp only
          rw [if_neg Bool.false_ne_true, if_neg Bool.false_ne_true]
          generalize (if bo > s.common.length then s.common.length else bo) = o
          exact read_tail w.Quiet x.mem x.p s h ⟨none, bo, false⟩ o (decide ((x.p.len : Int) > s.common.length - o)) _ _
            (part_into w.Quiet (commonReadAt R) (commonReadAtInto R w) (commonReadAt_into R w) x.mem s.common x.p (s.common.length - o) _ o hx.valid.1 (cut_le _ _))
    | readAt h k off =>
      rw [hx.readAt h k off hop]
      simp only
      unfold readAtInto readAt
      by_cases hc : b.closed = true
      · simp only [hc, if_true]; exact CallOK.fail _ _ _ _ _
      simp only [hc, Bool.false_eq_true, if_false]
      by_cases ho : off < 0
      · simp only [ho, if_true]; exact CallOK.fail _ _ _ _ _
      simp only [ho, if_false]
      generalize (if off > s.common.length then s.common.length else off) = o
      exact readAt_tail w.Quiet x.mem x.p s (decide ((x.p.len : Int) > s.common.length - o)) _ _
        (part_into w.Quiet (commonReadAt R) (commonReadAtInto R w) (commonReadAt_into R w) x.mem s.common x.p (s.common.length - o) _ o hx.valid.1 (cut_le _ _))
    | seek h off wh => exact CallOK.still _ _ _ _ _ (fun d e h => by unfold seek at h; dsimp only at h; repeat' (first | (cases h; done) | split at h))
    | remaining h => exact CallOK.still _ _ _ _ _ (by simp)
    | copy h => exact CallOK.still _ _ _ _ _ (by intro d e; unfold copy; split <;> simp)
    | close h => exact CallOK.still _ _ _ _ _ (fun d e h => by unfold close at h; dsimp only at h; repeat' (first | (cases h; done) | split at h))
    | unwrap h => exact CallOK.still _ _ _ _ _ (by intro d e; unfold unwrap; split <;> simp)
    | writeTo h f => exact CallOK.still _ _ _ _ _ (by simp)

end SeekerBody

/-- What the caller sees. -/
theorem CallOK.touches (quiet : Prop) (x : MCall) (hv : x.p.Valid x.mem) (r : BMem × PosSys σ × MOut) (q : PosSys σ × Out) (h : CallOK quiet x.mem x.p r q) :
    TouchesWithin x r.1 r.2.2 q.2 ∧ (quiet → (∀ y, q.2 ≠ .panic y) → TouchesOnly [] x r.1 r.2.2 q.2) := by
  by_cases hr : ∃ d e, q.2 = .read d e
  · obtain ⟨d, e, hq⟩ := hr
    obtain ⟨h1, rest, h2, h3, h4⟩ := h.read d e hq
    have hd : (Out.read d e).delivered = d := rfl
    rw [h1, hq]
    have hs : (MOut.read (d.length : Int) e).seen r.1 x.p = .read d e := by
      simp only [MOut.seen, Int.toNat_natCast]
      have := BMem.bytes_store_take x.mem x.p (d ++ rest) hv h2
      rw [← h3] at this
      have h5 := congrArg (List.take d.length) this
      rw [List.take_take, Nat.min_eq_left (by simp), List.take_left' rfl] at h5
      rw [h5]
    have hcnt : ∀ n e', MOut.read (d.length : Int) e = .read n e' → n = ((Out.read d e).delivered.length : Int) := by
      intro n e' he
      injection he with h6 _
      rw [← h6]; rfl
    refine ⟨⟨hs, hcnt, rest, by rw [hd]; exact h2, by rw [hd]; exact h3⟩, fun hqq _ => ⟨hs, hcnt, ?_, ?_, ?_⟩⟩
    · rw [hd]; simp only [List.length_append] at h2; omega
    · rw [h3, BMem.length_store]; exact Nat.le_refl _
    · intro a _ _
      rw [h3, h4 hqq, hd, List.append_nil]
  · obtain ⟨h1, d, h2, h3, h4⟩ := h.other (fun d e hc => hr ⟨d, e, hc⟩)
    have hdel : q.2.delivered = [] := by
      cases hq : q.2 <;> simp only [Out.delivered]
      exact absurd ⟨_, _, hq⟩ hr
    rw [h1]
    refine ⟨⟨rfl, by simp, d, by rw [hdel]; exact h2, by rw [hdel]; exact h3⟩, fun _ hn => ⟨rfl, by simp, by rw [hdel]; exact Nat.zero_le _, ?_, ?_⟩⟩
    · rw [h3, BMem.length_store]; exact Nat.le_refl _
    · intro a _ _
      rw [h3, h4 hn, hdel]

end Verif
