import Verif.Proofs.PosMore

/-! # Stickiness, right bytes, closing -/

set_option linter.unusedSimpArgs false

set_option autoImplicit false

namespace Verif
open Spec

variable {σ : Type}

theorem posInv_run (K : PosKind σ) (ops : List Op) {s : PosSys σ} (hs : PosInv s) :
    PosInv (run (Pos.step K) s ops).1 := by
  induction ops generalizing s with
  | nil => exact hs
  | cons op ops ih => rw [run_cons]; exact ih (posInv_step K s op hs)

theorem pos_run_keeps_closed (K : PosKind σ) (ops : List Op) {s : PosSys σ} (hs : PosInv s) {h : Nat} {b : PosBody}
    (hb : s.heap[h]? = some b) (hc : b.closed = true) : (run (Pos.step K) s ops).1.heap[h]? = some b := by
  induction ops generalizing s with
  | nil => exact hb
  | cons op ops ih =>
    rw [run_cons]
    exact ih (posInv_step K s op hs) (pos_keeps_closed K s hs.len op hb hc)

/-! ## Sticky errors -/

/-- Body `h` reports `e` on every `Read`. -/
def Stuck (s : PosSys σ) (h : Nat) (e : Err) : Prop :=
  ∃ b, s.heap[h]? = some b ∧ ((b.closed = false ∧ b.err = some e) ∨ (b.closed = true ∧ e = .closed))

theorem stuck_read {K : PosKind σ} {s : PosSys σ} {h : Nat} {e : Err} (hs : Stuck s h e) (k : Nat) :
    Pos.step K s (.read h k) = (s, .read [] (some e)) := by
  obtain ⟨b, hb, ⟨h1, h2⟩ | ⟨h1, rfl⟩⟩ := hs <;> simp [Pos.step, Op.h, hb, Pos.read, *]

theorem stuck_of_read {K : PosKind σ} {s : PosSys σ} (hl : 0 ≤ s.common.length) {h k : Nat} {d : List Byte} {e : Err}
    (hr : (Pos.step K s (.read h k)).2 = .read d (some e)) : Stuck (Pos.step K s (.read h k)).1 h e := by
  have hH := heapStep K s (.read h k) hl
  cases hH with
  | keep h1 _ _ =>
    unfold Stuck
    rw [h1]
    unfold Pos.step at hr
    simp only [Op.h] at hr
    cases hb : s.heap[h]? with
    | none => simp [hb] at hr
    | some b =>
      refine ⟨b, rfl, ?_⟩
      simp only [hb, Pos.read] at hr
      cases hc : b.closed with
      | true => simp [hc] at hr; exact .inr ⟨rfl, hr.2.symm⟩
      | false =>
        refine .inl ⟨rfl, ?_⟩
        simp only [hc, Bool.false_eq_true, if_false] at hr
        cases he : b.err with
        | some e' => simp [he] at hr; rw [hr.2]
        | none =>
          have hlt := (List.getElem?_eq_some_iff.1 hb).1
          unfold Pos.step at h1
          simp only [Op.h, hb, Pos.read, hc, Bool.false_eq_true, if_false, he] at h1 hr
          revert h1 hr
          generalize Pos.attempt K s.common k b.offset = r
          obtain ⟨c', r⟩ := r
          cases r with
          | panic p => intro _ hr; simp at hr
          | hang => intro _ hr; simp at hr
          | ret de =>
            obtain ⟨d', e'⟩ := de
            simp only
            intro h1 hr
            rw [(served_heap _ _ _ _ _ _ _).1] at h1
            rw [(served_heap _ _ _ _ _ _ _).2] at hr
            injection hr with _ hr
            have : (s.heap.set h { b with offset := (if b.offset > s.common.length then s.common.length else b.offset) + d'.length, err := e' })[h]? = s.heap[h]? := by
              rw [h1]
            rw [List.getElem?_set_self hlt, hb] at this
            injection this with this
            have := congrArg PosBody.err this
            simp only [he, hr] at this
            cases this
  | read b o d' e' k' h1 h2 h3 h4 h5 h6 =>
    simp only [Op.h] at *
    rw [h6] at hr
    injection hr with _ hr
    subst hr
    refine ⟨{ b with offset := o, err := some e }, ?_, .inl ⟨h2, rfl⟩⟩
    rw [h5, List.getElem?_set_self (List.getElem?_eq_some_iff.1 h1).1]
  | seek _ _ _ _ _ _ h => simp at h
  | copy _ _ _ h => simp at h
  | close _ _ _ _ h => simp at h

theorem stuck_step {K : PosKind σ} {s : PosSys σ} (hl : 0 ≤ s.common.length) {h : Nat} {e : Err} (hs : Stuck s h e)
    (op : Op) (hno : ¬ Revives h op (Pos.step K s op).2) : Stuck (Pos.step K s op).1 h e := by
  obtain ⟨b, hb, hx⟩ := hs
  have hlt := (List.getElem?_eq_some_iff.1 hb).1
  have hH := heapStep K s op hl
  generalize Pos.step K s op = r at hH hno
  have other : ∀ b'' : PosBody, op.h ≠ h → (s.heap.set op.h b'')[h]? = some b := by
    intro b'' hne
    rw [List.getElem?_set_ne hne, hb]
  cases hH with
  | keep h1 _ _ => exact ⟨b, by rw [h1]; exact hb, hx⟩
  | read b' o d e' k h1 h2 h3 h4 h5 h6 =>
    refine ⟨b, ?_, hx⟩
    rw [h5]
    apply other
    rintro rfl
    rw [hb] at h1
    cases h1
    rcases hx with ⟨_, h⟩ | ⟨h, _⟩
    · rw [h3] at h; cases h
    · rw [h2] at h; cases h
  | seek b' o off wh h1 h2 h3 h4 h5 h6 h7 =>
    refine ⟨b, ?_, hx⟩
    rw [h4]
    apply other
    rintro rfl
    apply hno
    rw [h3, h5]
    rfl
  | copy b' h1 h2 h3 h4 h5 =>
    refine ⟨b, ?_, hx⟩
    rw [h4, List.getElem?_append_left hlt, hb]
  | close b' e' h1 h2 h3 h4 h5 =>
    refine ⟨b, ?_, hx⟩
    rw [h4]
    apply other
    rintro rfl
    apply hno
    rw [h3]
    rfl

theorem stuck_copy {K : PosKind σ} {s : PosSys σ} {h m : Nat} {e : Err} (hs : Stuck s h e)
    (hc : (Pos.step K s (.copy h)).2 = .copied m) : Stuck (Pos.step K s (.copy h)).1 m e := by
  obtain ⟨b, hb, hx⟩ := hs
  cases hcl : b.closed with
  | true => simp [Pos.step, Op.h, hb, hcl] at hc
  | false =>
    simp only [Pos.step, Op.h, hb, hcl, Bool.false_eq_true, if_false, Out.copied.injEq] at hc ⊢
    subst hc
    exact ⟨b, by simp, hx⟩

theorem stuck_run {K : PosKind σ} (later : List Op) {s : PosSys σ} (hi : PosInv s) {h : Nat} {e : Err} (hs : Stuck s h e)
    (hno : ∀ p ∈ later.zip (run (Pos.step K) s later).2, ¬ Revives h p.1 p.2) :
    Stuck (run (Pos.step K) s later).1 h e := by
  induction later generalizing s with
  | nil => exact hs
  | cons op ops ih =>
    rw [run_cons] at hno ⊢
    refine ih (posInv_step K s op hi) (stuck_step hi.len hs op (hno (op, _) (by simp))) ?_
    intro p hp
    exact hno p (by simp only [List.zip_cons_cons, List.mem_cons]; exact .inr hp)

/-! ## Right bytes -/

/-- Whatever `get` returns is what `F` has at the position. -/
structure HonestGet (K : PosKind σ) (F : List Byte) (Inv : σ → Prop) : Prop where
  get : ∀ st x off, Inv st → Inv (K.get st x off).1 ∧
    ∀ d e, (K.get st x off).2 = .ret (d, e) → 0 ≤ off → d = (F.drop off.toNat).take d.length

theorem honest_at {R : Rdr σ} {F : List Byte} {Inv : σ → Prop} (h : IsHonestReaderAt R F Inv) :
    HonestGet (atKind R) F Inv := by
  refine ⟨fun st x off hi => ?_⟩
  obtain ⟨h1, h2⟩ := h.readAt st x off hi
  refine ⟨h1, ?_⟩
  intro d e hd h0
  simp only [atKind] at hd
  generalize (R.readAt st x off).2 = resp at *
  cases resp with
  | got d' e' =>
    simp only [checked] at hd
    split at hd
    · rename_i hle
      simp only [Res.ret.injEq, Prod.mk.injEq] at hd
      obtain ⟨rfl, rfl⟩ := hd
      exact h2 _ _ rfl hle h0
    · cases hd
  | negative => simp [checked] at hd
  | panics p => simp [checked] at hd

theorem honest_seek {R : Rdr σ} {F : List Byte} {Inv : σ → Prop} {At : σ → Nat → Prop} (h : IsHonestSeeker R F Inv At) :
    HonestGet (seekKind R) F Inv := by
  refine ⟨fun st x off hi => ?_⟩
  obtain ⟨h1, h2⟩ := h.seek st off hi
  simp only [seekKind]
  generalize hq : R.seek st off 0 = q at *
  obtain ⟨st1, ⟨n, err⟩ | p⟩ := q
  rotate_left
  · exact ⟨h1, fun d e hd => by cases hd⟩
  simp only at h1 h2 ⊢
  cases err with
  | some e =>
    refine ⟨h1, ?_⟩
    intro d e' hd _
    simp only [Res.ret.injEq, Prod.mk.injEq] at hd
    rw [← hd.1]; simp
  | none =>
    obtain ⟨h3, h4⟩ := h.read st1 x h1
    refine ⟨h3, ?_⟩
    intro d e hd h0
    simp only at hd
    generalize (R.read st1 x).2 = resp at *
    cases resp with
    | got d' e' =>
      simp only [checked] at hd
      split at hd
      · rename_i hle
        simp only [Res.ret.injEq, Prod.mk.injEq] at hd
        obtain ⟨rfl, rfl⟩ := hd
        exact h4 _ _ _ (h2 h0 ⟨n, rfl⟩) rfl hle
      · cases hd
    | negative => simp [checked] at hd
    | panics p => simp [checked] at hd

/-- Bodies and tracked positions. -/
structure TInv (Inv : σ → Prop) (s : PosSys σ) (ps : List Nat) : Prop where
  inv : PosInv s
  len : ps.length = s.heap.length
  pos : ∀ (i : Nat) (b : PosBody) (q : Nat), s.heap[i]? = some b → ps[i]? = some q → b.closed = false → b.offset = q ∨ s.common.length ≤ b.offset
  rdr : 0 < posOpen s.heap → Inv s.common.rdr

/-- What the shared part delivers is right, and it keeps the reader's invariant. -/
theorem attempt_honest {K : PosKind σ} {F : List Byte} {Inv : σ → Prop} (hG : HonestGet K F Inv) {c : PosCommon σ}
    (hR : c.hasR = true) (hI : Inv c.rdr) (k : Nat) (off : Int) (h0 : 0 ≤ off) :
    Inv (Pos.attempt K c k off).1.rdr ∧
    ∀ d e, (Pos.attempt K c k off).2 = .ret (d, e) →
      d = (F.drop off.toNat).take d.length ∧ (c.length ≤ off → d = []) ∧ (d ≠ [] → off < c.length) := by
  by_cases hl : c.length ≤ off
  · rw [attempt_end hl]
    refine ⟨hI, ?_⟩
    intro d e hd
    simp only [Res.ret.injEq, Prod.mk.injEq] at hd
    rw [← hd.1]
    simp
  · rw [attempt_mid hR (by omega)]
    obtain ⟨h1, h2⟩ := hG.get c.rdr (min k (c.length - off).toNat) off hI
    refine ⟨h1, ?_⟩
    intro d e hd
    simp only at hd
    generalize (K.get c.rdr (min k (c.length - off).toNat) off).2 = r at *
    cases r with
    | ret de =>
      obtain ⟨d', e'⟩ := de
      simp only [finish, Res.ret.injEq, Prod.mk.injEq] at hd
      obtain ⟨rfl, _⟩ := hd
      exact ⟨h2 _ _ rfl h0, fun h => absurd h hl, fun _ => by omega⟩
    | panic p => simp [finish] at hd
    | hang => simp [finish] at hd

/-- The bytes of a result are right for a body at `q`. -/
def RightAt (F : List Byte) (q : Nat) : Out → Prop
  | .read d _ => d = (F.drop q).take d.length
  | _ => True

/-- The bytes a call returned are right. -/
def RightBytes (F : List Byte) (ps : List Nat) : Op → Out → Prop
  | .read h _, o => ∀ q, ps[h]? = some q → RightAt F q o
  | .readAt _ _ off, o => RightAt F off.toNat o
  | _, _ => True

theorem tinv_step {K : PosKind σ} {F : List Byte} {Inv : σ → Prop} (hG : HonestGet K F Inv) {s : PosSys σ}
    {ps : List Nat} (hs : TInv Inv s ps) (op : Op) :
    TInv Inv (Pos.step K s op).1 (trackPos ps op (Pos.step K s op).2) ∧
    RightBytes F ps op (Pos.step K s op).2 := by
  have hinv := posInv_step K s op hs.inv
  revert hinv
  unfold Pos.step
  cases hb : s.heap[op.h]? with
  | none => intro _; cases op <;> exact ⟨hs, by simp [RightBytes, RightAt]⟩
  | some b =>
    have hbo := hs.inv.off b (List.mem_of_getElem? hb)
    have hlt := (List.getElem?_eq_some_iff.1 hb).1
    cases op with
    | read h k =>
      simp only [Op.h] at hb hlt ⊢
      unfold Pos.read
      have keep : ∀ e, TInv Inv s (trackPos ps (.read h k) (.read [] e)) := by
        intro e
        have : trackPos ps (.read h k) (.read [] e) = ps := by
          simp [trackPos]; exact List.modify_id h ps
        rw [this]; exact hs
      by_cases hc : b.closed = true
      · simp only [hc, if_true]; intro _
        exact ⟨keep _, by simp [RightBytes, RightAt]⟩
      · have hc : b.closed = false := by simpa using hc
        cases he : b.err with
        | some e =>
          simp only [hc, Bool.false_eq_true, if_false]; intro _
          exact ⟨keep _, by simp [RightBytes, RightAt]⟩
        | none =>
          simp only [hc, Bool.false_eq_true, if_false]
          have hopn := posOpen_pos hb hc
          obtain ⟨a1, a2⟩ := attempt_honest hG (hs.inv.live hopn) (hs.rdr hopn) k b.offset hbo
          generalize hr : Pos.attempt K s.common k b.offset = r at a1 a2 ⊢
          obtain ⟨c', r⟩ := r
          obtain ⟨h1, h2, h3⟩ := attempt_common K _ _ _ hr
          simp only at a1 a2
          cases r with
          | panic p =>
            intro hinv
            exact ⟨⟨hinv, hs.len, by simp only [h1]; exact hs.pos, fun _ => a1⟩, by simp [RightBytes, RightAt]⟩
          | hang =>
            intro hinv
            exact ⟨⟨hinv, hs.len, by simp only [h1]; exact hs.pos, fun _ => a1⟩, by simp [RightBytes, RightAt]⟩
          | ret de =>
            obtain ⟨d, e⟩ := de
            simp only
            obtain ⟨b1, b2, b3⟩ := a2 d e rfl
            generalize ho : ((if b.offset > s.common.length then s.common.length else b.offset) + (d.length : Int)) = o
            obtain ⟨g1, g2, g3, g4⟩ := served_common s h b c' o d e
            obtain ⟨g5, g6⟩ := served_heap s h b c' o d e
            generalize Pos.served s h b c' o d e = r at *
            intro hinv
            obtain ⟨⟨cc, hh⟩, oo⟩ := r
            simp only at g1 g2 g3 g4 g5 g6 hinv ⊢
            subst g5 g6
            refine ⟨⟨hinv, ?_, ?_, ?_⟩, ?_⟩
            · simp [trackPos, hs.len]
            · intro i b' q hb' hq hc'
              simp only at hb' ⊢
              have hlen' : cc.length ≤ s.common.length := by rw [g4, h1]; split <;> omega
              by_cases hih : h = i
              · subst hih
                rw [List.getElem?_set_self hlt] at hb'
                injection hb' with hb'
                subst hb'
                simp only [trackPos, List.getElem?_modify_eq] at hq
                cases hq0 : ps[h]? with
                | none => simp [hq0] at hq
                | some q0 =>
                  simp only [hq0, Option.map_eq_map, Option.map_some, Option.some.injEq] at hq
                  subst hq
                  simp only
                  rcases hs.pos h b q0 hb hq0 hc with hp | hp
                  · by_cases hgt : b.offset > s.common.length
                    · right
                      have := b2 (by omega)
                      subst this
                      rw [if_pos hgt] at ho
                      simp at ho
                      omega
                    · left
                      rw [if_neg hgt] at ho
                      omega
                  · right
                    have := b2 hp
                    subst this
                    simp at ho
                    have : o = s.common.length := by split at ho <;> omega
                    omega
              · rw [List.getElem?_set_ne hih] at hb'
                simp only [trackPos] at hq
                rw [List.getElem?_modify_ne _ _ hih] at hq
                rcases hs.pos i b' q hb' hq hc' with hp | hp
                · exact .inl hp
                · exact .inr (by omega)
            · intro _; simp only; rw [g3]; exact a1
            · intro q hq
              simp only [RightAt]
              by_cases hd : d = []
              · subst hd; simp
              · have := b3 hd
                rcases hs.pos h b q hb hq hc with hp | hp
                · rw [hp] at b1; simpa using b1
                · omega
    | readAt h k off =>
      simp only [Op.h] at hb ⊢
      unfold Pos.readAt
      have ht : ∀ o, trackPos ps (.readAt h k off) o = ps := by intro o; cases o <;> rfl
      by_cases hc : b.closed = true
      · simp only [hc, if_true]; intro _; exact ⟨hs, by simp [RightBytes, RightAt]⟩
      · have hc : b.closed = false := by simpa using hc
        simp only [hc, Bool.false_eq_true, if_false]
        by_cases h0 : off < 0
        · simp only [h0, if_true]; intro _; exact ⟨hs, by simp [RightBytes, RightAt]⟩
        · simp only [h0, if_false]
          have hopn := posOpen_pos hb hc
          obtain ⟨a1, a2⟩ := attempt_honest hG (hs.inv.live hopn) (hs.rdr hopn) k off (by omega)
          generalize hr : Pos.attempt K s.common k off = r at a1 a2 ⊢
          obtain ⟨c', r⟩ := r
          obtain ⟨h1, h2, h3⟩ := attempt_common K _ _ _ hr
          simp only at a1 a2
          cases r with
          | panic p =>
            intro hinv
            exact ⟨⟨hinv, hs.len, by simp only [h1]; exact hs.pos, fun _ => a1⟩, by simp [RightBytes, RightAt]⟩
          | hang =>
            intro hinv
            exact ⟨⟨hinv, hs.len, by simp only [h1]; exact hs.pos, fun _ => a1⟩, by simp [RightBytes, RightAt]⟩
          | ret de =>
            obtain ⟨d, e⟩ := de
            intro hinv
            exact ⟨⟨hinv, hs.len, by simp only [h1]; exact hs.pos, fun _ => a1⟩, (a2 d e rfl).1⟩
    | seek h off wh =>
      simp only [Op.h] at hb hlt ⊢
      rcases pos_seek_cases s h b off wh hs.inv.len with ⟨e, h1⟩ | ⟨hc, o, h1, h2, h3⟩
      · rw [h1]; intro _; exact ⟨hs, trivial⟩
      · rw [h3]
        intro hinv
        refine ⟨⟨hinv, by simp [trackPos, hs.len], ?_, ?_⟩, trivial⟩
        · intro i b' q hb' hq hc'
          simp only [trackPos] at hb' hq ⊢
          by_cases hih : h = i
          · subst hih
            rw [List.getElem?_set_self hlt] at hb'
            rw [List.getElem?_set_self (by rw [hs.len]; exact hlt)] at hq
            injection hb' with hb'
            injection hq with hq
            subst hb' hq
            left; simp only; omega
          · rw [List.getElem?_set_ne hih] at hb' hq
            exact hs.pos i b' q hb' hq hc'
        · intro _; exact hs.rdr (posOpen_pos hb hc)
    | remaining h => intro _; exact ⟨hs, trivial⟩
    | copy h =>
      simp only [Op.h] at hb hlt ⊢
      by_cases hc : b.closed = true
      · simp only [hc, if_true]; intro _; exact ⟨hs, trivial⟩
      · have hc : b.closed = false := by simpa using hc
        simp only [hc, Bool.false_eq_true, if_false]
        intro hinv
        refine ⟨⟨hinv, by simp [trackPos, hs.len], ?_, ?_⟩, trivial⟩
        · intro i b' q hb' hq hc'
          simp only [trackPos] at hb' hq ⊢
          rcases Nat.lt_or_ge i s.heap.length with hi | hi
          · rw [List.getElem?_append_left hi] at hb'
            rw [List.getElem?_append_left (by rw [hs.len]; exact hi)] at hq
            exact hs.pos i b' q hb' hq hc'
          · have hi' : i = s.heap.length := by
              have := (List.getElem?_eq_some_iff.1 hb').1
              simp at this; omega
            subst hi'
            rw [← hs.len, List.getElem?_append_right (by omega)] at hq
            rw [List.getElem?_append_right (by omega)] at hb'
            simp only [Nat.sub_self, List.getElem?_cons_zero, Option.some.injEq] at hb' hq
            subst hb'
            have hlt' : h < ps.length := by rw [hs.len]; exact hlt
            have : ps[h]? = some q := by
              rw [List.getElem?_eq_getElem hlt'] at hq ⊢
              simpa using hq
            exact hs.pos h b q hb this hc
        · intro _; exact hs.rdr (posOpen_pos hb hc)
    | close h =>
      simp only [Op.h] at hb hlt ⊢
      by_cases hc : b.closed = true
      · simp only [hc, if_true]; intro _; exact ⟨hs, trivial⟩
      · have hc : b.closed = false := by simpa using hc
        simp only [hc, Bool.false_eq_true, if_false]
        intro hinv
        have hcount := posOpen_set (b' := { closed := true }) hb
        simp only [hc, Bool.false_eq_true, if_false, if_true] at hcount
        have hcnt := hs.inv.cnt
        refine ⟨⟨hinv, by simp [trackPos, hs.len], ?_, ?_⟩, trivial⟩
        · intro i b' q hb' hq hc'
          simp only [trackPos] at hb' hq ⊢
          by_cases hih : h = i
          · subst hih
            rw [List.getElem?_set_self hlt] at hb'
            injection hb' with hb'
            subst hb'
            cases hc'
          · rw [List.getElem?_set_ne hih] at hb'
            have h2 : 0 < posOpen (s.heap.set h { closed := true }) :=
              posOpen_pos (h := i) (b := b') (by rw [List.getElem?_set_ne hih]; exact hb') hc'
            unfold Pos.unref
            rw [if_pos (by omega)]
            exact hs.pos i b' q hb' hq hc'
        · intro hop
          simp only at hop ⊢
          unfold Pos.unref
          rw [if_pos (by omega)]
          exact hs.rdr (by omega)
    | unwrap h => intro _; exact ⟨hs, trivial⟩
    | writeTo h w => intro _; exact ⟨hs, trivial⟩

theorem tinv_run {K : PosKind σ} {F : List Byte} {Inv : σ → Prop} (hG : HonestGet K F Inv) (ops : List Op)
    {s : PosSys σ} {ps : List Nat} (hs : TInv Inv s ps) :
    TInv Inv (run (Pos.step K) s ops).1 (track ps ops (run (Pos.step K) s ops).2) := by
  induction ops generalizing s ps with
  | nil => exact hs
  | cons op ops ih => rw [run_cons]; exact ih (tinv_step hG hs op).1

/-! ## Closing the reader -/

/-- Fetching does not close. -/
def LogOk (K : PosKind (Rec σ)) : Prop :=
  ∀ st x off, ∃ ext, (K.get st x off).1.log = st.log ++ ext ∧ closes ext = []

theorem logOk_at (R : Rdr σ) : LogOk (atKind R.record) := by
  intro st x off
  exact ⟨[.readAt x off (R.readAt st.inner x off).2], rfl, rfl⟩

theorem logOk_seek (R : Rdr σ) : LogOk (seekKind R.record) := by
  intro st x off
  simp only [seekKind, Rdr.record]
  rcases (R.seek st.inner off 0).2 with ⟨n, e⟩ | p
  rotate_left
  · exact ⟨[.seek off 0 (.panics p)], rfl, rfl⟩
  cases e with
  | some e => exact ⟨[.seek off 0 (.ok (n, some e))], rfl, rfl⟩
  | none =>
    refine ⟨[.seek off 0 (.ok (n, none)),
      .read x (R.read (R.seek st.inner off 0).1 x).2], ?_, rfl⟩
    simp

theorem closes_append' (l l' : List Call) : closes (l ++ l') = closes l ++ closes l' := by
  simp [closes]

/-- Closed as often as it should have been. -/
structure PosCloseInv (K : PosKind (Rec σ)) (s : PosSys (Rec σ)) : Prop where
  inv : PosInv s
  openNone : 0 < posOpen s.heap → closes s.common.rdr.log = []
  closedOnce : posOpen s.heap = 0 → (closes s.common.rdr.log).length = if K.R.isCloser then 1 else 0

/-- What a step does to the reader's closes. -/
theorem pos_log (K : PosKind (Rec σ)) (hK : LogOk K) (s : PosSys (Rec σ)) (op : Op)
    (hne : (∀ h, op ≠ .close h) ∨ ∀ b, s.heap[op.h]? = some b → b.closed = true) :
    ∃ ext, (Pos.step K s op).1.common.rdr.log = s.common.rdr.log ++ ext ∧ closes ext = [] := by
  have none : ∃ ext, s.common.rdr.log = s.common.rdr.log ++ ext ∧ closes ext = [] := ⟨[], by simp, rfl⟩
  have att : ∀ k off, ∃ ext, (Pos.attempt K s.common k off).1.rdr.log = s.common.rdr.log ++ ext ∧ closes ext = [] := by
    intro k off
    rcases attempt_frame K s.common k off with h | ⟨x, o, h⟩
    · rw [h]; exact none
    · rw [h]; exact hK _ _ _
  unfold Pos.step
  cases hb : s.heap[op.h]? with
  | none => exact none
  | some b =>
    cases op with
    | read h k =>
      simp only [Pos.read]
      by_cases hc : b.closed = true
      · simp only [hc, if_true]; exact none
      · simp only [hc, if_false]
        cases b.err with
        | some e => exact none
        | none =>
          have := att k b.offset
          simp only
          generalize Pos.attempt K s.common k b.offset = r at *
          obtain ⟨c', r⟩ := r
          cases r with
          | panic p => exact this
          | hang => exact this
          | ret de =>
            obtain ⟨d, e⟩ := de
            simp only [Bool.false_eq_true, if_false]
            rw [(served_common _ _ _ _ _ _ _).2.2.1]
            exact this
    | readAt h k off =>
      simp only [Pos.readAt]
      by_cases hc : b.closed = true
      · simp only [hc, if_true]; exact none
      · simp only [hc, if_false]
        by_cases h0 : off < 0
        · simp only [h0, if_true]; exact none
        · simp only [h0, if_false]
          have := att k off
          generalize Pos.attempt K s.common k off = r at *
          obtain ⟨c', r⟩ := r
          cases r <;> exact this
    | seek h off wh =>
      simp only [Pos.seek, ReaderAtBody.seek]
      repeat' split
      all_goals exact none
    | remaining h => exact none
    | copy h => simp only; split <;> exact none
    | close h =>
      rcases hne with hne | hne
      · exact absurd rfl (hne h)
      · simp only [hne b hb, if_true]; exact none
    | unwrap h => exact none
    | writeTo h w => exact none

/-- The counter only sees open and closed. -/
theorem pos_openCount (K : PosKind σ) (s : PosSys σ) (op : Op) (hl : 0 ≤ s.common.length)
    (hne : (∀ h, op ≠ .close h) ∨ ∀ b, s.heap[op.h]? = some b → b.closed = true) :
    (0 < posOpen (Pos.step K s op).1.heap ↔ 0 < posOpen s.heap) := by
  have set : ∀ b b' : PosBody, s.heap[op.h]? = some b → b.closed = false → b'.closed = false →
      (0 < posOpen (s.heap.set op.h b') ↔ 0 < posOpen s.heap) := by
    intro b b' h1 h2 h3
    have := posOpen_set (b' := b') h1
    simp only [h2, h3, Bool.false_eq_true, if_false] at this
    omega
  cases heapStep K s op hl with
  | keep h1 _ _ => rw [h1]
  | read b' _ _ _ _ h1 h2 _ _ h3 _ => rw [h3]; exact set _ _ h1 h2 h2
  | seek b' _ _ _ h1 h2 _ h3 => rw [h3]; exact set _ _ h1 h2 h2
  | copy b' h1 h2 _ h3 _ =>
    rw [h3]
    have := posOpen_pos h1 h2
    simp only [posOpen, List.countP_append] at this ⊢
    omega
  | close b' _ h1 h2 h3 h4 _ =>
    rcases hne with hne | hne
    · exact absurd h3 (hne _)
    · rw [hne _ h1] at h2; cases h2

/-- Closing an open body. -/
theorem pos_close (K : PosKind σ) {s : PosSys σ} (hs : PosInv s) {h : Nat} {b : PosBody} (hb : s.heap[h]? = some b)
    (hc : b.closed = false) :
    (0 < posOpen (Pos.step K s (.close h)).1.heap ∧ (Pos.step K s (.close h)).2 = .closed none ∧
      (Pos.step K s (.close h)).1.common.rdr = s.common.rdr) ∨
    (posOpen (Pos.step K s (.close h)).1.heap = 0 ∧ posOpen s.heap = 1 ∧
      ((K.R.isCloser = true ∧ (Pos.step K s (.close h)).2 = passedOn (K.R.close s.common.rdr).2 ∧
        (Pos.step K s (.close h)).1.common.rdr = (K.R.close s.common.rdr).1) ∨
      (K.R.isCloser = false ∧ (Pos.step K s (.close h)).2 = .closed none ∧
        (Pos.step K s (.close h)).1.common.rdr = s.common.rdr))) := by
  have hcount := posOpen_set (b' := { closed := true }) hb
  simp only [hc, Bool.false_eq_true, if_false, if_true] at hcount
  have hcnt := hs.cnt
  have hR := hs.live (posOpen_pos hb hc)
  simp only [Pos.step, Op.h, hb, hc, Bool.false_eq_true, if_false, Pos.unref, hR, Bool.true_and]
  by_cases hrc : s.common.refcnt - 1 > 0
  · rw [if_pos hrc]
    exact .inl ⟨by omega, rfl, rfl⟩
  · rw [if_neg hrc]
    refine .inr ⟨by omega, by omega, ?_⟩
    by_cases hcl : K.R.isCloser = true
    · rw [if_pos hcl]
      refine .inl ⟨hcl, rfl, ?_⟩
      cases (K.R.close s.common.rdr).2 <;> rfl
    · rw [if_neg hcl]; exact .inr ⟨by simpa using hcl, rfl, rfl⟩

end Verif
