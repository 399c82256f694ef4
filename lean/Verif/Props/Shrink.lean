import Verif.Spec.Shrink
import Verif.Spec.Positional
import Verif.Proofs.PosMore
import Verif.Props.Positional

/-!
# Bodies over sources that fail (C62)

`Spec/Shrink.lean` says what a family of Bodies over an `io.ReaderAt` or `io.Seeker` does in terms of what the source does.
-/

set_option autoImplicit false

namespace Verif

open Spec

variable {σ : Type}

/-- What is needed of a kind of source. -/
structure FrailGet (K : PosKind σ) (F : List Byte) (Inv : σ → Prop) (A : Reply → Prop) : Prop where
  idle : A {}
  get : ∀ st x (off : Int), Inv st → 0 ≤ off → off < 2 ^ 63 → Inv (K.get st x off).1 ∧
    match (K.get st x off).2 with
    | .ret (d, e) => d.length ≤ x ∧ d = (F.drop off.toNat).take d.length ∧ A { short := x - d.length, err := e }
    | .panic q => A { crash := some q }
    | .hang => False
  close : ∀ st, Inv st → K.R.isCloser = true → A { closing := (K.R.close st).2 }

theorem checked_answers {F : List Byte} {A : Reply → Prop} {p x : Nat} {r : RResp} (h : Replies F A p x r) :
    match checked x r with
    | .ret (d, e) => d.length ≤ x ∧ d = (F.drop p).take d.length ∧ A { short := x - d.length, err := e }
    | .panic q => A { crash := some q }
    | .hang => False := by
  cases r with
  | got d e =>
    simp only [Replies] at h
    simp only [checked]
    by_cases hd : d.length ≤ x
    · rw [if_pos hd] at h; rw [if_pos hd]; exact ⟨hd, h⟩
    · rw [if_neg hd] at h; rw [if_neg hd]; exact h
  | negative => exact h
  | panics q => exact h

theorem frail_at {R : Rdr σ} {F : List Byte} {Inv : σ → Prop} {A : Reply → Prop} (hR : FrailReaderAt R F Inv A) : FrailGet (atKind R) F Inv A where
  idle := hR.idle
  get st x off hi h0 h63 := by
    obtain ⟨h1, h2⟩ := hR.readAt st x off hi h0 h63
    exact ⟨h1, checked_answers h2⟩
  close := hR.close

theorem frail_seek {R : Rdr σ} {F : List Byte} {Inv : σ → Prop} {At : σ → Nat → Prop} {A : Reply → Prop} (hR : FrailSeeker R F Inv At A) :
    FrailGet (seekKind R) F Inv A where
  idle := hR.idle
  get st x off hi h0 h63 := by
    have h := hR.seek st off hi h0 h63
    simp only [seekKind]
    generalize R.seek st off 0 = q at h
    obtain ⟨st', r⟩ := q
    cases r with
    | panics q => exact h
    | ok r =>
      obtain ⟨n, e⟩ := r
      cases e with
      | some e => exact ⟨h.1, by simp, by simp, h.2 x⟩
      | none =>
        obtain ⟨h1, h2⟩ := hR.read st' off.toNat x h
        exact ⟨h1, checked_answers h2⟩
  close := hR.close

/-- A body as a Body. -/
def PosBody.frail (b : PosBody) : Frail := ⟨b.offset.toNat, b.err, !b.closed⟩

structure ShRel (n : Nat) (Inv : σ → Prop) (s : PosSys σ) (f : Shrunk) : Prop where
  inv : PosInv s
  bodies : f.bodies = s.heap.map PosBody.frail
  stop : 0 < posOpen s.heap → s.common.length = f.stop ∧ Inv s.common.rdr
  le : f.stop ≤ n
  pos : ∀ b ∈ f.bodies, b.pos ≤ n

theorem ShRel_init {Inv : σ → Prop} {st : σ} (hi : Inv st) (n : Nat) : ShRel n Inv (ReaderAtBody.init st n) ⟨n, [{}]⟩ where
  inv := posInv_init st n
  bodies := rfl
  stop _ := ⟨rfl, hi⟩
  le := Nat.le_refl _
  pos := by simp

/-- The common part of `Read` and `ReadAt`. -/
theorem attempt_frail {K : PosKind σ} {F : List Byte} {Inv : σ → Prop} {A : Reply → Prop} (hG : FrailGet K F Inv A) (c : PosCommon σ) (stop p k : Nat)
    (hc : c.length = stop) (hr : c.hasR = true) (hi : Inv c.rdr) (h63 : stop < 2 ^ 63) (off : Int) (h0 : 0 ≤ off) (hp : p = min off.toNat stop) :
    ∃ a, A a ∧ ∃ c', Pos.attempt K c k off = (c', match a.fetch F stop p k with | .ok r => .ret r | .error q => .panic q) ∧
      c'.length = stop ∧ c'.refcnt = c.refcnt ∧ c'.hasR = c.hasR ∧ Inv c'.rdr := by
  have hoff : (if off > c.length then c.length else off) = (p : Int) := by rw [hc]; split <;> omega
  have hple : p ≤ stop := by omega
  unfold Pos.attempt
  simp only [hoff]
  rw [hc]
  by_cases hs : stop ≤ p
  · refine ⟨{}, hG.idle, c, ?_, hc, rfl, rfl, hi⟩
    rw [if_neg (show ¬ ((stop : Int) - p > 0) by omega)]
    simp only [Reply.fetch, if_pos hs]
    congr 3
    have : (stop : Int) - p = 0 := by omega
    rw [this]
    by_cases hk : k = 0
    · subst hk; rfl
    · simp [hk]
  · rw [if_pos (show (stop : Int) - p > 0 by omega)]
    have hx : (if decide ((k : Int) > (stop : Int) - p) = true then (stop : Int) - p else k) = ((min k (stop - p) : Nat) : Int) := by
      by_cases hk : (k : Int) > (stop : Int) - p
      · rw [if_pos (by simpa using hk)]; omega
      · rw [if_neg (by simpa using hk)]; omega
    rw [hx]
    have hg : goSlice (List.replicate k (0 : Byte)) 0 ((min k (stop - p) : Nat) : Int) = some (List.replicate (min k (stop - p)) 0) := by
      simp [goSlice]
      omega
    rw [hg]
    simp only [List.length_replicate]
    unfold Pos.fetch
    rw [if_neg (show ¬ ((!c.hasR) = true) by simp [hr])]
    obtain ⟨g1, g2⟩ := hG.get c.rdr (min k (stop - p)) p hi (by omega) (by omega)
    generalize K.get c.rdr (min k (stop - p)) p = q at g1 g2
    obtain ⟨st', r⟩ := q
    cases r with
    | hang => exact absurd g2 id
    | panic q =>
      refine ⟨_, g2, { c with rdr := st' }, ?_, hc, rfl, rfl, g1⟩
      simp [Reply.fetch, hs]
    | ret de =>
      obtain ⟨d, e⟩ := de
      obtain ⟨g3, g4, g5⟩ := g2
      refine ⟨_, g5, { c with rdr := st' }, ?_, hc, rfl, rfl, g1⟩
      simp only [Reply.fetch, if_neg hs]
      rw [show min k (stop - p) - (min k (stop - p) - d.length) = d.length by omega]
      rw [show ((p : Int)).toNat = p by omega] at g4
      rw [← g4]
      congr 3
      cases e with
      | some e => simp
      | none =>
        by_cases hk : (k : Int) > (stop : Int) - p
        · rw [if_pos (show (none : Option Err) = none ∧ stop < p + k from ⟨rfl, by omega⟩)]; simp [hk]
        · rw [if_neg (show ¬ ((none : Option Err) = none ∧ stop < p + k) by simp; omega)]; simp [hk]

theorem frail_open (l : List PosBody) : (l.map PosBody.frail).countP (·.isOpen) = posOpen l := by
  simp only [posOpen, List.countP_map]
  congr 1

/-- Changes of a body that is open and stays open. -/
theorem ShRel_set {n : Nat} {Inv : σ → Prop} {s : PosSys σ} {f : Shrunk} (h : ShRel n Inv s f) {i : Nat} {b : PosBody} (hb : s.heap[i]? = some b)
    (hc : b.closed = false) (b' : PosBody) (hc' : b'.closed = false) (ho : 0 ≤ b'.offset) (hn : b'.offset ≤ n) (c : PosCommon σ) (stop : Nat)
    (hcl : c.length = stop) (hr : c.refcnt = s.common.refcnt) (hh : c.hasR = s.common.hasR) (hi : Inv c.rdr) (hs : stop ≤ n) :
    ShRel n Inv { common := c, heap := s.heap.set i b' } { stop := stop, bodies := f.bodies.set i b'.frail } where
  inv := posInv_set h.inv hb hc hc' ho (by rw [hcl]; omega) hr hh
  bodies := by rw [h.bodies, List.map_set]
  stop _ := ⟨hcl, hi⟩
  le := hs
  pos := by
    intro x hx
    rcases List.mem_or_eq_of_mem_set hx with h1 | h1
    · exact h.pos x h1
    · rw [h1]; simp only [PosBody.frail]; omega

theorem shrel_step {K : PosKind σ} {F : List Byte} {Inv : σ → Prop} {A : Reply → Prop} (hG : FrailGet K F Inv A) {n : Nat} (h63 : n < 2 ^ 63)
    {s : PosSys σ} {f : Shrunk} (h : ShRel n Inv s f) (op : Op) (hv : op.Valid) :
    ∃ a, A a ∧ (Pos.step K s op).2 = (f.step K.clamp F a op).2 ∧ ShRel n Inv (Pos.step K s op).1 (f.step K.clamp F a op).1 := by
  have hle := h.le
  unfold Pos.step Shrunk.step
  rw [h.bodies, List.getElem?_map]
  cases hb : s.heap[op.h]? with
  | none => exact ⟨{}, hG.idle, rfl, h⟩
  | some b =>
    have hbo := h.inv.off b (List.mem_of_getElem? hb)
    have hbn : b.offset ≤ n := by
      have := h.pos b.frail (by rw [h.bodies]; exact List.mem_map_of_mem (List.mem_of_getElem? hb))
      simp only [PosBody.frail] at this
      omega
    simp only [Option.map_some]
    cases hc : b.closed with
    | true =>
      have hfo : b.frail.isOpen = false := by simp [PosBody.frail, hc]
      refine ⟨{}, hG.idle, ?_⟩
      cases op with
      | read i k => simp only [Pos.read, hc, if_true, hfo, Bool.not_false]; exact ⟨by simp, h⟩
      | readAt i k off => simp only [Pos.readAt, hc, if_true, hfo, Bool.not_false]; exact ⟨by simp, h⟩
      | seek i off wh => simp only [Pos.seek, ReaderAtBody.seek, hc, if_true, hfo, Bool.not_false]; exact ⟨by simp, h⟩
      | remaining i => simp only [Pos.remaining, hc, if_true, hfo, Bool.not_false]; exact ⟨by simp, h⟩
      | writeTo i w => exact ⟨rfl, h⟩
      | copy i => simp only [if_true, hfo, Bool.false_eq_true, if_false]; exact ⟨by simp, h⟩
      | close i => simp only [if_true, hfo, Bool.false_eq_true, if_false]; exact ⟨by simp, h⟩
      | unwrap i => simp only [hfo, Bool.not_true, Bool.false_and]; exact ⟨by simp, h⟩
    | false =>
      have hfo : b.frail.isOpen = true := by simp [PosBody.frail, hc]
      have hopen := posOpen_pos hb hc
      obtain ⟨hlen, hinv⟩ := h.stop hopen
      have hr := h.inv.live hopen
      have hpos : (b.frail.pos : Int) = b.offset := by simp only [PosBody.frail]; omega
      cases op with
      | read i k =>
        simp only [Op.h] at hb
        simp only [Pos.read, hc, hfo, Bool.false_eq_true, if_false, Bool.not_true]
        cases he : b.err with
        | some e =>
          have : b.frail.err = some e := he
          rw [this]
          exact ⟨{}, hG.idle, rfl, h⟩
        | none =>
          have hfe : b.frail.err = none := he
          obtain ⟨a, ha, c', h1, h2, h3, h4, h5⟩ := attempt_frail hG s.common f.stop (min b.frail.pos f.stop) k hlen hr hinv (by omega) b.offset hbo rfl
          refine ⟨a, ha, ?_⟩
          rw [h1, hfe]
          simp only [ne_eq, not_true_eq_false, if_false]
          cases hf : a.fetch F f.stop (min b.frail.pos f.stop) k with
          | error q =>
            exact ⟨rfl, ⟨⟨by simp only; rw [h2]; omega, h.inv.off, by simp only; rw [h3]; exact h.inv.cnt, fun _ => by simp only; rw [h4]; exact hr⟩,
              h.bodies, fun _ => ⟨h2, h5⟩, h.le, h.pos⟩⟩
          | ok de =>
            obtain ⟨d, e⟩ := de
            have hd : min b.frail.pos f.stop + d.length ≤ f.stop := by
              unfold Reply.fetch at hf
              by_cases hs : f.stop ≤ min b.frail.pos f.stop
              · rw [if_pos hs] at hf
                simp only [Except.ok.injEq, Prod.mk.injEq] at hf
                rw [← hf.1]; simp; omega
              · rw [if_neg hs] at hf
                cases hcr : a.crash with
                | some q => rw [hcr] at hf; cases hf
                | none =>
                  rw [hcr] at hf
                  simp only [Except.ok.injEq, Prod.mk.injEq] at hf
                  rw [← hf.1]
                  simp only [List.length_take]
                  omega
            have hoff : ((if b.offset > s.common.length then s.common.length else b.offset) + (d.length : Int)) =
                ((min b.frail.pos f.stop + d.length : Nat) : Int) := by
              rw [hlen]
              split <;> omega
            simp only
            rw [hoff]
            have hbf : ∀ e, ({ b with offset := ((min b.frail.pos f.stop + d.length : Nat) : Int), err := e } : PosBody).frail =
                { pos := min b.frail.pos f.stop + d.length, err := e, isOpen := true } := by
              intro e
              simp only [PosBody.frail, hc, Bool.not_false, Frail.mk.injEq, and_true]
              omega
            have key := fun e stop c (hcl : c.length = ((stop : Nat) : Int)) hr hh hi hs => ShRel_set h hb hc
              { b with offset := ((min b.frail.pos f.stop + d.length : Nat) : Int), err := e } hc (by simp only; omega) (by simp only; omega) c stop hcl hr hh hi hs
            cases e with
            | none =>
              simp only [Pos.served, if_true]
              refine ⟨by simp, ?_⟩
              have := key none f.stop c' h2 h3 h4 h5 h.le
              rw [hbf] at this
              rw [h.bodies] at this
              exact this
            | some e =>
              simp only [Pos.served]
              refine ⟨by simp, ?_⟩
              rw [if_neg (show ¬ (some e = none) by simp)]
              have := key (some e) (min b.frail.pos f.stop + d.length)
                (if ((min b.frail.pos f.stop + d.length : Nat) : Int) < c'.length then { c' with length := ((min b.frail.pos f.stop + d.length : Nat) : Int) } else c')
                (by split
                    · rfl
                    · omega) (by split <;> exact h3) (by split <;> exact h4) (by split <;> exact h5) (by omega)
              rw [hbf] at this
              rw [h.bodies] at this
              exact this
      | readAt i k off =>
        simp only [Pos.readAt, hc, hfo, Bool.false_eq_true, if_false, Bool.not_true]
        by_cases ho : off < 0
        · refine ⟨{}, hG.idle, ?_⟩; rw [if_pos ho, if_pos ho]; exact ⟨rfl, h⟩
        · rw [if_neg ho]
          obtain ⟨a, ha, c', h1, h2, h3, h4, h5⟩ := attempt_frail hG s.common f.stop (min off.toNat f.stop) k hlen hr hinv (by omega) off (by omega) rfl
          refine ⟨a, ha, ?_⟩
          rw [h1, if_neg ho]
          have hk : ShRel n Inv { s with common := c' } f :=
            ⟨⟨by simp only; rw [h2]; omega, h.inv.off, by simp only; rw [h3]; exact h.inv.cnt, fun _ => by simp only; rw [h4]; exact hr⟩,
              h.bodies, fun _ => ⟨h2, h5⟩, h.le, h.pos⟩
          cases hf : a.fetch F f.stop (min off.toNat f.stop) k with
          | error q => exact ⟨rfl, hk⟩
          | ok de => exact ⟨rfl, hk⟩
      | seek i off wh =>
        simp only [Op.h] at hb
        refine ⟨{}, hG.idle, ?_⟩
        have hcr : ReaderAtBody.commonRemaining s.common = f.stop := hlen
        simp only [Pos.seek, ReaderAtBody.seek, hcr, hc, hfo, Bool.false_eq_true, if_false, Bool.not_true]
        have hv' : IsI64 off := hv
        have fin : ∀ t : Int, -(2 ^ 63) ≤ t → t < 2 ^ 64 → ∀ cond : Prop, [Decidable cond] → ¬ cond →
            let o := if i64 t < 0 then (s, Out.seek (-1) (some (.negComputed (i64 t))))
              else ({ s with heap := s.heap.set i { err := none, offset := if i64 t > f.stop then (f.stop : Int) else i64 t, closed := false } },
                .seek (if i64 t > f.stop then (f.stop : Int) else i64 t) none)
            let o' : Shrunk × Out := if cond then (f, .seek (-1) (some (.negStart off)))
              else if t < 0 then (f, .seek (-1) (some (.negComputed t)))
              else if 2 ^ 63 ≤ t then (f, .seek (-1) (some (.negComputed (t - 2 ^ 64))))
              else ({ f with bodies := f.bodies.set i { pos := min t.toNat f.stop, err := none, isOpen := true } }, .seek (min t.toNat f.stop : Nat) none)
            o.2 = o'.2 ∧ ShRel n Inv o.1 o'.1 := by
          intro t h1 h2 cond _ hcond
          simp only
          rw [if_neg hcond]
          by_cases ht : t < 0
          · rw [if_pos ht, i64_of_isI64 ⟨h1, by omega⟩, if_pos ht]; exact ⟨rfl, h⟩
          · rw [if_neg ht]
            by_cases hbig : 2 ^ 63 ≤ t
            · rw [if_pos hbig, i64_over hbig h2, if_pos (show t - 2 ^ 64 < 0 by omega)]; exact ⟨rfl, h⟩
            · rw [if_neg hbig, i64_of_isI64 ⟨h1, by omega⟩, if_neg ht]
              have e : (if t > f.stop then (f.stop : Int) else t) = ((min t.toNat f.stop : Nat) : Int) := by split <;> omega
              rw [e]
              refine ⟨rfl, ?_⟩
              have := ShRel_set h hb hc { err := none, offset := ((min t.toNat f.stop : Nat) : Int), closed := false } rfl (by simp only; omega) (by simp only; omega)
                s.common f.stop hlen rfl rfl hinv h.le
              rw [show ({ err := none, offset := ((min t.toNat f.stop : Nat) : Int), closed := false } : PosBody).frail = { pos := min t.toNat f.stop } by
                simp only [PosBody.frail, Bool.not_false, Frail.mk.injEq, and_true]; omega] at this
              exact this
        by_cases w0 : wh = 0
        · subst w0
          simp only [seekTarget, if_true, true_and]
          by_cases ho : off < 0
          · rw [if_pos ho, if_pos ho]; exact ⟨rfl, h⟩
          · rw [if_neg ho]
            rw [if_neg (show ¬ ((0 : Int) ≠ 0 ∧ (0 : Int) ≠ 1 ∧ (0 : Int) ≠ 2) by decide)]
            have := fin off hv'.1 (by have := hv'.2; omega) (off < 0) ho
            rw [i64_of_isI64 hv', h.bodies] at this
            exact this
        · rw [if_neg (show ¬ (wh = 0 ∧ off < 0) by simp [w0])]
          by_cases w1 : wh = 1
          · subst w1
            rw [if_neg (show ¬ ((1 : Int) ≠ 0 ∧ (1 : Int) ≠ 1 ∧ (1 : Int) ≠ 2) by decide)]
            have := fin (b.frail.pos + off) (by have := hv'.1; omega) (by have := hv'.2; omega) ((1 : Int) = 0 ∧ off < 0) (by simp)
            rw [show (b.frail.pos : Int) + off = off + b.offset by omega, h.bodies] at this
            simp only [seekTarget, show ¬ ((1 : Int) = 0) by decide, if_false, if_true]
            rw [show (b.frail.pos : Int) + off = off + b.offset by omega]
            simpa using this
          · by_cases w2 : wh = 2
            · subst w2
              rw [if_neg (show ¬ ((2 : Int) ≠ 0 ∧ (2 : Int) ≠ 1 ∧ (2 : Int) ≠ 2) by decide)]
              have := fin (f.stop + off) (by have := hv'.1; omega) (by have := hv'.2; omega) ((2 : Int) = 0 ∧ off < 0) (by simp)
              rw [show (f.stop : Int) + off = off + f.stop by omega, h.bodies] at this
              simp only [seekTarget, show ¬ ((2 : Int) = 0) by decide, show ¬ ((2 : Int) = 1) by decide, if_false, if_true]
              rw [show (f.stop : Int) + off = off + f.stop by omega]
              simpa using this
            · rw [if_pos (show wh ≠ 0 ∧ wh ≠ 1 ∧ wh ≠ 2 from ⟨w0, w1, w2⟩)]
              simp only [seekTarget, w0, w1, w2, if_false]
              exact ⟨trivial, h⟩
      | remaining i =>
        refine ⟨{}, hG.idle, ?_, h⟩
        simp only [Pos.remaining, hc, hfo, Bool.false_eq_true, if_false, Bool.not_true, hlen, Out.remaining.injEq]
        cases K.clamp with
        | false => simp; omega
        | true =>
          by_cases hs : f.stop ≤ b.frail.pos
          · rw [if_pos (show true = true ∧ f.stop ≤ b.frail.pos from ⟨rfl, hs⟩), if_pos (by simp; omega)]
          · rw [if_neg (show ¬ (true = true ∧ f.stop ≤ b.frail.pos) by simp; omega), if_neg (by simp; omega)]; omega
      | writeTo i w => exact ⟨{}, hG.idle, rfl, h⟩
      | copy i =>
        refine ⟨{}, hG.idle, ?_⟩
        simp only [hfo, Bool.false_eq_true, if_false, if_true]
        refine ⟨by simp, ?_⟩
        refine ⟨?_, ?_, ?_, h.le, ?_⟩
        · have := posInv_step K s (.copy i) h.inv
          unfold Pos.step at this
          rw [hb] at this
          simpa only [hc, Bool.false_eq_true, if_false] using this
        · simp
        · intro _; exact ⟨hlen, hinv⟩
        · intro x hx
          simp only [List.mem_append, List.mem_singleton] at hx
          rcases hx with hx | hx
          · exact h.pos x (by rw [h.bodies]; exact hx)
          · rw [hx]; omega
      | close i =>
        have hpi := posInv_step K s (.close i) h.inv
        unfold Pos.step at hpi
        rw [hb] at hpi
        simp only [hc, Bool.false_eq_true, if_false] at hpi
        simp only [hfo, Bool.false_eq_true, if_false, if_true]
        have hcount := posOpen_set (b' := { closed := true }) hb
        simp only [hc, Bool.false_eq_true, if_false, if_true] at hcount
        have hcnt := h.inv.cnt
        have hposs : ∀ x ∈ (s.heap.map PosBody.frail).set i { isOpen := false }, x.pos ≤ n := by
          intro x hx
          rcases List.mem_or_eq_of_mem_set hx with h1 | h1
          · exact h.pos x (by rw [h.bodies]; exact h1)
          · rw [h1]; exact Nat.zero_le _
        have hbd : (s.heap.map PosBody.frail).set i { isOpen := false } = (s.heap.set i { closed := true }).map PosBody.frail := by
          rw [List.map_set]; rfl
        rw [frail_open]
        simp only [Op.h] at hcount
        by_cases hone : posOpen s.heap = 1
        · have hrc : ¬ (s.common.refcnt - 1 > 0) := by omega
          have hrel : ShRel n Inv ⟨(Pos.unref K.R s.common).1, s.heap.set i { closed := true }⟩ { f with bodies := (s.heap.map PosBody.frail).set i { isOpen := false } } :=
            ⟨hpi, hbd, fun hp => by simp only at hp; omega, h.le, hposs⟩
          simp only [if_pos hone]
          by_cases hcl : K.R.isCloser = true
          · refine ⟨_, hG.close s.common.rdr hinv hcl, ?_, hrel⟩
            simp only [Pos.unref, if_neg hrc, hr, hcl, Bool.and_self, if_true, passedOn]
            cases (K.R.close s.common.rdr).2 <;> rfl
          · refine ⟨{}, hG.idle, ?_, hrel⟩
            simp only [Pos.unref, if_neg hrc, hcl, Bool.and_false, Bool.false_eq_true, if_false, passedOn]
        · have hrc : s.common.refcnt - 1 > 0 := by omega
          simp only [if_neg hone]
          refine ⟨{}, hG.idle, by simp only [Pos.unref, if_pos hrc, passedOn], ⟨hpi, hbd, fun _ => ?_, h.le, hposs⟩⟩
          simp only [Pos.unref, if_pos hrc]
          exact ⟨hlen, hinv⟩
      | unwrap i => exact ⟨{}, hG.idle, by simp [hr, hfo], h⟩

theorem shrel_run {K : PosKind σ} {F : List Byte} {Inv : σ → Prop} {A : Reply → Prop} (hG : FrailGet K F Inv A) {n : Nat} (h63 : n < 2 ^ 63)
    (ops : List Op) {s : PosSys σ} {f : Shrunk} (h : ShRel n Inv s f) (hv : ∀ op ∈ ops, op.Valid) :
    ∃ as : List Reply, as.length = ops.length ∧ (∀ a ∈ as, A a) ∧ (run (Pos.step K) s ops).2 = (Shrunk.run K.clamp F f (as.zip ops)).2 ∧
      ShRel n Inv (run (Pos.step K) s ops).1 (Shrunk.run K.clamp F f (as.zip ops)).1 := by
  induction ops generalizing s f with
  | nil => exact ⟨[], rfl, by simp, rfl, h⟩
  | cons op ops ih =>
    obtain ⟨a, h1, h2, h3⟩ := shrel_step hG h63 h op (hv op List.mem_cons_self)
    obtain ⟨as, k1, k2, k3, k4⟩ := ih h3 (fun op ho => hv op (List.mem_cons_of_mem _ ho))
    refine ⟨a :: as, by simp [k1], ?_, ?_, k4⟩
    · intro x hx
      rcases List.mem_cons.1 hx with hx | hx
      · rw [hx]; exact h1
      · exact k2 x hx
    · show (Pos.step K s op).2 :: _ = _ :: _
      rw [h2, k3]
      rfl

/-- **C62.**  Over an `io.ReaderAt` that may fail in ways described by `A`, each history of calls on a family of Bodies gives the results of a family whose common
content only becomes shorter, for certain answers of the source that are in `A`. -/
theorem C62_readerAt {R : Rdr σ} {F : List Byte} {Inv : σ → Prop} {A : Reply → Prop} (hR : FrailReaderAt R F Inv A) (st : σ) (hi : Inv st) (n : Nat)
    (hn : n < 2 ^ 63) (ops : List Op) (hv : ∀ op ∈ ops, op.Valid) :
    ∃ as : List Reply, as.length = ops.length ∧ (∀ a ∈ as, A a) ∧ atOuts R st n ops = (Shrunk.run true F ⟨n, [{}]⟩ (as.zip ops)).2 := by
  obtain ⟨as, h1, h2, h3, _⟩ := shrel_run (frail_at hR) hn ops (ShRel_init hi n) hv
  refine ⟨as, h1, h2, ?_⟩
  simp only [atOuts, at_step]
  exact h3

/-- **C62** over an `io.Seeker`. -/
theorem C62_seeker {R : Rdr σ} {F : List Byte} {Inv : σ → Prop} {At : σ → Nat → Prop} {A : Reply → Prop} (hR : FrailSeeker R F Inv At A) (st : σ)
    (hi : Inv st) (n : Nat) (hn : n < 2 ^ 63) (ops : List Op) (hv : ∀ op ∈ ops, op.Valid) :
    ∃ as : List Reply, as.length = ops.length ∧ (∀ a ∈ as, A a) ∧ seekOuts R st n ops = (Shrunk.run false F ⟨n, [{}]⟩ (as.zip ops)).2 := by
  obtain ⟨as, h1, h2, h3, _⟩ := shrel_run (frail_seek hR) hn ops (ShRel_init hi n) hv
  refine ⟨as, h1, h2, ?_⟩
  simp only [seekOuts, seek_step]
  exact h3

/-! ## What a failure does to the others -/

/-- Where a Body stands, and where it stands judging by what the calls returned. -/
structure FrailAt (stop : Nat) (b : Frail) (q : Nat) : Prop where
  pos : b.isOpen = true → q = b.pos ∨ (stop ≤ b.pos ∧ stop ≤ q)
  err : b.isOpen = true → b.err ≠ none → stop ≤ b.pos

structure ShTrack (f : Shrunk) (ps : List Nat) : Prop where
  len : ps.length = f.bodies.length
  at_ : ∀ (h : Nat) b q, f.bodies[h]? = some b → ps[h]? = some q → FrailAt f.stop b q

theorem fetch_le {F : List Byte} {a : Reply} {stop p k : Nat} {d : List Byte} {e : Option Err} (h : a.fetch F stop p k = .ok (d, e)) :
    p + d.length ≤ max p stop := by
  unfold Reply.fetch at h
  split at h
  · cases h; simp; omega
  · split at h
    · cases h
    · cases h; simp only [List.length_take, List.length_drop]; omega

theorem FrailAt.mono {stop stop' : Nat} {b : Frail} {q : Nat} (h : FrailAt stop b q) (hs : stop' ≤ stop) : FrailAt stop' b q :=
  ⟨fun ho => by have := h.pos ho; omega, fun ho he => by have := h.err ho he; omega⟩

theorem shtrack_set {f : Shrunk} {ps : List Nat} (h : ShTrack f ps) {stop' : Nat} (hs : stop' ≤ f.stop) (i : Nat) (b' : Frail) (ps' : List Nat)
    (hl : ps'.length = ps.length) (ho : ∀ j, j ≠ i → ps'[j]? = ps[j]?) (hb : ∀ q, ps'[i]? = some q → FrailAt stop' b' q) :
    ShTrack ⟨stop', f.bodies.set i b'⟩ ps' where
  len := by simp [hl, h.len]
  at_ j x q hx hq := by
    simp only at hx ⊢
    by_cases hj : j = i
    · subst hj
      have hlt : j < f.bodies.length := by
        have := (List.getElem?_eq_some_iff.1 hx).1
        simpa using this
      rw [List.getElem?_set_self hlt] at hx
      cases hx
      exact hb q hq
    · rw [List.getElem?_set_ne (fun e => hj e.symm)] at hx
      rw [ho j hj] at hq
      exact (h.at_ j x q hx hq).mono hs

/-- What one call shows. -/
structure ShShows (f f' : Shrunk) (ps : List Nat) (op : Op) (o : Out) : Prop where
  mono : f'.stop ≤ f.stop
  /-- a failing `Read` -/
  fail : ∀ h k b q d e, op = .read h k → f.bodies[h]? = some b → b.isOpen = true → ps[h]? = some q → o = .read d (some e) → f'.stop ≤ q + d.length
  read : ∀ h k q d e, op = .read h k → ps[h]? = some q → o = .read d e → d ≠ [] → q + d.length ≤ f.stop
  readAt : ∀ h k off d e, op = .readAt h k off → o = .read d e → d ≠ [] → off.toNat + d.length ≤ f.stop
  seek : ∀ h off wh m, op = .seek h off wh → o = .seek m none → 0 ≤ m ∧ m ≤ f.stop
  remaining : ∀ h q m, op = .remaining h → ps[h]? = some q → o = .remaining m → m ≤ 0 ∨ m + q ≤ f.stop

theorem trackPos_nil (ps : List Nat) (h k : Nat) (e : Option Err) : trackPos ps (.read h k) (.read [] e) = ps := by
  simp [trackPos]; exact List.modify_id h ps

theorem shtrack_step (clamp : Bool) (F : List Byte) (a : Reply) {f : Shrunk} {ps : List Nat} (h : ShTrack f ps) (op : Op) :
    ShTrack (f.step clamp F a op).1 (trackPos ps op (f.step clamp F a op).2) ∧ ShShows f (f.step clamp F a op).1 ps op (f.step clamp F a op).2 := by
  unfold Shrunk.step
  cases hb : f.bodies[op.h]? with
  | none =>
    refine ⟨?_, Nat.le_refl _, ?_, ?_, ?_, ?_, ?_⟩ <;> (try intros; simp_all; done)
    cases op <;> exact h
  | some b =>
    have hlt := (List.getElem?_eq_some_iff.1 hb).1
    obtain ⟨q, hq⟩ : ∃ q, ps[op.h]? = some q := ⟨_, List.getElem?_eq_getElem (by rw [h.len]; exact hlt)⟩
    have hF := h.at_ _ _ _ hb hq
    cases op with
    | read i k =>
      simp only [Op.h] at hb hq hlt
      dsimp only
      cases ho : b.isOpen with
      | false =>
        simp only [Bool.not_false, if_true]
        rw [trackPos_nil]
        refine ⟨h, Nat.le_refl _, ?_, ?_, ?_, ?_, ?_⟩
        · intro i' k' b' q' d e hop hb' ho'; cases hop; rw [hb] at hb'; cases hb'; rw [ho] at ho'; cases ho'
        · intro i' k' q' d e hop hq' hd hne; cases hop; cases hd; exact absurd rfl hne
        all_goals (intros; simp_all; done)
      | true =>
        simp only [Bool.not_true, Bool.false_eq_true, if_false]
        by_cases he : b.err = none
        · rw [if_neg (by simp [he])]
          obtain ⟨r, hr⟩ : ∃ r, a.fetch F f.stop (min b.pos f.stop) k = r := ⟨_, rfl⟩
          rw [hr]
          cases r with
          | error p =>
            refine ⟨h, Nat.le_refl _, ?_, ?_, ?_, ?_, ?_⟩ <;> (intros; simp_all; done)
          | ok de =>
            obtain ⟨d, e⟩ := de
            have hle := fetch_le hr
            have hp := hF.pos ho
            have hd0 : d ≠ [] → 0 < d.length := List.length_pos_iff.2
            dsimp only
            have hstop : (if e = none then f.stop else min b.pos f.stop + d.length) ≤ f.stop := by split <;> omega
            refine ⟨?_, hstop, ?_, ?_, ?_, ?_, ?_⟩
            · refine shtrack_set h hstop i _ _ (by simp [trackPos]) ?_ ?_
              · intro j hj
                have hij : i ≠ j := fun e => hj e.symm
                simp [trackPos, List.getElem?_modify, hij]
              · intro q' hq'
                simp only [trackPos, List.getElem?_modify_eq, hq, Option.map_eq_map, Option.map_some, Option.some.injEq] at hq'
                subst hq'
                refine ⟨fun _ => ?_, fun _ hne => ?_⟩
                · simp only
                  by_cases hps : b.pos < f.stop
                  · left; omega
                  · have : d.length = 0 := by omega
                    split <;> omega
                · simp only at hne ⊢
                  rw [if_neg hne]; omega
            · intro i' k' b' q' d' e' hop hb' ho' hq' hd
              cases hop; cases hd; rw [hq] at hq'; cases hq'
              rw [if_neg (by simp)]
              show min b.pos f.stop + d.length ≤ _
              omega
            · intro i' k' q' d' e' hop hq' hd hne
              cases hop; cases hd; rw [hq] at hq'; cases hq'
              have := hd0 hne
              omega
            all_goals (intros; simp_all; done)
        · rw [if_pos (by simpa using he)]
          rw [trackPos_nil]
          refine ⟨h, Nat.le_refl _, ?_, ?_, ?_, ?_, ?_⟩
          · intro i' k' b' q' d e hop hb' ho' hq' hd
            cases hop; rw [hq] at hq'; cases hq'
            have hd' : d = [] := by simp only [Out.read.injEq] at hd; exact hd.1.symm
            subst hd'
            have h1 := hF.err ho he
            have h2 := hF.pos ho
            simp only [List.length_nil]
            omega
          · intro i' k' q' d e hop hq' hd hne; cases hop; cases hd; exact absurd rfl hne
          all_goals (intros; simp_all; done)
    | readAt i k off =>
      dsimp only
      have ht : ∀ o, trackPos ps (.readAt i k off) o = ps := by intro o; cases o <;> rfl
      rw [ht]
      split
      · refine ⟨h, Nat.le_refl _, ?_, ?_, ?_, ?_, ?_⟩ <;> (intros; simp_all; done)
      · split
        · refine ⟨h, Nat.le_refl _, ?_, ?_, ?_, ?_, ?_⟩ <;> (intros; simp_all; done)
        · obtain ⟨r, hr⟩ : ∃ r, a.fetch F f.stop (min off.toNat f.stop) k = r := ⟨_, rfl⟩
          rw [hr]
          cases r with
          | error p => refine ⟨h, Nat.le_refl _, ?_, ?_, ?_, ?_, ?_⟩ <;> (intros; simp_all; done)
          | ok de =>
            obtain ⟨d, e⟩ := de
            have hle := fetch_le hr
            refine ⟨h, Nat.le_refl _, ?_, ?_, ?_, ?_, ?_⟩
            · intro i' k' b' q' d' e' hop; cases hop
            · intro i' k' q' d' e' hop; cases hop
            · intro i' k' off' d' e' hop hd hne
              cases hop; cases hd
              have : 0 < d.length := List.length_pos_iff.2 hne
              omega
            · intro i' k' q' d' hop; cases hop
            · intro i' k' q' hop; cases hop
    | seek i off wh =>
      simp only [Op.h] at hb hq hlt
      dsimp only
      have bad : ∀ m e, ShTrack f (trackPos ps (.seek i off wh) (.seek m (some e))) ∧ ShShows f f ps (.seek i off wh) (.seek m (some e)) := by
        intro m e
        refine ⟨h, Nat.le_refl _, ?_, ?_, ?_, ?_, ?_⟩ <;> (intros; simp_all; done)
      split
      · exact bad _ _
      · split
        · exact bad _ _
        · rename_i t _
          split
          · exact bad _ _
          · split
            · exact bad _ _
            · split
              · exact bad _ _
              · refine ⟨?_, Nat.le_refl _, ?_, ?_, ?_, ?_, ?_⟩
                · refine shtrack_set h (Nat.le_refl _) i _ _ (by simp [trackPos]) ?_ ?_
                  · intro j hj
                    simp only [trackPos]
                    rw [List.getElem?_set_ne (fun e => hj e.symm)]
                  · intro q' hq'
                    simp only [trackPos] at hq'
                    rw [List.getElem?_set_self (by rw [h.len]; exact hlt)] at hq'
                    cases hq'
                    exact ⟨fun _ => .inl (by simp), fun _ hne => absurd rfl hne⟩
                · intro i' k' b' q' d' e' hop; cases hop
                · intro i' k' q' d' e' hop; cases hop
                · intro i' k' q' d' e' hop; cases hop
                · intro i' o' w' m hop hm
                  cases hm
                  omega
                · intro i' k' q' hop; cases hop
    | remaining i =>
      simp only [Op.h] at hb hq hlt
      dsimp only
      refine ⟨h, Nat.le_refl _, ?_, ?_, ?_, ?_, ?_⟩
      · intro i' k' b' q' d' e' hop; cases hop
      · intro i' k' q' d' e' hop; cases hop
      · intro i' k' q' d' e' hop; cases hop
      · intro i' k' q' d' hop; cases hop
      · intro i' q' m hop hq' hm
        cases hop
        rw [hq] at hq'; cases hq'
        simp only [Out.remaining.injEq] at hm
        subst hm
        split
        · omega
        · rename_i ho
          split
          · omega
          · have := hF.pos (by simpa using ho)
            omega
    | writeTo i w => refine ⟨h, Nat.le_refl _, ?_, ?_, ?_, ?_, ?_⟩ <;> (intros; simp_all; done)
    | copy i =>
      simp only [Op.h] at hb hq hlt
      dsimp only
      split
      · refine ⟨⟨by simp [trackPos, h.len], ?_⟩, Nat.le_refl _, ?_, ?_, ?_, ?_, ?_⟩
        · intro j x q' hx hq'
          simp only [trackPos] at hx hq' ⊢
          rcases Nat.lt_or_ge j f.bodies.length with hj | hj
          · rw [List.getElem?_append_left hj] at hx
            rw [List.getElem?_append_left (by rw [h.len]; exact hj)] at hq'
            exact h.at_ j x q' hx hq'
          · have hj' : j = f.bodies.length := by
              have := (List.getElem?_eq_some_iff.1 hx).1
              simp at this; omega
            subst hj'
            rw [List.getElem?_append_right (Nat.le_refl _)] at hx
            rw [List.getElem?_append_right (by rw [h.len]; exact Nat.le_refl _)] at hq'
            simp [h.len, hq] at hx hq'
            subst hx; subst hq'
            exact hF
        all_goals (intros; simp_all; done)
      · refine ⟨h, Nat.le_refl _, ?_, ?_, ?_, ?_, ?_⟩ <;> (intros; simp_all; done)
    | close i =>
      dsimp only
      split
      · refine ⟨?_, Nat.le_refl _, ?_, ?_, ?_, ?_, ?_⟩
        · have ht : ∀ o, trackPos ps (.close i) o = ps := by intro o; cases o <;> rfl
          rw [ht]
          exact shtrack_set h (Nat.le_refl _) i _ _ rfl (fun _ _ => rfl) (fun _ _ => ⟨fun ho => (by cases ho), fun ho => (by cases ho)⟩)
        all_goals (intros; simp_all; done)
      · refine ⟨h, Nat.le_refl _, ?_, ?_, ?_, ?_, ?_⟩ <;> (intros; simp_all; done)
    | unwrap i => refine ⟨h, Nat.le_refl _, ?_, ?_, ?_, ?_, ?_⟩ <;> (intros; simp_all; done)

theorem shtrack_run {K : PosKind σ} {F : List Byte} {Inv : σ → Prop} {A : Reply → Prop} (hG : FrailGet K F Inv A) {n : Nat} (h63 : n < 2 ^ 63)
    (ops : List Op) {s : PosSys σ} {f : Shrunk} {ps : List Nat} (h : ShRel n Inv s f) (ht : ShTrack f ps) (hv : ∀ op ∈ ops, op.Valid) :
    ∃ f', ShRel n Inv (run (Pos.step K) s ops).1 f' ∧ ShTrack f' (track ps ops (run (Pos.step K) s ops).2) ∧ f'.stop ≤ f.stop := by
  induction ops generalizing s f ps with
  | nil => exact ⟨f, h, ht, Nat.le_refl _⟩
  | cons op ops ih =>
    obtain ⟨a, h1, h2, h3⟩ := shrel_step hG h63 h op (hv op List.mem_cons_self)
    obtain ⟨t1, t2⟩ := shtrack_step K.clamp F a ht op
    rw [← h2] at t1
    obtain ⟨f', k1, k2, k3⟩ := ih h3 t1 (fun op ho => hv op (List.mem_cons_of_mem _ ho))
    exact ⟨f', k1, k2, Nat.le_trans k3 t2.mono⟩

theorem shtrack_init (n : Nat) : ShTrack ⟨n, [{}]⟩ [0] where
  len := rfl
  at_ h b q hb hq := by
    cases h with
    | zero => cases hb; cases hq; exact ⟨fun _ => .inl rfl, fun _ h => absurd rfl h⟩
    | succ h => cases hb

theorem track_append (ps : List Nat) (xs ys : List Op) (os os' : List Out) (h : xs.length = os.length) :
    track ps (xs ++ ys) (os ++ os') = track (track ps xs os) ys os' := by
  induction xs generalizing ps os with
  | nil => cases os with
    | nil => rfl
    | cons => cases h
  | cons x xs ih => cases os with
    | nil => cases h
    | cons o os => exact ih _ os (by simpa using h)

/-- What no call on a family shows from now on: anything beyond `m`.  `ps`: the positions of the Bodies. -/
def NoFurther {S : Type} (step : S → Op → S × Out) (s : S) (ps : List Nat) (m : Nat) : Prop :=
  (∀ h k q d e, ps[h]? = some q → (step s (.read h k)).2 = .read d e → d ≠ [] → q + d.length ≤ m) ∧
  (∀ h k off d e, (step s (.readAt h k off)).2 = .read d e → IsI64 off → d ≠ [] → off.toNat + d.length ≤ m) ∧
  (∀ h off wh r, (step s (.seek h off wh)).2 = .seek r none → IsI64 off → 0 ≤ r ∧ r ≤ m) ∧
  (∀ (h : Nat) q r, ps[h]? = some q → (step s (.remaining h)).2 = .remaining r → r ≤ 0 ∨ r + q ≤ m)

theorem noFurther {K : PosKind σ} {F : List Byte} {Inv : σ → Prop} {A : Reply → Prop} (hG : FrailGet K F Inv A) {n : Nat} (h63 : n < 2 ^ 63)
    {s : PosSys σ} {f : Shrunk} {ps : List Nat} (h : ShRel n Inv s f) (ht : ShTrack f ps) {m : Nat} (hm : f.stop ≤ m) :
    NoFurther (Pos.step K) s ps m := by
  have key : ∀ op, op.Valid → ∃ f', ShShows f f' ps op (Pos.step K s op).2 := by
    intro op hv
    obtain ⟨a, h1, h2, h3⟩ := shrel_step hG h63 h op hv
    refine ⟨(f.step K.clamp F a op).1, ?_⟩
    rw [h2]
    exact (shtrack_step K.clamp F a ht op).2
  refine ⟨?_, ?_, ?_, ?_⟩
  · intro i k q d e hq hd hne
    obtain ⟨f', hs⟩ := key (.read i k) trivial
    have := hs.read i k q d e rfl hq hd hne
    omega
  · intro i k off d e hd hv hne
    obtain ⟨f', hs⟩ := key (.readAt i k off) hv
    have := hs.readAt i k off d e rfl hd hne
    omega
  · intro i off wh r hr hv
    obtain ⟨f', hs⟩ := key (.seek i off wh) hv
    have := hs.seek i off wh r rfl hr
    omega
  · intro i q r hq hr
    obtain ⟨f', hs⟩ := key (.remaining i) trivial
    have := hs.remaining i q r rfl hq hr
    omega

theorem noFurther_run {K : PosKind σ} {F : List Byte} {Inv : σ → Prop} {A : Reply → Prop} (hG : FrailGet K F Inv A) (st : σ) (hi : Inv st) (n : Nat)
    (h63 : n < 2 ^ 63) (ops : List Op) (hv : ∀ op ∈ ops, op.Valid) (h k q : Nat) (d : List Byte) (e : Err)
    (ho : (Pos.step K (run (Pos.step K) (ReaderAtBody.init st n) ops).1 (.unwrap h)).2 = .unwrap true)
    (hq : (track [0] ops (run (Pos.step K) (ReaderAtBody.init st n) ops).2)[h]? = some q)
    (hd : (Pos.step K (run (Pos.step K) (ReaderAtBody.init st n) ops).1 (.read h k)).2 = .read d (some e)) (ops' : List Op) (hv' : ∀ op ∈ ops', op.Valid) :
    NoFurther (Pos.step K) (run (Pos.step K) (ReaderAtBody.init st n) (ops ++ .read h k :: ops')).1
      (track [0] (ops ++ .read h k :: ops') (run (Pos.step K) (ReaderAtBody.init st n) (ops ++ .read h k :: ops')).2) (q + d.length) := by
  obtain ⟨f, r1, r2, -⟩ := shtrack_run hG h63 ops (ShRel_init hi n) (shtrack_init n) hv
  have hlen : ops.length = (run (Pos.step K) (ReaderAtBody.init st n) ops).2.length := by rw [run_length]
  rw [run_append, track_append _ _ _ _ _ hlen]
  generalize (run (Pos.step K) (ReaderAtBody.init st n) ops).1 = s at *
  generalize track [0] ops (run (Pos.step K) (ReaderAtBody.init st n) ops).2 = ps at *
  rw [run_cons]
  obtain ⟨a, h1, h2, h3⟩ := shrel_step hG h63 r1 (.read h k) trivial
  obtain ⟨t1, t2⟩ := shtrack_step K.clamp F a r2 (.read h k)
  rw [← h2] at t1 t2
  have hb : ∃ b, f.bodies[h]? = some b ∧ b.isOpen = true := by
    rw [r1.bodies, List.getElem?_map]
    simp only [Pos.step, Op.h] at ho
    cases hb : s.heap[h]? with
    | none => rw [hb] at ho; cases ho
    | some b =>
      rw [hb] at ho
      refine ⟨_, rfl, ?_⟩
      simp only [PosBody.frail]
      cases hc : b.closed with
      | false => rfl
      | true => simp [hc] at ho
  obtain ⟨b, hb, hbo⟩ := hb
  have hstop := t2.fail h k b q d e rfl hb hbo hq hd
  obtain ⟨f', k1, k2, k3⟩ := shtrack_run hG h63 ops' h3 t1 hv'
  exact noFurther hG h63 k1 k2 (Nat.le_trans k3 hstop)

/-- **C62.**  If a `Read` on an open Body returned an error, and it stands at `q + d.length` then, no call on a Body of the family shows anything beyond that
position ever after: not even those Bodies which were beyond it. -/
theorem C62_no_further_readerAt {R : Rdr σ} {F : List Byte} {Inv : σ → Prop} {A : Reply → Prop} (hR : FrailReaderAt R F Inv A) (st : σ) (hi : Inv st)
    (n : Nat) (h63 : n < 2 ^ 63) (ops : List Op) (hv : ∀ op ∈ ops, op.Valid) (h k q : Nat) (d : List Byte) (e : Err)
    (ho : (ReaderAtBody.step R (atAfter R st n ops) (.unwrap h)).2 = .unwrap true) (hq : (track [0] ops (atOuts R st n ops))[h]? = some q)
    (hd : (ReaderAtBody.step R (atAfter R st n ops) (.read h k)).2 = .read d (some e)) (ops' : List Op) (hv' : ∀ op ∈ ops', op.Valid) :
    NoFurther (ReaderAtBody.step R) (atAfter R st n (ops ++ .read h k :: ops'))
      (track [0] (ops ++ .read h k :: ops') (atOuts R st n (ops ++ .read h k :: ops'))) (q + d.length) := by
  simp only [atOuts, atAfter, at_step] at *
  exact noFurther_run (frail_at hR) st hi n h63 ops hv h k q d e ho hq hd ops' hv'

/-- **C62** over an `io.Seeker`. -/
theorem C62_no_further_seeker {R : Rdr σ} {F : List Byte} {Inv : σ → Prop} {At : σ → Nat → Prop} {A : Reply → Prop} (hR : FrailSeeker R F Inv At A) (st : σ)
    (hi : Inv st) (n : Nat) (h63 : n < 2 ^ 63) (ops : List Op) (hv : ∀ op ∈ ops, op.Valid) (h k q : Nat) (d : List Byte) (e : Err)
    (ho : (SeekerBody.step R (seekAfter R st n ops) (.unwrap h)).2 = .unwrap true) (hq : (track [0] ops (seekOuts R st n ops))[h]? = some q)
    (hd : (SeekerBody.step R (seekAfter R st n ops) (.read h k)).2 = .read d (some e)) (ops' : List Op) (hv' : ∀ op ∈ ops', op.Valid) :
    NoFurther (SeekerBody.step R) (seekAfter R st n (ops ++ .read h k :: ops'))
      (track [0] (ops ++ .read h k :: ops') (seekOuts R st n (ops ++ .read h k :: ops'))) (q + d.length) := by
  simp only [seekOuts, seekAfter, seek_step] at *
  exact noFurther_run (frail_seek hR) st hi n h63 ops hv h k q d e ho hq hd ops' hv'

/-! ## As long as nothing fails -/

structure SmInv (n : Nat) (f : Shrunk) (ps : List Nat) : Prop where
  len : ps.length = f.bodies.length
  stop : f.stop = n
  at_ : ∀ (h : Nat) b q, f.bodies[h]? = some b → ps[h]? = some q → b.isOpen = true →
    q = b.pos ∧ q ≤ n ∧ b.err ≠ some .closed ∧ (b.err ≠ none → q = n)

theorem fetch_not_closed {F : List Byte} {a : Reply} {stop p k : Nat} {d : List Byte} {e : Option Err} (h : a.fetch F stop p k = .ok (d, e))
    (ha : a.err ≠ some .closed) : e ≠ some .closed := by
  unfold Reply.fetch at h
  split at h
  · cases h; split <;> simp
  · split at h
    · cases h
    · cases h
      split
      · simp
      · exact ha

theorem smooth_step (clamp : Bool) (F : List Byte) (a : Reply) (ha : a.err ≠ some .closed) {n : Nat} {f : Shrunk} {ps : List Nat} (h : SmInv n f ps) (op : Op)
    (hs : ∀ h k d e, op = .read h k → (f.step clamp F a op).2 = .read d (some e) → e = .closed ∨ ∃ q, ps[h]? = some q ∧ q + d.length = n) :
    SmInv n (f.step clamp F a op).1 (trackPos ps op (f.step clamp F a op).2) := by
  have set : ∀ (i : Nat) (b' : Frail) (ps' : List Nat), ps'.length = ps.length → (∀ j, j ≠ i → ps'[j]? = ps[j]?) →
      (∀ q, ps'[i]? = some q → b'.isOpen = true → q = b'.pos ∧ q ≤ n ∧ b'.err ≠ some .closed ∧ (b'.err ≠ none → q = n)) →
      SmInv n ⟨f.stop, f.bodies.set i b'⟩ ps' := by
    intro i b' ps' hl ho hb
    refine ⟨by simp [hl, h.len], h.stop, ?_⟩
    intro j x q hx hq
    simp only at hx
    by_cases hj : j = i
    · subst hj
      have hlt : j < f.bodies.length := by
        have := (List.getElem?_eq_some_iff.1 hx).1
        simpa using this
      rw [List.getElem?_set_self hlt] at hx
      cases hx
      exact hb q hq
    · rw [List.getElem?_set_ne (fun e => hj e.symm)] at hx
      rw [ho j hj] at hq
      exact h.at_ j x q hx hq
  unfold Shrunk.step at hs ⊢
  cases hb : f.bodies[op.h]? with
  | none => cases op <;> exact h
  | some b =>
    rw [hb] at hs
    have hlt := (List.getElem?_eq_some_iff.1 hb).1
    obtain ⟨q, hq⟩ : ∃ q, ps[op.h]? = some q := ⟨_, List.getElem?_eq_getElem (by rw [h.len]; exact hlt)⟩
    have hF := h.at_ _ _ _ hb hq
    cases op with
    | read i k =>
      simp only [Op.h] at hb hq hlt
      dsimp only at hs ⊢
      cases ho : b.isOpen with
      | false =>
        simp only [Bool.not_false, if_true]
        rw [trackPos_nil]; exact h
      | true =>
        simp only [ho, Bool.not_true, Bool.false_eq_true, if_false] at hs ⊢
        by_cases he : b.err = none
        · rw [if_neg (by simp [he])] at hs ⊢
          obtain ⟨r, hr⟩ : ∃ r, a.fetch F f.stop (min b.pos f.stop) k = r := ⟨_, rfl⟩
          rw [hr] at hs ⊢
          cases r with
          | error p => exact h
          | ok de =>
            obtain ⟨d, e⟩ := de
            have hle := fetch_le hr
            obtain ⟨hp, hp2, -, -⟩ := hF ho
            have hst := h.stop
            have hne := fetch_not_closed hr ha
            have hs' : ∀ e', e = some e' → q + d.length = n := by
              intro e' he'
              subst he'
              rcases hs i k d e' rfl rfl with h1 | ⟨q', h1, h2⟩
              · subst h1; exact absurd rfl hne
              · rw [hq] at h1; cases h1; exact h2
            dsimp only
            have hsame : (if e = none then f.stop else min b.pos f.stop + d.length) = f.stop := by
              cases e with
              | none => rfl
              | some e =>
                have := hs' e rfl
                rw [if_neg (by simp)]; omega
            rw [hsame]
            refine set i _ _ (by simp [trackPos]) ?_ ?_
            · intro j hj
              have hij : i ≠ j := fun e => hj e.symm
              simp [trackPos, List.getElem?_modify, hij]
            · intro q' hq' _
              simp only [trackPos, List.getElem?_modify_eq, hq, Option.map_eq_map, Option.map_some, Option.some.injEq] at hq'
              subst hq'
              refine ⟨by simp only; omega, by omega, hne, ?_⟩
              intro hne'
              cases e with
              | none => exact absurd rfl hne'
              | some e => exact hs' e rfl
        · rw [if_pos (by simpa using he)]
          rw [trackPos_nil]; exact h
    | readAt i k off =>
      have ht : ∀ o, trackPos ps (.readAt i k off) o = ps := by intro o; cases o <;> rfl
      rw [ht]
      dsimp only
      split
      · exact h
      · split
        · exact h
        · cases a.fetch F f.stop (min off.toNat f.stop) k with
          | error p => exact h
          | ok de => exact h
    | seek i off wh =>
      simp only [Op.h] at hb hq hlt
      dsimp only
      split
      · exact h
      · split
        · exact h
        · rename_i t _
          split
          · exact h
          · split
            · exact h
            · split
              · exact h
              · refine set i _ _ (by simp [trackPos]) ?_ ?_
                · intro j hj
                  simp only [trackPos]
                  rw [List.getElem?_set_ne (fun e => hj e.symm)]
                · intro q' hq' _
                  simp only [trackPos] at hq'
                  rw [List.getElem?_set_self (by rw [h.len]; exact hlt)] at hq'
                  cases hq'
                  have := h.stop
                  exact ⟨by simp, by omega, by simp, fun hne => absurd rfl hne⟩
    | remaining i => exact h
    | writeTo i w => exact h
    | copy i =>
      simp only [Op.h] at hb hq hlt
      dsimp only
      split
      · rename_i ho
        refine ⟨by simp [trackPos, h.len], h.stop, ?_⟩
        intro j x q' hx hq'
        simp only [trackPos] at hx hq' ⊢
        rcases Nat.lt_or_ge j f.bodies.length with hj | hj
        · rw [List.getElem?_append_left hj] at hx
          rw [List.getElem?_append_left (by rw [h.len]; exact hj)] at hq'
          exact h.at_ j x q' hx hq'
        · have hj' : j = f.bodies.length := by
            have := (List.getElem?_eq_some_iff.1 hx).1
            simp at this; omega
          subst hj'
          rw [List.getElem?_append_right (Nat.le_refl _)] at hx
          rw [List.getElem?_append_right (by rw [h.len]; exact Nat.le_refl _)] at hq'
          simp [h.len, hq] at hx hq'
          subst hx; subst hq'
          exact hF
      · exact h
    | close i =>
      dsimp only
      split
      · have ht : ∀ o, trackPos ps (.close i) o = ps := by intro o; cases o <;> rfl
        rw [ht]
        exact set i _ _ rfl (fun _ _ => rfl) (fun _ _ ho => by cases ho)
      · exact h
    | unwrap i => exact h

theorem smooth_run {K : PosKind σ} {F : List Byte} {Inv : σ → Prop} {A : Reply → Prop} (hG : FrailGet K F Inv A) (hA : ∀ a, A a → a.err ≠ some .closed)
    {n : Nat} (h63 : n < 2 ^ 63) (ops : List Op) {s : PosSys σ} {f : Shrunk} {ps : List Nat} (h : ShRel n Inv s f) (ht : SmInv n f ps)
    (hv : ∀ op ∈ ops, op.Valid) (hs : Smooth n ps ops (run (Pos.step K) s ops).2) :
    ∃ f', ShRel n Inv (run (Pos.step K) s ops).1 f' ∧ SmInv n f' (track ps ops (run (Pos.step K) s ops).2) := by
  induction ops generalizing s f ps with
  | nil => exact ⟨f, h, ht⟩
  | cons op ops ih =>
    obtain ⟨a, h1, h2, h3⟩ := shrel_step hG h63 h op (hv op List.mem_cons_self)
    rw [run_cons] at hs
    obtain ⟨hs1, hs2⟩ := hs
    have t := smooth_step K.clamp F a (hA a h1) ht op (by rw [← h2]; exact hs1)
    rw [← h2] at t
    exact ih h3 t (fun op ho => hv op (List.mem_cons_of_mem _ ho)) hs2

theorem smooth_remaining {K : PosKind σ} {F : List Byte} {Inv : σ → Prop} {A : Reply → Prop} (hG : FrailGet K F Inv A)
    (hA : ∀ a, A a → a.err ≠ some .closed) (st : σ) (hi : Inv st) (n : Nat) (h63 : n < 2 ^ 63) (ops : List Op) (hv : ∀ op ∈ ops, op.Valid)
    (hs : Smooth n [0] ops (run (Pos.step K) (ReaderAtBody.init st n) ops).2) (h : Nat)
    (ho : (Pos.step K (run (Pos.step K) (ReaderAtBody.init st n) ops).1 (.unwrap h)).2 = .unwrap true) :
    ∃ q, (track [0] ops (run (Pos.step K) (ReaderAtBody.init st n) ops).2)[h]? = some q ∧ q ≤ n ∧
      (Pos.step K (run (Pos.step K) (ReaderAtBody.init st n) ops).1 (.remaining h)).2 = .remaining (n - q) := by
  have hinit : SmInv n ⟨n, [{}]⟩ [0] := by
    refine ⟨rfl, rfl, ?_⟩
    intro h b q hb hq
    cases h with
    | zero => cases hb; cases hq; exact fun _ => ⟨rfl, Nat.zero_le _, by simp, fun h => absurd rfl h⟩
    | succ h => cases hb
  obtain ⟨f, r1, r2⟩ := smooth_run hG hA h63 ops (ShRel_init hi n) hinit hv hs
  generalize (run (Pos.step K) (ReaderAtBody.init st n) ops).1 = s at *
  generalize track [0] ops (run (Pos.step K) (ReaderAtBody.init st n) ops).2 = ps at *
  obtain ⟨a, h1, h2, h3⟩ := shrel_step hG h63 r1 (.remaining h) trivial
  have hb : ∃ b, f.bodies[h]? = some b ∧ b.isOpen = true := by
    rw [r1.bodies, List.getElem?_map]
    simp only [Pos.step, Op.h] at ho
    cases hb : s.heap[h]? with
    | none => rw [hb] at ho; cases ho
    | some b =>
      rw [hb] at ho
      refine ⟨_, rfl, ?_⟩
      simp only [PosBody.frail]
      cases hc : b.closed with
      | false => rfl
      | true => simp [hc] at ho
  obtain ⟨b, hb, hbo⟩ := hb
  obtain ⟨q, hq⟩ : ∃ q, ps[h]? = some q := ⟨_, List.getElem?_eq_getElem (by rw [r2.len]; exact (List.getElem?_eq_some_iff.1 hb).1)⟩
  obtain ⟨p1, p2, p3, p4⟩ := r2.at_ h b q hb hq hbo
  refine ⟨q, hq, p2, ?_⟩
  rw [h2]
  have hst := r2.stop
  simp only [Shrunk.step, Op.h, hb, hbo, Bool.not_true, Bool.false_eq_true, if_false, Out.remaining.injEq]
  split <;> omega

/-- **C62.**  As long as each `Read` that returned an error stood at the end then, nothing is lost: `BytesRemaining` of an open Body is exactly what remains to
the length given.  (The source must not return `ErrClosed`, for it cannot be told from the answer of a closed Body.) -/
theorem C62_smooth_readerAt {R : Rdr σ} {F : List Byte} {Inv : σ → Prop} {A : Reply → Prop} (hR : FrailReaderAt R F Inv A)
    (hA : ∀ a, A a → a.err ≠ some .closed) (st : σ) (hi : Inv st) (n : Nat) (h63 : n < 2 ^ 63) (ops : List Op) (hv : ∀ op ∈ ops, op.Valid)
    (hs : Smooth n [0] ops (atOuts R st n ops)) (h : Nat) (ho : (ReaderAtBody.step R (atAfter R st n ops) (.unwrap h)).2 = .unwrap true) :
    ∃ q, (track [0] ops (atOuts R st n ops))[h]? = some q ∧ q ≤ n ∧
      (ReaderAtBody.step R (atAfter R st n ops) (.remaining h)).2 = .remaining (n - q) := by
  simp only [atOuts, atAfter, at_step] at *
  exact smooth_remaining (frail_at hR) hA st hi n h63 ops hv hs h ho

/-- **C62** over an `io.Seeker`: then it is not negative either. -/
theorem C62_smooth_seeker {R : Rdr σ} {F : List Byte} {Inv : σ → Prop} {At : σ → Nat → Prop} {A : Reply → Prop} (hR : FrailSeeker R F Inv At A)
    (hA : ∀ a, A a → a.err ≠ some .closed) (st : σ) (hi : Inv st) (n : Nat) (h63 : n < 2 ^ 63) (ops : List Op) (hv : ∀ op ∈ ops, op.Valid)
    (hs : Smooth n [0] ops (seekOuts R st n ops)) (h : Nat) (ho : (SeekerBody.step R (seekAfter R st n ops) (.unwrap h)).2 = .unwrap true) :
    ∃ q, (track [0] ops (seekOuts R st n ops))[h]? = some q ∧ q ≤ n ∧
      (SeekerBody.step R (seekAfter R st n ops) (.remaining h)).2 = .remaining (n - q) := by
  simp only [seekOuts, seekAfter, seek_step] at *
  exact smooth_remaining (frail_seek hR) hA st hi n h63 ops hv hs h ho

/-! ## Sources that fill the buffer or return an error -/

theorem fetch_full {F : List Byte} {a : Reply} {stop p k : Nat} {d : List Byte} (ha : a.Filled) (hF : stop ≤ F.length)
    (h : a.fetch F stop p k = .ok (d, none)) : d.length = k := by
  unfold Reply.fetch at h
  split at h
  · simp only [Except.ok.injEq, Prod.mk.injEq] at h
    obtain ⟨h1, h2⟩ := h
    subst h1
    split at h2
    · simp [*]
    · cases h2
  · split at h
    · cases h
    · simp only [Except.ok.injEq, Prod.mk.injEq] at h
      obtain ⟨h1, h2⟩ := h
      split at h2
      · cases h2
      · rename_i hn
        have := ha h2
        rw [← h1]
        simp only [List.length_take, List.length_drop]
        have : ¬ stop < p + k := fun hc => hn ⟨h2, hc⟩
        omega

theorem full_run {K : PosKind σ} {F : List Byte} {Inv : σ → Prop} {A : Reply → Prop} (hG : FrailGet K F Inv A) (hA : ∀ a, A a → a.Filled) (st : σ) (hi : Inv st) (n : Nat) (h63 : n < 2 ^ 63)
    (hn : n ≤ F.length) (ops : List Op) (hv : ∀ op ∈ ops, op.Valid) :
    (∀ h k d, (Pos.step K (run (Pos.step K) (ReaderAtBody.init st n) ops).1 (.read h k)).2 = .read d none → d.length = k) ∧
    (∀ h k off d, IsI64 off → (Pos.step K (run (Pos.step K) (ReaderAtBody.init st n) ops).1 (.readAt h k off)).2 = .read d none → d.length = k) := by
  obtain ⟨f, r1, -, -⟩ := shtrack_run hG h63 ops (ShRel_init hi n) (shtrack_init n) hv
  generalize (run (Pos.step K) (ReaderAtBody.init st n) ops).1 = s at *
  have hst : f.stop ≤ F.length := Nat.le_trans r1.le hn
  constructor
  · intro h k d hd
    obtain ⟨a, h1, h2, -⟩ := shrel_step hG h63 r1 (.read h k) trivial
    rw [h2] at hd
    unfold Shrunk.step at hd
    cases hb : f.bodies[h]? with
    | none => simp [Op.h, hb] at hd
    | some b =>
      simp only [Op.h, hb] at hd
      split at hd
      · cases hd
      · split at hd
        · rename_i hne; simp only [Out.read.injEq] at hd; exact absurd hd.2 hne
        · cases hr : a.fetch F f.stop (min b.pos f.stop) k with
          | error q => rw [hr] at hd; cases hd
          | ok de =>
            obtain ⟨d', e⟩ := de
            rw [hr] at hd
            simp only [Out.read.injEq] at hd
            obtain ⟨e1, e2⟩ := hd
            subst e1 e2
            exact fetch_full (hA a h1) hst hr
  · intro h k off d hvo hd
    obtain ⟨a, h1, h2, -⟩ := shrel_step hG h63 r1 (.readAt h k off) hvo
    rw [h2] at hd
    unfold Shrunk.step at hd
    cases hb : f.bodies[h]? with
    | none => simp [Op.h, hb] at hd
    | some b =>
      simp only [Op.h, hb] at hd
      split at hd
      · cases hd
      · split at hd
        · cases hd
        · cases hr : a.fetch F f.stop (min off.toNat f.stop) k with
          | error q => rw [hr] at hd; cases hd
          | ok de =>
            obtain ⟨d', e⟩ := de
            rw [hr] at hd
            simp only [Out.read.injEq] at hd
            obtain ⟨e1, e2⟩ := hd
            subst e1 e2
            exact fetch_full (hA a h1) hst hr

/-- **C62.**  Over an `io.ReaderAt` that returns fewer bytes than asked for only with an error, so do `Read` and `ReadAt` of the Bodies. -/
theorem C62_filled_readerAt {R : Rdr σ} {F : List Byte} {Inv : σ → Prop} {A : Reply → Prop} (hR : FrailReaderAt R F Inv A) (hA : ∀ a, A a → a.Filled) (st : σ) (hi : Inv st) (n : Nat)
    (h63 : n < 2 ^ 63) (hn : n ≤ F.length) (ops : List Op) (hv : ∀ op ∈ ops, op.Valid) :
    (∀ h k d, (ReaderAtBody.step R (atAfter R st n ops) (.read h k)).2 = .read d none → d.length = k) ∧
    (∀ h k off d, IsI64 off → (ReaderAtBody.step R (atAfter R st n ops) (.readAt h k off)).2 = .read d none → d.length = k) := by
  simp only [atAfter, at_step] at *
  exact full_run (frail_at hR) hA st hi n h63 hn ops hv

/-- **C62** over an `io.Seeker` of which the same is true. -/
theorem C62_filled_seeker {R : Rdr σ} {F : List Byte} {Inv : σ → Prop} {At : σ → Nat → Prop} {A : Reply → Prop} (hR : FrailSeeker R F Inv At A) (hA : ∀ a, A a → a.Filled) (st : σ) (hi : Inv st)
    (n : Nat) (h63 : n < 2 ^ 63) (hn : n ≤ F.length) (ops : List Op) (hv : ∀ op ∈ ops, op.Valid) :
    (∀ h k d, (SeekerBody.step R (seekAfter R st n ops) (.read h k)).2 = .read d none → d.length = k) ∧
    (∀ h k off d, IsI64 off → (SeekerBody.step R (seekAfter R st n ops) (.readAt h k off)).2 = .read d none → d.length = k) := by
  simp only [seekAfter, seek_step] at *
  exact full_run (frail_seek hR) hA st hi n h63 hn ops hv

/-! ## Examples -/

/-- A source that may fail, but does not panic, returns no impossible counts, and fewer bytes only with an error, which is not `ErrClosed`. -/
def Reply.Fair (a : Reply) : Prop := a.Filled ∧ a.crash = none ∧ a.err ≠ some .closed

theorem fileRdr_answers (F : List Byte) (p x : Nat) :
    Replies F Reply.Fair p x (.got ((F.drop p).take x) (if F.length < p + x then some .eof else none)) := by
  have hl : ((F.drop p).take x).length ≤ x := by simp; omega
  simp only [Replies, if_pos hl]
  refine ⟨by simp [List.take_eq_take_iff], ?_, rfl, by simp only; split <;> simp⟩
  intro he
  simp only at he ⊢
  split at he
  · cases he
  · simp; omega

theorem flaky_answers (F : List Byte) (p x : Nat) : Replies F Reply.Fair p x (.got [] (some (.ext 3))) := by
  refine ⟨by simp, ?_, rfl, by simp⟩
  intro he
  cases he

theorem flakyRdr_at (F : List Byte) : FrailReaderAt (flakyRdr F) F (fun _ => True) Reply.Fair where
  idle := ⟨fun _ => rfl, rfl, by simp⟩
  readAt st x off _ h0 _ := by
    refine ⟨trivial, ?_⟩
    simp only [flakyRdr]
    split
    · exact fileRdr_answers F off.toNat x
    · exact flaky_answers F off.toNat x
  close st _ _ := ⟨fun _ => rfl, rfl, by simp⟩

theorem flakyRdr_seek (F : List Byte) : FrailSeeker (flakyRdr F) F (fun _ => True) (fun st p => st.2 = p) Reply.Fair where
  idle := ⟨fun _ => rfl, rfl, by simp⟩
  seek st off _ h0 _ := by simp [flakyRdr, fileRdr]
  read st p x hp := by
    refine ⟨trivial, ?_⟩
    subst hp
    simp only [flakyRdr]
    split
    · exact fileRdr_answers F st.2 x
    · exact flaky_answers F st.2 x
  close st _ _ := ⟨fun _ => rfl, rfl, by simp⟩

/-- One that delivers a byte at a time. -/
theorem shortRdr_frail (F : List Byte) : FrailSeeker (shortRdr F) F (fun _ => True) (fun st p => st = p) (fun a => a.crash = none ∧ a.err ≠ some .closed) where
  idle := ⟨rfl, by simp⟩
  seek st off _ h0 _ := by simp [shortRdr, fileRdr]
  read st p x hp := by
    refine ⟨trivial, ?_⟩
    subst hp
    have hl : ((F.drop st).take (min x 1)).length ≤ x := by simp; omega
    simp only [shortRdr, Replies, if_pos hl]
    refine ⟨?_, ?_⟩
    · rw [List.length_take, List.length_drop, List.take_eq_take_iff]; simp
    · split <;> simp
  close st _ h := by cases h

/-- A failure at position 0 while the copy stands at 4: the copy finds an end at 0, `BytesRemaining` is -4, until it reads. -/
example : seekOuts (flakyRdr [1, 2, 3, 4, 5]) (false, 0) 5 [.copy 0, .seek 1 4 0, .read 0 2, .remaining 1, .read 1 1, .remaining 1, .seek 0 0 2, .seek 0 3 0] =
    (Shrunk.run false [1, 2, 3, 4, 5] ⟨5, [{}]⟩
      ([{}, {}, { short := 2, err := some (.ext 3) }, {}, {}, {}, {}, {}].zip
        [.copy 0, .seek 1 4 0, .read 0 2, .remaining 1, .read 1 1, .remaining 1, .seek 0 0 2, .seek 0 3 0])).2 := by decide +kernel
example : seekOuts (flakyRdr [1, 2, 3, 4, 5]) (false, 0) 5 [.copy 0, .seek 1 4 0, .read 0 2, .remaining 1, .read 1 1, .remaining 1, .seek 0 0 2, .seek 0 3 0] =
    [.copied 1, .seek 4 none, .read [] (some (.ext 3)), .remaining (-4), .read [] (some .eof), .remaining 0, .seek 0 none, .seek 0 none] := by decide +kernel

/-- Nothing is lost when `ReadAt` fails. -/
example : atOuts (flakyRdr [1, 2, 3, 4, 5]) (false, 0) 4 [.readAt 0 2 1, .read 0 2, .remaining 0, .read 0 3, .remaining 0] =
    [.read [] (some (.ext 3)), .read [1, 2] none, .remaining 2, .read [3, 4] (some .eof), .remaining 0] := by decide +kernel
example : Smooth 4 [0] [.readAt 0 2 1, .read 0 2, .remaining 0, .read 0 3, .remaining 0]
    [.read [] (some (.ext 3)), .read [1, 2] none, .remaining 2, .read [3, 4] (some .eof), .remaining 0] := by
  refine ⟨by simp, ?_, by simp, ?_, by simp, trivial⟩
  · intro h k d e h1 h2; simp at h2
  · intro h k d e h1 h2
    simp only [Op.read.injEq] at h1
    simp only [Out.read.injEq] at h2
    rw [← h1.1, ← h2.1]
    exact .inr ⟨2, rfl, rfl⟩

/-- After a failure at 2, for whatever is done then. -/
example (ops : List Op) (hv : ∀ op ∈ ops, op.Valid) :
    NoFurther (SeekerBody.step (flakyRdr [1, 2, 3])) (seekAfter (flakyRdr [1, 2, 3]) (false, 0) 3 ([.copy 0, .seek 0 2 0] ++ .read 0 5 :: ops))
      (track [0] ([.copy 0, .seek 0 2 0] ++ .read 0 5 :: ops) (seekOuts (flakyRdr [1, 2, 3]) (false, 0) 3 ([.copy 0, .seek 0 2 0] ++ .read 0 5 :: ops))) 2 :=
  C62_no_further_seeker (flakyRdr_seek _) (false, 0) trivial 3 (by decide) [.copy 0, .seek 0 2 0] (by simp [Op.Valid, IsI64]) 0 5 2 [] (.ext 3)
    (by decide +kernel) (by decide +kernel) (by decide +kernel) ops hv

end Verif
