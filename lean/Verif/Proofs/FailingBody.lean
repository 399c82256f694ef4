import Verif.Proofs.Failing

/-! # The Bodies of this repository over sources that fail in the middle -/

set_option autoImplicit false

namespace Verif
open Spec

variable {S : Type} {step : S → Op → S × Out} {cfg : Cfg} {Ok : Op → Prop} {Allowed : Choice → Prop}

theorem failing_of_sim (Rel : S → List Cursor → Prop)
    (hstep : ∀ s f op, Rel s f → Ok op → (step s op).2 ≠ .hang →
      ∃ ch, Allowed ch ∧ (step s op).2 = (Spec.step cfg ch f op).2 ∧
        Rel (step s op).1 (Spec.step cfg ch f op).1)
    (h : Nat) (hread : ∀ k, k < 2 ^ 62 → Ok (.read h k)) (hdr : cfg.drains = false) {e : Err} (hfin : cfg.fin = e) (he : e ≠ .eof)
    (K : Nat) (hK : K < 2 ^ 62)
    (hsafe : ∀ s f k, Rel s f → k ≤ K → (step s (.read h k)).2 ≠ .hang ∧ ∀ p, (step s (.read h k)).2 ≠ .panic p)
    (hclose : Ok (.close h)) (hc0 : ∀ s f, Rel s f → (step s (.close h)).2 ≠ .hang) :
    Failing (BodyOps.ofFam step false h) (SrcRel Rel h) K e := by
  refine ⟨he, rfl, ?_, ?_⟩
  · rintro s C k hk0 hk ⟨f, c, hR, hc, ho, rfl⟩
    obtain ⟨n1, n2⟩ := hsafe s f k hR hk
    obtain ⟨ch, -, h1, h2⟩ := hstep s f (.read h k) hR (hread k (by omega)) n1
    simp only [Spec.step, Op.h, hc] at h1 h2
    have hlt : h < f.length := (List.getElem?_eq_some_iff.1 hc).1
    have mk : ∀ d er c', (c.read cfg ch k) = (c', .read d er) → c'.isOpen = true → d.length ≤ k → c.rest = d ++ c'.rest →
        (er = none ∧ d ≠ [] ∨ er = some e ∧ c'.rest = []) → ∃ b' d er C', (BodyOps.ofFam step false h).read s k = (b', .ret (d, er)) ∧ d.length ≤ k ∧
          c.rest = d ++ C' ∧ SrcRel Rel h b' C' ∧ (er = none ∧ d ≠ [] ∨ er = some e ∧ C' = []) := by
      intro d er c' hq g1 g2 g3 g4
      rw [hq] at h1 h2
      refine ⟨(step s (.read h k)).1, d, er, c'.rest, ?_, g2, g3, ⟨_, c', h2, by simp [hlt], g1, rfl⟩, g4⟩
      simp only [BodyOps.ofFam]
      rcases hq' : step s (.read h k) with ⟨s', o⟩
      rw [hq'] at h1
      simp only at h1
      subst h1
      rfl
    by_cases hd : c.done = true
    · exact mk [] (some cfg.fin) c (by simp [Cursor.read, ho, hd]) ho (by simp) (by simp) (.inr ⟨by rw [hfin], by simp [Cursor.rest, hd]⟩)
    · have hd' : c.done = false := by simpa using hd
      cases hcr : ch.crash with
      | some p =>
        exfalso
        apply n2 p
        rw [h1]
        simp [Cursor.read, ho, hd', hcr]
      | none =>
        have hq : c.read cfg ch k = ({ c with pos := c.pos + ((c.content.drop c.pos).take k).length, done := (decide (c.content.length < c.pos + k) ||
          (ch.early && decide (0 < k) && decide (c.pos + k = c.content.length))) }, .read ((c.content.drop c.pos).take k) (if (decide (c.content.length < c.pos + k) ||
          (ch.early && decide (0 < k) && decide (c.pos + k = c.content.length))) then some cfg.fin else none)) := by
          simp only [Cursor.read, ho, hd', hcr, Bool.not_true, Bool.false_eq_true, if_false]
        generalize hen : (decide (c.content.length < c.pos + k) ||
          (ch.early && decide (0 < k) && decide (c.pos + k = c.content.length))) = ended at hq
        have hsplit : c.content.drop c.pos = (c.content.drop c.pos).take k ++
            c.content.drop (c.pos + ((c.content.drop c.pos).take k).length) := by
          conv => lhs; rw [← List.take_append_drop k (c.content.drop c.pos)]
          congr 1
          rw [List.drop_drop, List.length_take, List.length_drop]
          by_cases hle : k ≤ c.content.length - c.pos
          · rw [Nat.min_eq_left hle]
          · rw [Nat.min_eq_right (by omega), List.drop_eq_nil_of_le (by omega), List.drop_eq_nil_of_le (by omega)]
        have hend : ended = true → c.content.drop (c.pos + ((c.content.drop c.pos).take k).length) = [] := by
          intro hen'
          rw [hen'] at hen
          apply List.drop_eq_nil_of_le
          rw [List.length_take, List.length_drop]
          simp at hen
          omega
        refine mk _ _ _ hq ho (by rw [List.length_take]; omega) ?_ ?_
        · cases ended with
          | true => rw [hend rfl, List.append_nil] at hsplit; simpa [Cursor.rest, hd'] using hsplit
          | false => simpa [Cursor.rest, hd'] using hsplit
        · cases ended with
          | true => exact .inr ⟨by simp [hfin], by simp [Cursor.rest]⟩
          | false =>
            refine .inl ⟨by simp, ?_⟩
            intro h0
            have := congrArg List.length h0
            simp at this hen
            omega
  · rintro s C ⟨f, c, hR, hc, ho, -⟩
    obtain ⟨ch, -, h1, -⟩ := hstep s f (.close h) hR hclose (hc0 s f hR)
    simp only [Spec.step, Op.h, hc, ho, if_true] at h1
    simp only [BodyOps.ofFam]
    rcases hq : step s (.close h) with ⟨s', o⟩
    rw [hq] at h1
    simp only at h1
    subst h1
    exact ⟨_, rfl⟩

variable {σ : Type}

/-- Bodies over a plain `io.Reader` that fails. -/
theorem stream_failing {R : Rdr σ} [R.CloseOk] {e : Err} (he : e ≠ .eof) {Inv : σ → List Byte → Prop} (hS : IsStream R e Inv) {B : Nat} {idle : σ → Nat}
    (hE : Eager R B idle) (T : List Byte) (L : Int) (hL : L < 0 ∨ (T.length : Int) < L) (K : Nat) (hK : K < 2 ^ 62) (fuel : Nat)
    (hf : (K + 65536) * (B + 1) + B < fuel) (h : Nat) :
    Failing (BodyOps.ofFam (streamStep R fuel) false h) (SrcRel (StreamRel R e Inv T L) h) K e := by
  refine failing_of_sim (cfg := streamCfg L (if 0 ≤ L ∧ L < T.length then .eof else e)) (Allowed := fun _ => True) (Ok := Op.Small)
    (StreamRel R e Inv T L) (streamRel_step hS T L (.inr (by omega)) fuel) h (fun k hk => hk) rfl
    (by show (if 0 ≤ L ∧ L < T.length then Err.eof else e) = e; rw [if_neg (by omega)]) he K hK ?_ trivial ?_
  · intro s f k hr hk
    refine ⟨step_noHang hE fuel L s hr.winv (.read h k) (by simp only [Op.Small]; omega) K (fun _ _ he => by cases he; exact hk) hf, fun p hp => ?_⟩
    obtain ⟨ext, S⟩ := buf_step R fuel L s hr.winv (.read h k) (by simp only [Op.Small]; omega)
    have hsi := step_pred R (SInv R e Inv T) (sinv_read hS) sinv_close fuel L s hr.winv hr.close (.read h k) hr.sinv
    obtain ⟨pre, n, r, h2, h3⟩ := S.blame p hp
    have hmem : Call.read n r ∈ (streamStep R fuel s (.read h k)).1.common.rdr.log := by
      show _ ∈ (BufSys.step R.record fuel s (.read h k)).1.common.rdr.log
      rw [S.log, h2]; simp
    obtain ⟨d, e, h4, h5⟩ := hsi.tame n r hmem
    subst h4
    rcases h3 with ⟨_, h6 | ⟨d', e', h6, h7⟩⟩ | h6
    · cases h6
    · cases h6; omega
    · cases h6
  · intro s f hr hh
    obtain ⟨ext, S⟩ := buf_step R fuel L s hr.winv (.close h) trivial
    obtain ⟨_, _, h'⟩ := S.hang hh
    cases h'

/-- How bytes are fetched from a source that fails beyond the end of `F`. -/
def BreaksGet (K : PosKind σ) (F : List Byte) (e : Err) (Inv : σ → Prop) : Prop :=
  ∀ st x (off : Int), Inv st → 0 ≤ off → off < 2 ^ 63 → ∃ st' er, K.get st x off = (st', .ret ((F.drop off.toNat).take x, er)) ∧ Inv st' ∧
    (((F.drop off.toNat).take x).length < x → er = some e) ∧ (off.toNat + x < F.length → er = none) ∧ (er = none ∨ er = some e)

theorem breaks_at {R : Rdr σ} {F : List Byte} {e : Err} {Inv : σ → Prop} (hR : BreaksAt R F e Inv) : BreaksGet (atKind R) F e Inv := by
  intro st x off hi h0 h63
  obtain ⟨st', er, h1, h2, h3⟩ := hR.readAt st x off hi h0 h63
  refine ⟨st', er, ?_, h2, h3⟩
  simp only [atKind, h1, checked]
  rw [if_pos (by rw [List.length_take]; omega)]

theorem breaks_seek {R : Rdr σ} {F : List Byte} {e : Err} {At : σ → Nat → Prop} (hR : BreaksSeeking R F e At) :
    BreaksGet (seekKind R) F e fun st => ∃ p, At st p := by
  rintro st x off ⟨p, hi⟩ h0 h63
  obtain ⟨st1, n, h1, h2⟩ := hR.seek st p off hi h0 h63
  obtain ⟨st', er, h3, h4, h5⟩ := hR.read st1 _ x h2
  refine ⟨st', er, ?_, h4, h5⟩
  simp only [seekKind, h1, h3, checked]
  rw [if_pos (by rw [List.length_take]; omega)]

/-- A Body of a family over such a source, whose length is longer than that; it is open and is going to deliver `C` and then to fail. -/
structure Doomed (F : List Byte) (e : Err) (Inv : σ → Prop) (h : Nat) (s : PosSys σ) (C : List Byte) : Prop where
  ex : ∃ b, s.heap[h]? = some b ∧ b.closed = false ∧ ((b.err = some e ∧ C = []) ∨
    (b.err = none ∧ s.common.hasR = true ∧ Inv s.common.rdr ∧ (F.length : Int) < s.common.length ∧ s.common.length < 2 ^ 63 ∧
      ∃ p : Nat, b.offset = p ∧ p ≤ F.length ∧ C = F.drop p))

theorem doomed_init (F : List Byte) (e : Err) {Inv : σ → Prop} {st : σ} (hi : Inv st) (n : Nat) (h1 : F.length < n) (h2 : n < 2 ^ 63) :
    Doomed F e Inv 0 (ReaderAtBody.init st n) F :=
  ⟨{}, rfl, rfl, .inr ⟨rfl, rfl, hi, by show (F.length : Int) < n; omega, by show (n : Int) < _; omega, 0, rfl, by omega, rfl⟩⟩

theorem pos_failing {K : PosKind σ} {F : List Byte} {e : Err} (he : e ≠ .eof) {Inv : σ → Prop} (hG : BreaksGet K F e Inv)
    (hcl : K.R.isCloser = true → ∀ st, ∃ r, (K.R.close st).2 = .ok r) (h : Nat) (M : Nat) :
    Failing (BodyOps.ofFam (Pos.step K) false h) (Doomed F e Inv h) M e := by
  refine ⟨he, rfl, ?_, ?_⟩
  · rintro s C k hk0 hk ⟨b, hb, hc, hx⟩
    have hlt : h < s.heap.length := (List.getElem?_eq_some_iff.1 hb).1
    simp only [BodyOps.ofFam, Pos.step, Op.h, hb, Pos.read, hc, Bool.false_eq_true, if_false]
    rcases hx with ⟨h1, rfl⟩ | ⟨h1, h2, h3, h4, h5, p, h6, h7, rfl⟩
    · rw [h1]
      exact ⟨s, [], some e, [], rfl, by simp, rfl, ⟨b, hb, hc, .inl ⟨h1, rfl⟩⟩, .inr ⟨rfl, rfl⟩⟩
    · rw [h1]
      dsimp only
      have hoff : ¬ (b.offset > s.common.length) := by omega
      have ⟨c', er, g1, g2, g3, g4, g5, g6, g7⟩ : ∃ c' er, Pos.attempt K s.common k b.offset = (c', .ret ((F.drop p).take k, er)) ∧ Inv c'.rdr ∧
          c'.length = s.common.length ∧ c'.hasR = true ∧ (((F.drop p).take k).length < k → er = some e) ∧
          (er = none ∨ er = some e) ∧ (p + k < F.length → er = none) := by
        unfold Pos.attempt
        simp only [if_neg hoff]
        rw [if_pos (show s.common.length - b.offset > 0 by omega)]
        by_cases hav : (k : Int) > s.common.length - b.offset
        · -- asks for all that is there of it
          obtain ⟨m, hm⟩ : ∃ m : Nat, s.common.length - b.offset = m := ⟨(s.common.length - b.offset).toNat, by omega⟩
          have hg : goSlice (List.replicate k (0 : Byte)) 0 (m : Int) = some (List.replicate m 0) := by
            simp [goSlice]
            omega
          rw [hm] at hav ⊢
          simp only [decide_eq_true hav, if_true, hg, List.length_replicate]
          unfold Pos.fetch
          rw [if_neg (by simp [h2])]
          obtain ⟨st', er, g1, g2, g3, g4, g5⟩ := hG s.common.rdr m b.offset h3 (by omega) (by omega)
          rw [show b.offset.toNat = p by omega] at g1 g3
          have hl : ((F.drop p).take m).length < m := by rw [List.length_take, List.length_drop]; omega
          have hee := g3 hl
          subst hee
          have hsame : (F.drop p).take m = (F.drop p).take k := by
            rw [List.take_of_length_le (by rw [List.length_drop]; omega), List.take_of_length_le (by rw [List.length_drop]; omega)]
          rw [g1]
          refine ⟨{ s.common with rdr := st' }, some e, ?_, g2, rfl, h2, fun _ => rfl, .inr rfl, fun h => by omega⟩
          simp [hsame]
        · have hg : goSlice (List.replicate k (0 : Byte)) 0 (k : Int) = some (List.replicate k 0) := by
            simp [goSlice]
          have hdec : decide ((k : Int) > s.common.length - b.offset) = false := by simpa using hav
          simp only [hdec, Bool.false_eq_true, if_false, hg, List.length_replicate]
          unfold Pos.fetch
          rw [if_neg (by simp [h2])]
          obtain ⟨st', er, g1, g2, g3, g4, g5⟩ := hG s.common.rdr k b.offset h3 (by omega) (by omega)
          rw [show b.offset.toNat = p by omega] at g1 g3 g4
          rw [g1]
          exact ⟨{ s.common with rdr := st' }, er, by simp, g2, rfl, h2, g3, g5, g4⟩
      rw [g1]
      dsimp only
      rw [if_neg hoff]
      have hlen : ((F.drop p).take k).length = min k (F.length - p) := by simp
      have hsplit : F.drop p = (F.drop p).take k ++ F.drop (p + ((F.drop p).take k).length) := by
        conv => lhs; rw [← List.take_append_drop k (F.drop p)]
        congr 1
        rw [List.drop_drop, hlen]
        by_cases hle : k ≤ F.length - p
        · rw [Nat.min_eq_left hle]
        · rw [Nat.min_eq_right (by omega), List.drop_eq_nil_of_le (by omega), List.drop_eq_nil_of_le (by omega)]
      rcases g6 with rfl | rfl
      · refine ⟨_, _, none, F.drop (p + ((F.drop p).take k).length), rfl, by omega, hsplit, ?_, .inl ⟨rfl, ?_⟩⟩
        · refine ⟨{ b with offset := b.offset + ((F.drop p).take k).length, err := none }, by simp [hlt], hc, .inr ⟨rfl, g4, g2, ?_, ?_, ?_⟩⟩
          · show (F.length : Int) < c'.length; omega
          · show c'.length < 2 ^ 63; omega
          · exact ⟨_, by rw [h6]; rfl, by omega, rfl⟩
        · intro h0
          have := g5 (by rw [h0]; exact hk0)
          cases this
      · have hz : F.drop (p + ((F.drop p).take k).length) = [] := by
          apply List.drop_eq_nil_of_le
          have : ¬ (p + k < F.length) := fun h => by have := g7 h; cases this
          omega
        rw [hz] at hsplit
        refine ⟨_, _, some e, [], rfl, by omega, hsplit, ?_, .inr ⟨rfl, rfl⟩⟩
        exact ⟨{ b with offset := b.offset + ((F.drop p).take k).length, err := some e }, by simp [Pos.served, hlt], hc, .inl ⟨rfl, rfl⟩⟩
  · rintro s C ⟨b, hb, hc, -⟩
    have ⟨r, hr⟩ : ∃ r, (Pos.unref K.R s.common).2 = .ok r := by
      unfold Pos.unref
      split
      · exact ⟨_, rfl⟩
      · split
        · rename_i hx
          simp only [Bool.and_eq_true] at hx
          exact hcl hx.2 s.common.rdr
        · exact ⟨_, rfl⟩
    simp only [BodyOps.ofFam, Pos.step, Op.h, hb, hc, Bool.false_eq_true, if_false, hr, passedOn]
    exact ⟨r, rfl⟩

/-- Bodies over an `io.ReaderAt` that fails before the length. -/
theorem readerAt_failing {R : Rdr σ} {F : List Byte} {e : Err} (he : e ≠ .eof) {Inv : σ → Prop} (hR : BreaksAt R F e Inv) (h K : Nat) :
    Failing (BodyOps.ofFam (ReaderAtBody.step R) false h) (Doomed F e Inv h) K e := by
  rw [at_step]
  exact pos_failing (K := atKind R) he (breaks_at hR) hR.close h K

/-- Bodies over an `io.ReadSeeker` that fails before the length. -/
theorem seeker_failing {R : Rdr σ} {F : List Byte} {e : Err} (he : e ≠ .eof) {At : σ → Nat → Prop} (hR : BreaksSeeking R F e At) (h K : Nat) :
    Failing (BodyOps.ofFam (SeekerBody.step R) false h) (Doomed F e (fun st => ∃ p, At st p) h) K e := by
  rw [seek_step]
  exact pos_failing (K := seekKind R) he (breaks_seek hR) hR.close h K

end Verif
