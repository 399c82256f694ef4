import Verif.Spec.Success
import Verif.Proofs.Source

/-! # The Bodies of this repository deliver their bytes -/

set_option autoImplicit false

namespace Verif
open Spec

variable {S : Type} {step : S → Op → S × Out} {cfg : Cfg} {Ok : Op → Prop} {Allowed : Choice → Prop}

theorem lively_of_sim (Rel : S → List Cursor → Prop)
    (hstep : ∀ s f op, Rel s f → Ok op → (step s op).2 ≠ .hang →
      ∃ ch, Allowed ch ∧ (step s op).2 = (Spec.step cfg ch f op).2 ∧
        Rel (step s op).1 (Spec.step cfg ch f op).1)
    (h : Nat) (hread : ∀ k, k < 2 ^ 62 → Ok (.read h k)) (hwrite : cfg.drains = true → ∀ w, Ok (.writeTo h w))
    (hw0 : ∀ s w, (step s (.writeTo h w)).2 ≠ .hang) (hfin : cfg.fin = .eof) (K : Nat) (hK : K < 2 ^ 62)
    (hsafe : ∀ s f k, Rel s f → k ≤ K → (step s (.read h k)).2 ≠ .hang ∧ ∀ p, (step s (.read h k)).2 ≠ .panic p)
    (hclose : ∀ s f c, Rel s f → f[h]? = some c → c.isOpen = true → (step s (.close h)).2 = .closed none) :
    Lively (BodyOps.ofFam step cfg.drains h) (SrcRel Rel h) K := by
  have hsrc := source_of_sim Rel hstep h hread hwrite hw0
  have hcl : ∀ s f c, Rel s f → f[h]? = some c → c.isOpen = true → ((BodyOps.ofFam step cfg.drains h).close s).2 = .ret none := by
    intro s f c hR hc ho
    have := hclose s f c hR hc ho
    simp only [BodyOps.ofFam]
    rcases hq : step s (.close h) with ⟨s', o⟩
    rw [hq] at this
    simp only at this
    subst this
    rfl
  refine ⟨?_, ?_, ?_⟩
  · rintro s C k hk0 hk hP
    have hP' := hP
    obtain ⟨f, c, hR, hc, ho, rfl⟩ := hP'
    obtain ⟨n1, n2⟩ := hsafe s f k hR hk
    obtain ⟨ch, -, h1, -⟩ := hstep s f (.read h k) hR (hread k (by omega)) n1
    simp only [Spec.step, Op.h, hc] at h1
    have hout : ∃ d e, (c.read cfg ch k).2 = .read d e ∧ d.length ≤ k ∧ (e = none ∧ d ≠ [] ∨ e = some .eof) := by
      by_cases hd : c.done = true
      · exact ⟨[], some cfg.fin, by simp [Cursor.read, ho, hd], by simp, .inr (by rw [hfin])⟩
      · have hd' : c.done = false := by simpa using hd
        cases hcr : ch.crash with
        | some p =>
          exfalso
          apply n2 p
          rw [h1]
          simp [Cursor.read, ho, hd', hcr]
        | none =>
          simp only [Cursor.read, ho, hd', hcr, Bool.not_true, Bool.false_eq_true, if_false]
          refine ⟨_, _, rfl, by simp; omega, ?_⟩
          by_cases hen : (decide (c.content.length < c.pos + k) ||
              (ch.early && decide (0 < k) && decide (c.pos + k = c.content.length))) = true
          · rw [if_pos hen]; right; rw [hfin]
          · rw [if_neg hen]
            left
            refine ⟨rfl, ?_⟩
            intro h0
            have := congrArg List.length h0
            simp at this hen
            omega
    obtain ⟨d, e, o1, o2, o3⟩ := hout
    rw [o1] at h1
    have hrd : (BodyOps.ofFam step cfg.drains h).read s k = ((step s (.read h k)).1, .ret (d, e)) := by
      simp only [BodyOps.ofFam]
      rcases hq : step s (.read h k) with ⟨s', o⟩
      rw [hq] at h1
      simp only at h1
      subst h1
      rfl
    obtain ⟨C', a1, a2, a3⟩ := hsrc.read s c.rest k _ d e (by omega) hP hrd
    refine ⟨_, d, e, C', hrd, o2, a1, a2, ?_⟩
    rcases o3 with o3 | o3
    · exact .inl o3
    · exact .inr ⟨o3, a3 o3⟩
  · rintro (hdr : cfg.drains = true) s C ⟨f, c, hR, hc, ho, rfl⟩
    have hlt : h < f.length := (List.getElem?_eq_some_iff.1 hc).1
    have one : ∀ w, (step s (.writeTo h w)).2 = (c.writeTo w).2 ∧
        Rel (step s (.writeTo h w)).1 (f.set h (c.writeTo w).1) := by
      intro w
      obtain ⟨ch, -, h1, h2⟩ := hstep s f (.writeTo h w) hR (hwrite hdr w) (hw0 s w)
      simp only [Spec.step, Op.h, hc, hdr, if_true] at h1 h2
      exact ⟨h1, h2⟩
    have hopen : ∀ w, (c.writeTo w).1.isOpen = true := by
      intro w
      simp only [Cursor.writeTo]
      split
      · exact ho
      · split
        · exact ho
        · repeat' split
          all_goals exact ho
    have hclosed : ∀ w, ((BodyOps.ofFam step cfg.drains h).close (step s (.writeTo h w)).1).2 = .ret none := fun w =>
      hcl _ _ _ (one w).2 (by simp [hlt]) (hopen w)
    have e0 : (BodyOps.ofFam step cfg.drains h).writeTo s = match step s (.writeTo h (fun _ => .ok (0, none))) with
      | (s', .wrote none n err) => .done s' n err
      | (_, .wrote (some d) _ _) => .write s d fun n err =>
        match step s (.writeTo h (fun _ => .ok (n, err))) with
        | (s', .wrote _ n err) => .done s' n err
        | (s', .panic p) => .panic s' p
        | (s', _) => .panic s' .nilDeref
      | (s', .panic p) => .panic s' p
      | (s', _) => .panic s' .nilDeref := rfl
    rw [e0]
    obtain ⟨h0, -⟩ := one (fun _ => .ok (0, none))
    have c0 := hclosed (fun _ => .ok (0, none))
    rcases hq : step s (.writeTo h (fun _ => .ok (0, none))) with ⟨s1, o⟩
    rw [hq] at h0 c0
    dsimp only at h0 c0
    by_cases hd : c.done = true
    · have : o = .wrote none 0 none := by rw [h0]; simp [Cursor.writeTo, ho, hd]
      subst this
      exact ⟨rfl, by simp [Cursor.rest, hd], c0⟩
    · have hd' : c.done = false := by simpa using hd
      have : o = .wrote (some (c.content.drop c.pos)) 0 none := by
        rw [h0]; simp [Cursor.writeTo, ho, hd']
      subst this
      refine ⟨[], by simp [Cursor.rest, hd'], ?_⟩
      dsimp only
      obtain ⟨h3, -⟩ := one (fun _ => .ok ((c.content.drop c.pos).length, none))
      have c3 := hclosed (fun _ => .ok ((c.content.drop c.pos).length, none))
      rcases hq2 : step s (.writeTo h (fun _ => .ok ((c.content.drop c.pos).length, none))) with ⟨s2, o2⟩
      rw [hq2] at h3 c3
      dsimp only at h3 c3
      have : o2 = .wrote (some (c.content.drop c.pos)) (c.content.drop c.pos).length none := by
        rw [h3]
        simp only [Cursor.writeTo, ho, hd', Bool.not_true, Bool.false_eq_true, if_false]
        rw [if_pos ⟨by omega, by omega⟩]
      subst this
      exact ⟨rfl, rfl, c3⟩
  · rintro s ⟨f, c, hR, hc, ho, -⟩
    exact hcl s f c hR hc ho

variable {σ : Type}

/-- If the Reader has a `Close`, it returns nil. -/
def Spec.CloseNil (R : Rdr σ) : Prop := R.isCloser = true → ∀ st, (R.close st).2 = .ok none

/-- Bodies made by `FromBytes`/`FromString` from a non-empty string. -/
theorem mem_lively (data : List Byte) (hlen : data.length < 2 ^ 63) (hne : data ≠ []) (h : Nat) (K : Nat) (hK : K < 2 ^ 62) :
    Lively (BodyOps.ofFam MemFam.step true h) (SrcRel (MemRel data) h) K := by
  refine lively_of_sim (cfg := memCfg data) (Allowed := (· = {})) (MemRel data) (mem_step_sim' hlen) h
    (fun k _ => ⟨trivial, fun h => absurd h hne⟩) (fun _ w => ⟨trivial, fun h => absurd h hne⟩) (fun s w => goOut_ne_hang s _)
    rfl K hK ?_ ?_
  · intro s f k hR _
    refine ⟨goOut_ne_hang s _, ?_⟩
    intro p
    have := (mem_step_sim hlen s f (.read h k) hR ⟨trivial, fun h => absurd h hne⟩).1
    rw [this]
    simp only [Spec.step, Op.h]
    split
    · simp
    · simp only [Cursor.read]
      repeat' split
      all_goals simp
  · intro s f c hR hc ho
    have := (mem_step_sim hlen s f (.close h) hR ⟨trivial, fun h => absurd h hne⟩).1
    rw [this]
    simp [Spec.step, Op.h, hc, ho, memCfg]

theorem pos_close_nil {K : PosKind σ} (hq : CloseNil K.R) {C : List Byte} {Inv : σ → Prop} {s : PosSys σ} {f : List Cursor} {c : Cursor}
    {h : Nat} (hR : PSim C Inv s f) (hc : f[h]? = some c) (ho : c.isOpen = true) : (Pos.step K s (.close h)).2 = .closed none := by
  unfold Pos.step
  simp only [Op.h]
  cases hb : s.heap[h]? with
  | none => rw [(hR.pw.none_iff h).1 hb] at hc; simp at hc
  | some b =>
    obtain ⟨c', hc', hr⟩ := hR.pw.get hb
    rw [hc] at hc'
    cases hc'
    have : b.closed = false := by have := hr.opn; rw [ho] at this; simpa using this.symm
    simp only [this, Bool.false_eq_true, if_false]
    unfold Pos.unref
    split
    · rfl
    · split
      · rename_i hcl
        simp only [Bool.and_eq_true] at hcl
        rw [hq hcl.2]
        rfl
      · rfl

theorem pos_read_safe {K : PosKind σ} [K.R.CloseOk] {F : List Byte} {Inv : σ → Prop} (hG : GoodGet K F Inv) {n : Nat}
    (hn : n ≤ F.length) (hn63 : n < 2 ^ 63) (hN : ∀ s op, (Pos.step K s op).2 ≠ .hang) (h : Nat) (s : PosSys σ) (f : List Cursor)
    (k : Nat) (hs : PSim (F.take n) Inv s f) :
    (Pos.step K s (.read h k)).2 ≠ .hang ∧ ∀ p, (Pos.step K s (.read h k)).2 ≠ .panic p := by
  refine ⟨hN _ _, fun p => ?_⟩
  obtain ⟨ch, ha, h1, -⟩ := psim_step' hG hn hn63 s f (.read h k) hs trivial (hN _ _)
  rw [h1]
  simp only [Spec.step, Op.h]
  split
  · simp
  · simp only [Cursor.read, ha.2]
    repeat' split
    all_goals simp

/-- Bodies over a well-behaved `io.ReaderAt`. -/
theorem readerAt_lively {R : Rdr σ} {F : List Byte} {Inv : σ → Prop} (hR : IsReaderAt R F Inv) (hq : CloseNil R) (n : Nat)
    (hn : n ≤ F.length) (hn63 : n < 2 ^ 63) (h : Nat) (K : Nat) (hK : K < 2 ^ 62) :
    Lively (BodyOps.ofFam (ReaderAtBody.step R) false h) (SrcRel (PSim (F.take n) Inv) h) K := by
  haveI := hR.closeOk
  have hN : ∀ s op, (Pos.step (atKind R) s op).2 ≠ .hang := fun s op => by rw [← at_step]; exact at_noHang R s op
  rw [at_step]
  exact lively_of_sim (cfg := posCfg n) (Allowed := PosAllowed) (PSim (F.take n) Inv) (psim_step' (goodGet_at hR) hn hn63) h
    (fun k _ => trivial) (fun _ w => trivial) (fun s w => hN s _) rfl K hK
    (fun s f k hs _ => pos_read_safe (goodGet_at hR) hn hn63 hN h s f k hs)
    (fun s f c hs hc ho => pos_close_nil hq hs hc ho)

/-- Bodies over a well-behaved `io.ReadSeeker` that fills the buffer. -/
theorem seeker_lively {R : Rdr σ} {F : List Byte} {At : σ → Nat → Prop} (hR : IsFullSeeker R F At) (hq : CloseNil R) (n : Nat)
    (hn : n ≤ F.length) (hn63 : n < 2 ^ 63) (h : Nat) (K : Nat) (hK : K < 2 ^ 62) :
    Lively (BodyOps.ofFam (SeekerBody.step R) false h) (SrcRel (PSim (F.take n) fun st => ∃ p, At st p) h) K := by
  haveI := hR.closeOk
  have hN : ∀ s op, (Pos.step (seekKind R) s op).2 ≠ .hang := fun s op => by rw [← seek_step]; exact seek_noHang R s op
  rw [seek_step]
  exact lively_of_sim (cfg := posCfg n) (Allowed := PosAllowed) (PSim (F.take n) fun st => ∃ p, At st p)
    (psim_step' (goodGet_seek hR) hn hn63) h
    (fun k _ => trivial) (fun _ w => trivial) (fun s w => hN s _) rfl K hK
    (fun s f k hs _ => pos_read_safe (goodGet_seek hR) hn hn63 hN h s f k hs)
    (fun s f c hs hc ho => pos_close_nil hq hs hc ho)

/-- Bodies over a plain `io.Reader` that is a stream and not idle for ever. -/
theorem stream_lively {R : Rdr σ} (hq : CloseNil R) {Inv : σ → List Byte → Prop} (hS : IsStream R .eof Inv) {B : Nat} {idle : σ → Nat}
    (hE : Eager R B idle) (T : List Byte) (L : Int) (K : Nat) (hK : K < 2 ^ 62) (fuel : Nat) (hf : (K + 65536) * (B + 1) + B < fuel)
    (h : Nat) : Lively (BodyOps.ofFam (streamStep R fuel) false h) (SrcRel (StreamRel R .eof Inv T L) h) K := by
  haveI : R.CloseOk := ⟨fun hc st => ⟨none, hq hc st⟩⟩
  have hst := streamRel_step hS T L (.inl rfl) fuel
  refine lively_of_sim (cfg := streamCfg L (if 0 ≤ L ∧ L < T.length then .eof else .eof)) (Allowed := fun _ => True) (Ok := Op.Small)
    (StreamRel R .eof Inv T L) hst h (fun k hk => hk) (fun _ w => trivial) (fun s w => by
      unfold streamStep BufSys.step
      split
      · simp
      · simp) (by simp [streamCfg]) K hK ?_ ?_
  · intro s f k hr hk
    refine ⟨step_noHang hE fuel L s hr.winv (.read h k) (by simp only [Op.Small]; omega) K (fun _ _ he => by cases he; exact hk) hf, fun p hp => ?_⟩
    obtain ⟨ext, S⟩ := buf_step R fuel L s hr.winv (.read h k) (by simp only [Op.Small]; omega)
    have hsi := step_pred R (SInv R .eof Inv T) (sinv_read hS) sinv_close fuel L s hr.winv hr.close (.read h k) hr.sinv
    obtain ⟨pre, n, r, h2, h3⟩ := S.blame p hp
    have hmem : Call.read n r ∈ (streamStep R fuel s (.read h k)).1.common.rdr.log := by
      show _ ∈ (BufSys.step R.record fuel s (.read h k)).1.common.rdr.log
      rw [S.log, h2]; simp
    obtain ⟨d, e, h4, h5⟩ := hsi.tame n r hmem
    subst h4
    rcases h3 with ⟨_, h6 | ⟨d', e', h6, h7⟩⟩ | h6
    · cases h6
    · cases h6; omega
    · cases h6
  · intro s f c hr hc ho
    have hnh : (streamStep R fuel s (.close h)).2 ≠ .hang := by
      obtain ⟨ext, S⟩ := buf_step R fuel L s hr.winv (.close h) trivial
      intro hh
      obtain ⟨_, _, h'⟩ := S.hang hh
      cases h'
    obtain ⟨ch, -, h1, -⟩ := hst s f (.close h) hr trivial hnh
    have hnp : ∀ p, (streamStep R fuel s (.close h)).2 ≠ .panic p := by
      intro p
      rw [h1]
      simp [Spec.step, Op.h, hc, ho]
    cases hb : s.heap[h]? with
    | none => rw [(hr.rel.none_iff h).1 hb] at hc; simp at hc
    | some b =>
      obtain ⟨c', hc', hr'⟩ := hr.rel.get hb
      rw [hc] at hc'
      cases hc'
      have hcl : b.closed = false := by have := hr'.opn; rw [ho] at this; simpa using this.symm
      have key : (streamStep R fuel s (.close h)).2 = .closed none ∨ ∃ p, (streamStep R fuel s (.close h)).2 = .panic p := by
        show (BufSys.step R.record fuel s (.close h)).2 = _ ∨ _
        unfold streamStep BufSys.step
        simp only [Op.h, hb, BufSys.close, hcl, Bool.false_eq_true, if_false]
        have hun : (BufSys.unref R.record s h b).2.1 = none := by
          have hr0 : (s.common.hasR && R.record.isCloser) = true → (R.record.close s.common.rdr).2 = .ok none := by
            intro hx
            simp only [Bool.and_eq_true] at hx
            exact hq hx.2 s.common.rdr.inner
          unfold BufSys.unref
          simp only
          split
          · repeat' split
            all_goals rfl
          · split
            · rename_i hx
              rw [hr0 hx]
            · rfl
        split
        · exact .inr ⟨_, rfl⟩
        · left; rw [hun]
      rcases key with key | ⟨p, key⟩
      · exact key
      · exact absurd key (hnp p)

end Verif
