import Verif.Spec.Delivery
import Verif.Proofs.Lively

/-! # Copying of the Bodies of this repository can be given up -/

set_option autoImplicit false

namespace Verif
open Spec

variable {S : Type} {step : S → Op → S × Out} {cfg : Cfg} {Ok : Op → Prop} {Allowed : Choice → Prop}

theorem quits_of_sim (Rel : S → List Cursor → Prop)
    (hstep : ∀ s f op, Rel s f → Ok op → (step s op).2 ≠ .hang →
      ∃ ch, Allowed ch ∧ (step s op).2 = (Spec.step cfg ch f op).2 ∧
        Rel (step s op).1 (Spec.step cfg ch f op).1)
    (h : Nat) (hclose : Ok (.close h)) (hwrite : cfg.drains = true → ∀ w, Ok (.writeTo h w))
    (hw0 : ∀ s w, (step s (.writeTo h w)).2 ≠ .hang) (hc0 : ∀ s f, Rel s f → (step s (.close h)).2 ≠ .hang) :
    Quits (BodyOps.ofFam step cfg.drains h) (SrcRel Rel h) := by
  have hcl : ∀ s f c, Rel s f → f[h]? = some c → c.isOpen = true → ∃ r, ((BodyOps.ofFam step cfg.drains h).close s).2 = .ret r := by
    intro s f c hR hc ho
    obtain ⟨ch, -, h1, -⟩ := hstep s f (.close h) hR hclose (hc0 s f hR)
    simp only [Spec.step, Op.h, hc, ho, if_true] at h1
    simp only [BodyOps.ofFam]
    rcases hq : step s (.close h) with ⟨s', o⟩
    rw [hq] at h1
    simp only at h1
    subst h1
    exact ⟨_, rfl⟩
  refine ⟨?_, ?_⟩
  · rintro s C ⟨f, c, hR, hc, ho, -⟩
    exact hcl s f c hR hc ho
  · rintro (hdr : cfg.drains = true) s C ⟨f, c, hR, hc, ho, rfl⟩
    have hlt : h < f.length := (List.getElem?_eq_some_iff.1 hc).1
    have one : ∀ w, (step s (.writeTo h w)).2 = (c.writeTo w).2 ∧
        Rel (step s (.writeTo h w)).1 (f.set h (c.writeTo w).1) := by
      intro w
      obtain ⟨ch, -, h1, h2⟩ := hstep s f (.writeTo h w) hR (hwrite hdr w) (hw0 s w)
      simp only [Spec.step, Op.h, hc, hdr, if_true] at h1 h2
      exact ⟨h1, h2⟩
    have hopen : ∀ w, (c.writeTo w).1.isOpen = true := by
      intro w
      simp only [Cursor.writeTo]
      split
      · exact ho
      · split
        · exact ho
        · repeat' split
          all_goals exact ho
    have hclosed : ∀ w, ∃ r, ((BodyOps.ofFam step cfg.drains h).close (step s (.writeTo h w)).1).2 = .ret r := fun w =>
      hcl _ _ _ (one w).2 (by simp [hlt]) (hopen w)
    have e0 : (BodyOps.ofFam step cfg.drains h).writeTo s = match step s (.writeTo h (fun _ => .ok (0, none))) with
      | (s', .wrote none n err) => .done s' n err
      | (_, .wrote (some d) _ _) => .write s d fun n err =>
        match step s (.writeTo h (fun _ => .ok (n, err))) with
        | (s', .wrote _ n err) => .done s' n err
        | (s', .panic p) => .panic s' p
        | (s', _) => .panic s' .nilDeref
      | (s', .panic p) => .panic s' p
      | (s', _) => .panic s' .nilDeref := rfl
    rw [e0]
    obtain ⟨h0, -⟩ := one (fun _ => .ok (0, none))
    rcases hq : step s (.writeTo h (fun _ => .ok (0, none))) with ⟨s1, o⟩
    rw [hq] at h0
    dsimp only at h0
    by_cases hd : c.done = true
    · have : o = .wrote none 0 none := by rw [h0]; simp [Cursor.writeTo, ho, hd]
      subst this
      trivial
    · have hd' : c.done = false := by simpa using hd
      have : o = .wrote (some (c.content.drop c.pos)) 0 none := by
        rw [h0]; simp [Cursor.writeTo, ho, hd']
      subst this
      refine ⟨fun e => ?_, ?_⟩
      · obtain ⟨h3, -⟩ := one (fun _ => .ok (0, some e))
        have c3 := hclosed (fun _ => .ok (0, some e))
        dsimp only
        rcases hq2 : step s (.writeTo h (fun _ => .ok (0, some e))) with ⟨s2, o2⟩
        rw [hq2] at h3 c3
        dsimp only at h3 c3
        have : o2 = .wrote (some (c.content.drop c.pos)) 0 (some e) := by
          rw [h3]
          simp only [Cursor.writeTo, ho, hd', Bool.not_true, Bool.false_eq_true, if_false]
          rw [if_pos ⟨by omega, by omega⟩]
        subst this
        exact ⟨s2, 0, rfl, c3⟩
      · dsimp only
        obtain ⟨h3, -⟩ := one (fun _ => .ok ((c.content.drop c.pos).length, none))
        rcases hq2 : step s (.writeTo h (fun _ => .ok ((c.content.drop c.pos).length, none))) with ⟨s2, o2⟩
        rw [hq2] at h3
        dsimp only at h3
        have : o2 = .wrote (some (c.content.drop c.pos)) (c.content.drop c.pos).length none := by
          rw [h3]
          simp only [Cursor.writeTo, ho, hd', Bool.not_true, Bool.false_eq_true, if_false]
          rw [if_pos ⟨by omega, by omega⟩]
        subst this
        trivial

variable {σ : Type}

theorem mem_quits (data : List Byte) (hlen : data.length < 2 ^ 63) (hne : data ≠ []) (h : Nat) :
    Quits (BodyOps.ofFam MemFam.step true h) (SrcRel (MemRel data) h) :=
  quits_of_sim (cfg := memCfg data) (Allowed := (· = {})) (MemRel data) (mem_step_sim' hlen) h
    ⟨trivial, fun h => absurd h hne⟩ (fun _ w => ⟨trivial, fun h => absurd h hne⟩) (fun s w => goOut_ne_hang s _) (fun s _ _ => goOut_ne_hang s _)

theorem readerAt_quits {R : Rdr σ} {F : List Byte} {Inv : σ → Prop} (hR : IsReaderAt R F Inv) (n : Nat)
    (hn : n ≤ F.length) (hn63 : n < 2 ^ 63) (h : Nat) :
    Quits (BodyOps.ofFam (ReaderAtBody.step R) false h) (SrcRel (PSim (F.take n) Inv) h) := by
  haveI := hR.closeOk
  have hN : ∀ s op, (Pos.step (atKind R) s op).2 ≠ .hang := fun s op => by rw [← at_step]; exact at_noHang R s op
  rw [at_step]
  exact quits_of_sim (cfg := posCfg n) (Allowed := PosAllowed) (PSim (F.take n) Inv) (psim_step' (goodGet_at hR) hn hn63) h
    trivial (fun _ w => trivial) (fun s w => hN s _) (fun s _ _ => hN s _)

theorem seeker_quits {R : Rdr σ} {F : List Byte} {At : σ → Nat → Prop} (hR : IsFullSeeker R F At) (n : Nat)
    (hn : n ≤ F.length) (hn63 : n < 2 ^ 63) (h : Nat) :
    Quits (BodyOps.ofFam (SeekerBody.step R) false h) (SrcRel (PSim (F.take n) fun st => ∃ p, At st p) h) := by
  haveI := hR.closeOk
  have hN : ∀ s op, (Pos.step (seekKind R) s op).2 ≠ .hang := fun s op => by rw [← seek_step]; exact seek_noHang R s op
  rw [seek_step]
  exact quits_of_sim (cfg := posCfg n) (Allowed := PosAllowed) (PSim (F.take n) fun st => ∃ p, At st p)
    (psim_step' (goodGet_seek hR) hn hn63) h trivial (fun _ w => trivial) (fun s w => hN s _) (fun s _ _ => hN s _)

theorem stream_quits {R : Rdr σ} (hq : CloseNil R) {Inv : σ → List Byte → Prop} (hS : IsStream R .eof Inv) (T : List Byte) (L : Int) (fuel : Nat)
    (h : Nat) : Quits (BodyOps.ofFam (streamStep R fuel) false h) (SrcRel (StreamRel R .eof Inv T L) h) := by
  haveI : R.CloseOk := ⟨fun hc st => ⟨none, hq hc st⟩⟩
  refine quits_of_sim (cfg := streamCfg L (if 0 ≤ L ∧ L < T.length then .eof else .eof)) (Allowed := fun _ => True) (Ok := Op.Small)
    (StreamRel R .eof Inv T L) (streamRel_step hS T L (.inl rfl) fuel) h trivial (fun _ w => trivial) (fun s w => by
      unfold streamStep BufSys.step
      split
      · simp
      · simp) ?_
  intro s f hr hh
  obtain ⟨ext, S⟩ := buf_step R fuel L s hr.winv (.close h) trivial
  obtain ⟨_, _, h'⟩ := S.hang hh
  cases h'

end Verif
