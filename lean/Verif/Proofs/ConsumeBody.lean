import Verif.Proofs.Consume
import Verif.Proofs.FailingBody

/-! # The Bodies of this repository, as the standard library uses them -/

set_option autoImplicit false

namespace Verif
open Spec

section
variable {S : Type} {step : S → Op → S × Out} {cfg : Cfg} {Ok : Op → Prop} {Allowed : Choice → Prop}

theorem reads_of_sim (Rel : S → List Cursor → Prop)
    (hstep : ∀ s f op, Rel s f → Ok op → (step s op).2 ≠ .hang →
      ∃ ch, Allowed ch ∧ (step s op).2 = (Spec.step cfg ch f op).2 ∧ Rel (step s op).1 (Spec.step cfg ch f op).1)
    (h : Nat) (dr : Bool) (K : Nat) (hread : ∀ k, k ≤ K → Ok (.read h k))
    (hsafe : ∀ s f k, Rel s f → k ≤ K → (step s (.read h k)).2 ≠ .hang ∧ ∀ p, (step s (.read h k)).2 ≠ .panic p) :
    Source (BodyOps.ofFam step dr h) (SrcRel Rel h) K (· = cfg.fin) := by
  refine ⟨?_⟩
  rintro s C k hk0 hk ⟨f, c, hR, hc, ho, rfl⟩
  obtain ⟨n1, n2⟩ := hsafe s f k hR hk
  obtain ⟨ch, -, h1, h2⟩ := hstep s f (.read h k) hR (hread k hk) n1
  simp only [Spec.step, Op.h, hc] at h1 h2
  have hlt : h < f.length := (List.getElem?_eq_some_iff.1 hc).1
  have mk : ∀ d er c', (c.read cfg ch k) = (c', .read d er) → c'.isOpen = true → d.length ≤ k → c.rest = d ++ c'.rest →
      (er = none ∧ d ≠ [] ∨ er = some cfg.fin ∧ c'.rest = []) → ∃ b' d er C', (BodyOps.ofFam step dr h).read s k = (b', .ret (d, er)) ∧ d.length ≤ k ∧
        c.rest = d ++ C' ∧ SrcRel Rel h b' C' ∧ (er = none ∧ d ≠ [] ∨ ∃ e, er = some e ∧ e = cfg.fin ∧ C' = []) := by
    intro d er c' hq g1 g2 g3 g4
    rw [hq] at h1 h2
    refine ⟨(step s (.read h k)).1, d, er, c'.rest, ?_, g2, g3, ⟨_, c', h2, by simp [hlt], g1, rfl⟩, ?_⟩
    · simp only [BodyOps.ofFam]
      rcases hq' : step s (.read h k) with ⟨s', o⟩
      rw [hq'] at h1
      simp only at h1
      subst h1
      rfl
    · rcases g4 with g4 | ⟨g4, g5⟩
      · exact .inl g4
      · exact .inr ⟨_, g4, rfl, g5⟩
  by_cases hd : c.done = true
  · exact mk [] (some cfg.fin) c (by simp [Cursor.read, ho, hd]) ho (by simp) (by simp) (.inr ⟨rfl, by simp [Cursor.rest, hd]⟩)
  · have hd' : c.done = false := by simpa using hd
    cases hcr : ch.crash with
    | some p =>
      exfalso
      apply n2 p
      rw [h1]
      simp [Cursor.read, ho, hd', hcr]
    | none =>
      have hq : c.read cfg ch k = ({ c with pos := c.pos + ((c.content.drop c.pos).take k).length, done := (decide (c.content.length < c.pos + k) ||
        (ch.early && decide (0 < k) && decide (c.pos + k = c.content.length))) }, .read ((c.content.drop c.pos).take k) (if (decide (c.content.length < c.pos + k) ||
        (ch.early && decide (0 < k) && decide (c.pos + k = c.content.length))) then some cfg.fin else none)) := by
        simp only [Cursor.read, ho, hd', hcr, Bool.not_true, Bool.false_eq_true, if_false]
      generalize hen : (decide (c.content.length < c.pos + k) ||
        (ch.early && decide (0 < k) && decide (c.pos + k = c.content.length))) = ended at hq
      have hsplit : c.content.drop c.pos = (c.content.drop c.pos).take k ++
          c.content.drop (c.pos + ((c.content.drop c.pos).take k).length) := by
        conv => lhs; rw [← List.take_append_drop k (c.content.drop c.pos)]
        congr 1
        rw [List.drop_drop, List.length_take, List.length_drop]
        by_cases hle : k ≤ c.content.length - c.pos
        · rw [Nat.min_eq_left hle]
        · rw [Nat.min_eq_right (by omega), List.drop_eq_nil_of_le (by omega), List.drop_eq_nil_of_le (by omega)]
      have hend : ended = true → c.content.drop (c.pos + ((c.content.drop c.pos).take k).length) = [] := by
        intro hen'
        rw [hen'] at hen
        apply List.drop_eq_nil_of_le
        rw [List.length_take, List.length_drop]
        simp at hen
        omega
      refine mk _ _ _ hq ho (by rw [List.length_take]; omega) ?_ ?_
      · cases ended with
        | true => rw [hend rfl, List.append_nil] at hsplit; simpa [Cursor.rest, hd'] using hsplit
        | false => simpa [Cursor.rest, hd'] using hsplit
      · cases ended with
        | true => exact .inr ⟨by simp, by simp [Cursor.rest]⟩
        | false =>
          refine .inl ⟨by simp, ?_⟩
          intro h0
          have := congrArg List.length h0
          simp at this hen
          omega

theorem seeks_of_sim (Rel : S → List Cursor → Prop)
    (hstep : ∀ s f op, Rel s f → Ok op → (step s op).2 ≠ .hang →
      ∃ ch, Allowed ch ∧ (step s op).2 = (Spec.step cfg ch f op).2 ∧ Rel (step s op).1 (Spec.step cfg ch f op).1)
    (h : Nat) (hsk : cfg.seekable = true) (hok : ∀ off wh, IsI64 off → Ok (.seek h off wh)) (hnh : ∀ s off wh, (step s (.seek h off wh)).2 ≠ .hang)
    {data : List Byte} (hlen : data.length < 2 ^ 63) (hcont : ∀ s f c, Rel s f → f[h]? = some c → c.isOpen = true → c.content = data) :
    Seeks step h (SrcRel Rel h) data := by
  have key : ∀ s f c (off wh : Int) (p : Nat), Rel s f → f[h]? = some c → c.isOpen = true → IsI64 off →
      c.seek off wh = ({ c with pos := p, done := false }, .seek p none) →
      ∃ s', step s (.seek h off wh) = (s', .seek p none) ∧ SrcRel Rel h s' (data.drop p) := by
    intro s f c off wh p hR hc ho hi hs
    obtain ⟨ch, -, h1, h2⟩ := hstep s f (.seek h off wh) hR (hok off wh hi) (hnh s off wh)
    have hlt : h < f.length := (List.getElem?_eq_some_iff.1 hc).1
    simp only [Spec.step, Op.h, hc, hsk, if_true, hs] at h1 h2
    refine ⟨(step s (.seek h off wh)).1, Prod.ext rfl h1, _, { c with pos := p, done := false }, h2, by simp [hlt], ho, ?_⟩
    simp [Cursor.rest, hcont s f c hR hc ho]
  refine ⟨?_, ?_⟩
  · rintro s C off ⟨f, c, hR, hc, ho, rfl⟩ h0 h63
    have hcc := hcont s f c hR hc ho
    obtain ⟨s', e1, e2⟩ := key s f c off 0 (min off.toNat data.length) hR hc ho ⟨by omega, h63⟩ (by
      simp only [Cursor.seek, ho, seekTarget, hcc]
      simp only [Bool.not_true, Bool.false_eq_true, if_false, if_true]
      rw [if_neg (by omega), if_neg (by omega), if_neg (by omega)])
    refine ⟨s', e1, ?_⟩
    rw [show data.drop off.toNat = data.drop (min off.toNat data.length) from ?_]
    · exact e2
    · by_cases hle : off.toNat ≤ data.length
      · rw [Nat.min_eq_left hle]
      · rw [Nat.min_eq_right (by omega), List.drop_eq_nil_of_le (by omega), List.drop_length]
  · rintro s C ⟨f, c, hR, hc, ho, rfl⟩
    have hcc := hcont s f c hR hc ho
    obtain ⟨s', e1, e2⟩ := key s f c 0 2 data.length hR hc ho (by decide) (by
      simp only [Cursor.seek, ho, seekTarget, hcc]
      simp only [Bool.not_true, Bool.false_eq_true, if_false, if_true, Int.reduceEq, Int.add_zero, false_and]
      rw [if_neg (by omega), if_neg (by omega)]
      simp)
    exact ⟨s', e1, by simpa using e2⟩

/-- The family is such that Body `h` is open (whatever has been read). -/
def Spec.OpenIn (Rel : S → List Cursor → Prop) (h : Nat) (s : S) : Prop := ∃ f c, Rel s f ∧ f[h]? = some c ∧ c.isOpen = true

theorem readsAt_of_sim (Rel : S → List Cursor → Prop)
    (hstep : ∀ s f op, Rel s f → Ok op → (step s op).2 ≠ .hang →
      ∃ ch, Allowed ch ∧ (step s op).2 = (Spec.step cfg ch f op).2 ∧ Rel (step s op).1 (Spec.step cfg ch f op).1)
    (h : Nat) (hsk : cfg.seekable = true) (hfin : cfg.fin = .eof) (hok : ∀ k off, IsI64 off → 0 ≤ off → Ok (.readAt h k off))
    (hnh : ∀ s k off, (step s (.readAt h k off)).2 ≠ .hang) (hcr : ∀ ch, Allowed ch → ch.crash = none)
    {data : List Byte} (hcont : ∀ s f c, Rel s f → f[h]? = some c → c.isOpen = true → c.content = data) :
    ReadsAt step h (OpenIn Rel h) data := by
  refine ⟨?_⟩
  rintro s k off ⟨f, c, hR, hc, ho⟩ hk h0 h63
  have hcc := hcont s f c hR hc ho
  obtain ⟨ch, ha, h1, h2⟩ := hstep s f (.readAt h k off) hR (hok k off ⟨by omega, h63⟩ h0) (hnh s k off)
  simp only [Spec.step, Op.h, hc, hsk, if_true] at h1 h2
  simp only [Cursor.readAt, ho, Bool.not_true, Bool.false_eq_true, if_false, hcr ch ha, hcc, hfin] at h1
  rw [if_neg (by omega)] at h1
  have hd : data.drop (min off.toNat data.length) = data.drop off.toNat := by
    by_cases hle : off.toNat ≤ data.length
    · rw [Nat.min_eq_left hle]
    · rw [Nat.min_eq_right (by omega), List.drop_length, List.drop_eq_nil_of_le (by omega)]
  rw [hd] at h1
  refine ⟨_, _, Prod.ext rfl h1, ⟨f, c, h2, hc, ho⟩, ?_, ?_, ?_⟩
  · intro hlt
    rw [if_pos]
    simp only [List.length_take, List.length_drop] at hlt
    simp
    omega
  · intro hlt
    rw [if_neg]
    simp
    omega
  · split
    · exact .inr rfl
    · exact .inl rfl

end

variable {σ : Type}

/-! ## In-memory Bodies (also empty ones) -/

theorem mem_content {data : List Byte} {s : MemFam} {f : List Cursor} {h : Nat} {c : Cursor} (hR : MemRel data s f) (hc : f[h]? = some c)
    (ho : c.isOpen = true) : c.content = data := by
  cases s with
  | empty l =>
    obtain ⟨rfl, hp⟩ := hR
    cases hb : l[h]? with
    | none => rw [(hp.none_iff h).1 hb] at hc; cases hc
    | some b =>
      obtain ⟨c', hc', hr⟩ := hp.get hb
      rw [hc] at hc'
      cases hc'
      have := hr
      simp only [EmptyRel] at this
      simp_all
  | bytes l =>
    obtain ⟨-, hp⟩ := hR
    cases hb : l[h]? with
    | none => rw [(hp.none_iff h).1 hb] at hc; cases hc
    | some b =>
      obtain ⟨c', hc', hr⟩ := hp.get hb
      rw [hc] at hc'
      cases hc'
      have := hr
      simp only [BytesRel] at this
      simp_all

theorem mem_reads (data : List Byte) (hlen : data.length < 2 ^ 63) (h K : Nat) :
    Source (BodyOps.ofFam MemFam.step true h) (SrcRel (MemRel data) h) K (· = .eof) :=
  reads_of_sim (cfg := memCfg data) (Allowed := (· = {})) (MemRel data) (mem_step_sim' hlen) h true K (fun k _ => ⟨trivial, fun _ => trivial⟩)
    (fun s f k hR _ => by
      refine ⟨goOut_ne_hang s _, ?_⟩
      intro p
      have := (mem_step_sim hlen s f (.read h k) hR ⟨trivial, fun _ => trivial⟩).1
      rw [this]
      simp only [Spec.step, Op.h]
      split
      · simp
      · simp only [Cursor.read]
        repeat' split
        all_goals simp)

theorem mem_seeks (data : List Byte) (hlen : data.length < 2 ^ 63) (h : Nat) : Seeks MemFam.step h (SrcRel (MemRel data) h) data :=
  seeks_of_sim (cfg := memCfg data) (Allowed := (· = {})) (MemRel data) (mem_step_sim' hlen) h rfl (fun _ _ hi => ⟨hi, fun _ => trivial⟩)
    (fun s _ _ => goOut_ne_hang s _) hlen (fun _ _ _ hR hc ho => mem_content hR hc ho)

theorem mem_readsAt (data : List Byte) (hlen : data.length < 2 ^ 63) (h : Nat) : ReadsAt MemFam.step h (OpenIn (MemRel data) h) data :=
  readsAt_of_sim (cfg := memCfg data) (Allowed := (· = {})) (MemRel data) (mem_step_sim' hlen) h rfl rfl (fun _ _ hi h0 => ⟨hi, fun _ => h0⟩)
    (fun s _ _ => goOut_ne_hang s _) (fun _ e => by rw [e]) (fun _ _ _ hR hc ho => mem_content hR hc ho)

/-! ## Bodies over an `io.ReaderAt` or a full `io.ReadSeeker` -/

theorem pos_content {C : List Byte} {Inv : σ → Prop} {s : PosSys σ} {f : List Cursor} {h : Nat} {c : Cursor} (hR : PSim C Inv s f)
    (hc : f[h]? = some c) : c.content = C := by
  cases hb : s.heap[h]? with
  | none => rw [(hR.pw.none_iff h).1 hb] at hc; cases hc
  | some b =>
    obtain ⟨c', hc', hr⟩ := hR.pw.get hb
    rw [hc] at hc'
    cases hc'
    exact hr.content

section
variable {R : Rdr σ} {F : List Byte}

theorem readerAt_reads {Inv : σ → Prop} (hR : IsReaderAt R F Inv) (n : Nat) (hn : n ≤ F.length) (hn63 : n < 2 ^ 63) (h K : Nat) :
    Source (BodyOps.ofFam (ReaderAtBody.step R) false h) (SrcRel (PSim (F.take n) Inv) h) K (· = .eof) := by
  haveI := hR.closeOk
  have hN : ∀ s op, (Pos.step (atKind R) s op).2 ≠ .hang := fun s op => by rw [← at_step]; exact at_noHang R s op
  rw [at_step]
  exact reads_of_sim (cfg := posCfg n) (Allowed := PosAllowed) (PSim (F.take n) Inv) (psim_step' (goodGet_at hR) hn hn63) h false K (fun k _ => trivial)
    (fun s f k hs _ => pos_read_safe (goodGet_at hR) hn hn63 hN h s f k hs)

theorem readerAt_seeks {Inv : σ → Prop} (hR : IsReaderAt R F Inv) (n : Nat) (hn : n ≤ F.length) (hn63 : n < 2 ^ 63) (h : Nat) :
    Seeks (ReaderAtBody.step R) h (SrcRel (PSim (F.take n) Inv) h) (F.take n) := by
  haveI := hR.closeOk
  have hN : ∀ s op, (Pos.step (atKind R) s op).2 ≠ .hang := fun s op => by rw [← at_step]; exact at_noHang R s op
  rw [at_step]
  exact seeks_of_sim (cfg := posCfg n) (Allowed := PosAllowed) (PSim (F.take n) Inv) (psim_step' (goodGet_at hR) hn hn63) h rfl (fun _ _ hi => hi)
    (fun s _ _ => hN s _) (by rw [List.length_take]; omega) (fun _ _ _ hs hc _ => pos_content hs hc)

theorem readerAt_readsAt {Inv : σ → Prop} (hR : IsReaderAt R F Inv) (n : Nat) (hn : n ≤ F.length) (hn63 : n < 2 ^ 63) (h : Nat) :
    ReadsAt (ReaderAtBody.step R) h (OpenIn (PSim (F.take n) Inv) h) (F.take n) := by
  haveI := hR.closeOk
  have hN : ∀ s op, (Pos.step (atKind R) s op).2 ≠ .hang := fun s op => by rw [← at_step]; exact at_noHang R s op
  rw [at_step]
  exact readsAt_of_sim (cfg := posCfg n) (Allowed := PosAllowed) (PSim (F.take n) Inv) (psim_step' (goodGet_at hR) hn hn63) h rfl rfl
    (fun _ _ hi _ => hi) (fun s _ _ => hN s _) (fun _ ha => ha.2) (fun _ _ _ hs hc _ => pos_content hs hc)

theorem seeker_reads {At : σ → Nat → Prop} (hR : IsFullSeeker R F At) (n : Nat) (hn : n ≤ F.length) (hn63 : n < 2 ^ 63) (h K : Nat) :
    Source (BodyOps.ofFam (SeekerBody.step R) false h) (SrcRel (PSim (F.take n) fun st => ∃ p, At st p) h) K (· = .eof) := by
  haveI := hR.closeOk
  have hN : ∀ s op, (Pos.step (seekKind R) s op).2 ≠ .hang := fun s op => by rw [← seek_step]; exact seek_noHang R s op
  rw [seek_step]
  exact reads_of_sim (cfg := posCfg n) (Allowed := PosAllowed) (PSim (F.take n) _) (psim_step' (goodGet_seek hR) hn hn63) h false K (fun k _ => trivial)
    (fun s f k hs _ => pos_read_safe (goodGet_seek hR) hn hn63 hN h s f k hs)

theorem seeker_seeks {At : σ → Nat → Prop} (hR : IsFullSeeker R F At) (n : Nat) (hn : n ≤ F.length) (hn63 : n < 2 ^ 63) (h : Nat) :
    Seeks (SeekerBody.step R) h (SrcRel (PSim (F.take n) fun st => ∃ p, At st p) h) (F.take n) := by
  haveI := hR.closeOk
  have hN : ∀ s op, (Pos.step (seekKind R) s op).2 ≠ .hang := fun s op => by rw [← seek_step]; exact seek_noHang R s op
  rw [seek_step]
  exact seeks_of_sim (cfg := posCfg n) (Allowed := PosAllowed) (PSim (F.take n) _) (psim_step' (goodGet_seek hR) hn hn63) h rfl (fun _ _ hi => hi)
    (fun s _ _ => hN s _) (by rw [List.length_take]; omega) (fun _ _ _ hs hc _ => pos_content hs hc)

theorem seeker_readsAt {At : σ → Nat → Prop} (hR : IsFullSeeker R F At) (n : Nat) (hn : n ≤ F.length) (hn63 : n < 2 ^ 63) (h : Nat) :
    ReadsAt (SeekerBody.step R) h (OpenIn (PSim (F.take n) fun st => ∃ p, At st p) h) (F.take n) := by
  haveI := hR.closeOk
  have hN : ∀ s op, (Pos.step (seekKind R) s op).2 ≠ .hang := fun s op => by rw [← seek_step]; exact seek_noHang R s op
  rw [seek_step]
  exact readsAt_of_sim (cfg := posCfg n) (Allowed := PosAllowed) (PSim (F.take n) _) (psim_step' (goodGet_seek hR) hn hn63) h rfl rfl
    (fun _ _ hi _ => hi) (fun s _ _ => hN s _) (fun _ ha => ha.2) (fun _ _ _ hs hc _ => pos_content hs hc)

end

/-! ## Stream-backed Bodies -/

/-- The error that ends a stream of which at most `L` bytes (if `L` is not negative) are read. -/
def Spec.cutEnd (T : List Byte) (L : Int) (e : Err) : Err := if 0 ≤ L ∧ L < T.length then .eof else e

theorem stream_reads {R : Rdr σ} [R.CloseOk] {e : Err} {Inv : σ → List Byte → Prop} (hS : IsStream R e Inv) {B : Nat} {idle : σ → Nat}
    (hE : Eager R B idle) (T : List Byte) (L : Int) (hL : e = .eof ∨ L ≠ T.length) (K : Nat) (hK : K < 2 ^ 62) (fuel : Nat)
    (hf : (K + 65536) * (B + 1) + B < fuel) (h : Nat) :
    Source (BodyOps.ofFam (streamStep R fuel) false h) (SrcRel (StreamRel R e Inv T L) h) K (· = cutEnd T L e) := by
  refine reads_of_sim (cfg := streamCfg L (if 0 ≤ L ∧ L < T.length then .eof else e)) (Allowed := fun _ => True) (Ok := Op.Small)
    (StreamRel R e Inv T L) (streamRel_step hS T L hL fuel) h false K (fun k hk => by simp only [Op.Small]; omega) ?_
  intro s f k hr hk
  refine ⟨step_noHang hE fuel L s hr.winv (.read h k) (by simp only [Op.Small]; omega) K (fun _ _ he => by cases he; exact hk) hf, fun p hp => ?_⟩
  obtain ⟨ext, S⟩ := buf_step R fuel L s hr.winv (.read h k) (by simp only [Op.Small]; omega)
  have hsi := step_pred R (SInv R e Inv T) (sinv_read hS) sinv_close fuel L s hr.winv hr.close (.read h k) hr.sinv
  obtain ⟨pre, n, r, h2, h3⟩ := S.blame p hp
  have hmem : Call.read n r ∈ (streamStep R fuel s (.read h k)).1.common.rdr.log := by
    show _ ∈ (BufSys.step R.record fuel s (.read h k)).1.common.rdr.log
    rw [S.log, h2]; simp
  obtain ⟨d, e, h4, h5⟩ := hsi.tame n r hmem
  subst h4
  rcases h3 with ⟨_, h6 | ⟨d', e', h6, h7⟩⟩ | h6
  · cases h6
  · cases h6; omega
  · cases h6

end Verif
