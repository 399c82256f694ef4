import Verif.Model.Layer
import Verif.Props.Shared
import Verif.Proofs.Lively

/-! # C58: Bodies over Bodies -/

set_option autoImplicit false

namespace Verif
open Spec Pos
variable {σ S : Type}

instance : DecidablePred Op.Valid := fun op => by cases op <;> unfold Op.Valid <;> infer_instance
instance : DecidablePred Op.Small := fun op => by cases op <;> unfold Op.Small <;> infer_instance
instance : DecidablePred Op.EmptyOk := fun op => by cases op <;> unfold Op.EmptyOk <;> infer_instance

/-- A family that behaves as cursors, and whose calls return. -/
structure FamSim (step : S → Op → S × Out) (cfg : Cfg) (Ok : Op → Prop) (Rel : S → List Cursor → Prop) : Prop where
  sim : ∀ s f op, Rel s f → Ok op → ∃ ch, (step s op).2 = (Spec.step cfg ch f op).2 ∧ Rel (step s op).1 (Spec.step cfg ch f op).1
  safe : ∀ s f op, Rel s f → Ok op → (∀ h w, op ≠ .writeTo h w) → ∀ p, (step s op).2 ≠ .panic p
  read : ∀ h k, k < 2 ^ 62 → Ok (.read h k)
  readAt : cfg.seekable = true → ∀ h k off, 0 ≤ off → off < 2 ^ 63 → Ok (.readAt h k off)
  seek : cfg.seekable = true → ∀ h off wh, IsI64 off → Ok (.seek h off wh)
  close : ∀ h, Ok (.close h)

variable {step : S → Op → S × Out} {cfg : Cfg} {Ok : Op → Prop} [DecidablePred Ok] {Rel : S → List Cursor → Prop}

theorem FamSim.keep (H : FamSim step cfg Ok Rel) (s : S) (op : Op) (hok : Ok op) (h : ∃ f, Rel s f) : ∃ f, Rel (step s op).1 f := by
  obtain ⟨f, hf⟩ := h
  obtain ⟨ch, _, h2⟩ := H.sim s f op hf hok
  exact ⟨_, h2⟩

/-- Body `h` of such a family as a Reader. -/
def FamSim.rdr (H : FamSim step cfg Ok Rel) (h : Nat) : Rdr { s // ∃ f, Rel s f } :=
  Rdr.ofBody step (fun s => ∃ f, Rel s f) Ok H.keep cfg.seekable h

/-- Body `h` is open and has the content `C`. -/
def Opened (Rel : S → List Cursor → Prop) (h : Nat) (C : List Byte) (x : { s // ∃ f, Rel s f }) : Prop :=
  ∃ f c, Rel x.1 f ∧ f[h]? = some c ∧ c.isOpen = true ∧ c.content = C

instance (H : FamSim step cfg Ok Rel) (h : Nat) : (H.rdr h).CloseOk := by
  refine ⟨fun _ x => ?_⟩
  obtain ⟨s, f, hf⟩ := x
  have := H.safe s f (.close h) hf (H.close h) (by simp)
  simp only [FamSim.rdr, Rdr.ofBody, H.close h, dite_true]
  split
  · exact ⟨_, rfl⟩
  · rename_i p hp; exact absurd hp (this p)
  · exact ⟨_, rfl⟩

/-- Whatever is done to the family, but closing `h`, leaves it open, with its content. -/
theorem opened_step (H : FamSim step cfg Ok Rel) (h : Nat) (C : List Byte) (x : { s // ∃ f, Rel s f }) (op : Op) (hok : Ok op)
    (hne : op ≠ .close h) (hx : Opened Rel h C x) : Opened Rel h C ⟨(step x.1 op).1, H.keep x.1 op hok x.2⟩ := by
  obtain ⟨f, c, h1, h2, h3, h4⟩ := hx
  obtain ⟨ch, _, h6⟩ := H.sim x.1 f op h1 hok
  have hlt : h < f.length := by
    rcases Nat.lt_or_ge h f.length with h' | h'
    · exact h'
    · rw [List.getElem?_eq_none h'] at h2; cases h2
  have key : ∃ c', (Spec.step cfg ch f op).1[h]? = some c' ∧ c'.isOpen = true ∧ c'.content = C := by
    have hset : ∀ i (c1 c2 : Cursor), f[i]? = some c1 → (i = h → c2.isOpen = true ∧ c2.content = C) →
        ∃ c', (f.set i c2)[h]? = some c' ∧ c'.isOpen = true ∧ c'.content = C := by
      intro i c1 c2 hi hc
      by_cases e : i = h
      · subst e; exact ⟨c2, List.getElem?_set_self hlt, hc rfl⟩
      · exact ⟨c, by rw [List.getElem?_set_ne e]; exact h2, h3, h4⟩
    unfold Spec.step
    cases hop : f[op.h]? with
    | none => exact ⟨c, h2, h3, h4⟩
    | some c1 =>
      have hsame : op.h = h → c1 = c := fun e => by rw [e, h2] at hop; injection hop with hop; exact hop.symm
      cases op with
      | read i k =>
        refine hset _ c1 _ hop (fun e => ?_)
        rw [hsame e]
        unfold Cursor.read
        repeat' split
        all_goals exact ⟨h3, h4⟩
      | readAt i k off => dsimp only; split <;> exact ⟨c, h2, h3, h4⟩
      | seek i off wh =>
        dsimp only
        split
        · refine hset _ c1 _ hop (fun e => ?_)
          rw [hsame e]
          unfold Cursor.seek
          repeat' split
          all_goals exact ⟨h3, h4⟩
        · exact ⟨c, h2, h3, h4⟩
      | writeTo i w =>
        dsimp only
        split
        · refine hset _ c1 _ hop (fun e => ?_)
          rw [hsame e]
          unfold Cursor.writeTo
          split
          · exact ⟨h3, h4⟩
          · split
            · exact ⟨h3, h4⟩
            · dsimp only
              generalize w (c.content.drop c.pos) = q
              cases q with
              | panics p => exact ⟨h3, h4⟩
              | ok r =>
                dsimp only
                split <;> exact ⟨h3, h4⟩
        · exact ⟨c, h2, h3, h4⟩
      | remaining i => exact ⟨c, h2, h3, h4⟩
      | unwrap i => exact ⟨c, h2, h3, h4⟩
      | copy i =>
        dsimp only
        split
        · exact ⟨c, by rw [List.getElem?_append_left hlt]; exact h2, h3, h4⟩
        · exact ⟨c, h2, h3, h4⟩
      | close i =>
        dsimp only
        split
        · exact hset _ c1 _ hop (fun e => absurd (by rw [show i = h from e]) hne)
        · exact ⟨c, h2, h3, h4⟩
  obtain ⟨c', k1, k2, k3⟩ := key
  exact ⟨_, c', h6, k1, k2, k3⟩

/-- A Body with `ReadAt` and `Seek`, wherever it stands, is a file with its whole content. -/
theorem isFile_body (H : FamSim step cfg Ok Rel) (hs : cfg.seekable = true) (hfin : cfg.fin = .eof) (h : Nat) (C : List Byte)
    (hC : C.length < 2 ^ 63) : IsFile (H.rdr h) C (Opened Rel h C) := by
  have hseek : ∀ (x : { s // ∃ f, Rel s f }) (wh : Int) (n : Nat), Opened Rel h C x →
      (∀ c : Cursor, c.isOpen = true → c.content = C → ∃ c', c.seek 0 wh = (c', .seek n none)) →
      ∃ st', (H.rdr h).seek x 0 wh = (st', .ok (n, none)) ∧ Opened Rel h C st' := by
    intro x wh n hx hc
    have hok : Ok (.seek h 0 wh) := H.seek hs h 0 wh (by simp [IsI64])
    have ho := opened_step H h C x _ hok (by simp) hx
    obtain ⟨f, c, h1, h2, h3, h4⟩ := hx
    obtain ⟨ch, h5, _⟩ := H.sim x.1 f _ h1 hok
    obtain ⟨c', h6⟩ := hc c h3 h4
    refine ⟨_, ?_, ho⟩
    have : (step x.1 (.seek h 0 wh)).2 = .seek n none := by
      rw [h5]; simp [Spec.step, Op.h, h2, hs, h6]
    simp only [FamSim.rdr, Rdr.ofBody, hok, dite_true, this]
  refine ⟨hC, fun _ => ⟨inferInstance, ?_⟩, ?_, ?_, ?_, ?_⟩
  · intro x k off hx h0 h63
    have hok := H.readAt hs h k off h0 h63
    have ho := opened_step H h C x _ hok (by simp) hx
    have hsafe := fun f hf => H.safe x.1 f (.readAt h k off) hf hok (by simp)
    obtain ⟨f, c, h1, h2, h3, h4⟩ := hx
    have hsafe := hsafe f h1
    obtain ⟨ch, h5, _⟩ := H.sim x.1 f _ h1 hok
    have h5' : (step x.1 (.readAt h k off)).2 = c.readAt cfg ch k off := by
      rw [h5]; simp [Spec.step, Op.h, h2, hs]
    have hcr : ch.crash = none := by
      cases hcr : ch.crash with
      | none => rfl
      | some p =>
        exact absurd (by rw [h5']; simp [Cursor.readAt, h3, hcr]; omega) (hsafe p)
    subst h4
    have hd : (c.content.drop (min off.toNat c.content.length)).take k = (c.content.drop off.toNat).take k := by
      by_cases hle : off.toNat ≤ c.content.length
      · rw [Nat.min_eq_left hle]
      · rw [Nat.min_eq_right (by omega), List.drop_eq_nil_of_le (Nat.le_refl _), List.drop_eq_nil_of_le (by omega)]
    rw [Cursor.readAt] at h5'
    simp only [h3, hcr, Bool.not_true, Bool.false_eq_true, if_false, if_neg (show ¬ off < 0 by omega), hd, hfin] at h5'
    refine ⟨_, _, by simp only [FamSim.rdr, Rdr.ofBody, hok, dite_true, h5']; rfl, ho, ?_, ?_, ?_⟩
    · intro hl
      simp only [List.length_take, List.length_drop] at hl
      rw [if_pos]; simp; omega
    · intro hl
      rw [if_neg]; simp; omega
    · split <;> simp
  · intro h'; simp [FamSim.rdr, Rdr.ofBody, hs] at h'
  · intro h'; simp [FamSim.rdr, Rdr.ofBody] at h'
  · intro _ x hx
    refine hseek x 2 C.length hx (fun c h3 h4 => ?_)
    subst h4
    have h63 : ¬ (2 ^ 63 : Int) ≤ (c.content.length : Int) := by omega
    refine ⟨{ c with pos := c.content.length, done := false }, ?_⟩
    simp only [Cursor.seek, h3, seekTarget]
    simp
    rw [if_neg (by omega), if_neg (by omega)]
  · intro _ x hx
    obtain ⟨st', h1, h2⟩ := hseek x 0 0 hx (fun c h3 h4 => by
      simp only [Cursor.seek, h3, seekTarget]
      simp)
    exact ⟨st', _, h1, h2⟩

theorem spec_no_panic {cfg : Cfg} {ch : Choice} {f : List Cursor} {op : Op} (hc : ch.crash = none) (hw : ∀ h w, op ≠ .writeTo h w) (p : Panic) :
    (Spec.step cfg ch f op).2 ≠ .panic p := by
  unfold Spec.step
  split
  · simp
  · cases op with
    | writeTo h w => exact absurd rfl (hw h w)
    | read h k => simp only [Cursor.read, hc]; repeat' split
                  all_goals simp
    | readAt h k off => simp only [Cursor.readAt, hc]; repeat' split
                        all_goals simp
    | seek h off wh => simp only [Cursor.seek]; repeat' split
                       all_goals simp
    | copy h => dsimp only; split <;> simp
    | close h => dsimp only; split <;> simp
    | remaining h => simp
    | unwrap h => simp

/-- What a `Read` of the Reader does. -/
theorem layer_read (H : FamSim step cfg Ok Rel) (h : Nat) (x : { s // ∃ f, Rel s f }) (n : Nat) (f : List Cursor) (hf : Rel x.1 f) (c : Cursor)
    (hc : f[h]? = some c) : ∃ ch st' d e, ch.crash = none ∧ (H.rdr h).read x n = (st', .got d e) ∧
      (c.read cfg ch (min n (2 ^ 62 - 1))).2 = .read d e ∧ Rel st'.1 (f.set h (c.read cfg ch (min n (2 ^ 62 - 1))).1) := by
  have hok := H.read h (min n (2 ^ 62 - 1)) (by omega)
  obtain ⟨ch, h1, h2⟩ := H.sim x.1 f _ hf hok
  have hsafe := H.safe x.1 f _ hf hok (by simp)
  have hst : Spec.step cfg ch f (.read h (min n (2 ^ 62 - 1))) =
      (f.set h (c.read cfg ch (min n (2 ^ 62 - 1))).1, (c.read cfg ch (min n (2 ^ 62 - 1))).2) := by
    simp [Spec.step, Op.h, hc]
  rw [hst] at h1 h2
  simp only at h1 h2
  have hout : ∃ d e, (c.read cfg ch (min n (2 ^ 62 - 1))).2 = .read d e := by
    rw [h1] at hsafe
    unfold Cursor.read at hsafe ⊢
    repeat' split
    all_goals first
      | exact ⟨_, _, rfl⟩
      | (rename_i p hp; simp_all)
  obtain ⟨d, e, hde⟩ := hout
  have h3 : (step x.1 (.read h (min n (2 ^ 62 - 1)))).2 = .read d e := h1.trans hde
  by_cases hcr : ch.crash = none
  · exact ⟨ch, ⟨_, H.keep x.1 _ hok x.2⟩, d, e, hcr, by simp only [FamSim.rdr, Rdr.ofBody, hok, dite_true, h3], hde, h2⟩
  · have hnc : c.read cfg ch (min n (2 ^ 62 - 1)) = c.read cfg {} (min n (2 ^ 62 - 1)) := by
      unfold Cursor.read at hde ⊢
      by_cases ho : c.isOpen = true
      · by_cases hd : c.done = true
        · simp [ho, hd]
        · obtain ⟨p, hp⟩ := Option.ne_none_iff_exists'.1 hcr
          simp [ho, hd, hp] at hde
      · simp [ho]
    rw [hnc] at hde h2
    exact ⟨{}, ⟨_, H.keep x.1 _ hok x.2⟩, d, e, rfl, by simp only [FamSim.rdr, Rdr.ofBody, hok, dite_true, h3], hde, h2⟩

/-- What is left of Body `h`. -/
def Left (Rel : S → List Cursor → Prop) (h : Nat) (x : { s // ∃ f, Rel s f }) (T : List Byte) : Prop := SrcRel Rel h x.1 T

/-- Every Body, read from with `Read` only, is a stream of what has not been delivered yet. -/
theorem isStream_body (H : FamSim step cfg Ok Rel) (h : Nat) : IsStream (H.rdr h) cfg.fin (Left Rel h) := by
  refine ⟨fun x T n hn hx => ?_⟩
  obtain ⟨f, c, h1, h2, h3, rfl⟩ := hx
  obtain ⟨ch, st', d, e, h4, h5, h6, h7⟩ := layer_read H h x n f h1 c h2
  have hlt : h < f.length := by
    rcases Nat.lt_or_ge h f.length with h' | h'
    · exact h'
    · rw [List.getElem?_eq_none h'] at h2; cases h2
  generalize hk : min n (2 ^ 62 - 1) = k at *
  have hkn : k ≤ n := by omega
  have hk0 : 0 < k := by omega
  rw [Cursor.read] at h6 h7
  by_cases hd : c.done = true
  · simp only [h3, hd, Bool.not_true, Bool.false_eq_true, if_false, if_true, Out.read.injEq] at h6
    obtain ⟨rfl, rfl⟩ := h6
    exact ⟨st', [], _, [], h5, by simp, by simp [Cursor.rest, hd], by simp, fun x hx => ⟨rfl, by injection hx with hx; exact hx.symm⟩⟩
  · have hd' : c.done = false := by simpa using hd
    simp only [h3, hd', h4, Bool.not_true, Bool.false_eq_true, if_false, Out.read.injEq] at h6 h7
    obtain ⟨rfl, rfl⟩ := h6
    refine ⟨st', _, _, (c.content.drop c.pos).drop k, h5, by simp; omega,
      by rw [Cursor.rest, hd']; exact (List.take_append_drop _ _).symm, ?_, ?_⟩
    · intro he
      have hend := he
      split at hend
      · cases hend
      · rename_i hend'
        refine ⟨_, _, h7, List.getElem?_set_self hlt, rfl, ?_⟩
        simp only [Bool.not_eq_true] at hend'
        simp only [Cursor.rest, hend', Bool.false_eq_true, if_false, List.length_take, List.length_drop, List.drop_drop]
        simp only [Bool.or_eq_false_iff, decide_eq_false_iff_not] at hend'
        congr 1
        omega
    · intro y hy
      split at hy
      · rename_i hend
        injection hy with hy
        refine ⟨?_, hy.symm⟩
        apply List.eq_nil_of_length_eq_zero
        simp only [List.length_drop]
        simp at hend
        omega
      · cases hy

/-- A Body is never idle. -/
theorem eager_body (H : FamSim step cfg Ok Rel) (h : Nat) : Eager (H.rdr h) 0 (fun _ => 0) := by
  refine ⟨fun _ => Nat.le_refl _, fun x n hn he => ?_⟩
  exfalso
  obtain ⟨s, f, hf⟩ := x
  cases hc : f[h]? with
  | none =>
    have hok := H.read h (min n (2 ^ 62 - 1)) (by omega)
    obtain ⟨ch, h1, _⟩ := H.sim s f _ hf hok
    simp [Spec.step, Op.h, hc] at h1
    simp [FamSim.rdr, Rdr.ofBody, hok, h1] at he
  | some c =>
    obtain ⟨ch, st', d, e, h4, h5, h6, -⟩ := layer_read H h ⟨s, f, hf⟩ n f hf c hc
    rw [h5] at he
    injection he with hd he
    subst hd he
    generalize hk : min n (2 ^ 62 - 1) = k at *
    have hk0 : 0 < k := by omega
    rw [Cursor.read] at h6
    repeat' split at h6
    all_goals first
      | (simp at h6; done)
      | skip
    simp only [Out.read.injEq] at h6
    obtain ⟨h7, h8⟩ := h6
    split at h8
    · cases h8
    · rename_i hend
      have := congrArg List.length h7
      simp at this hend
      omega

/-! ## The families of this repository -/

theorem famSim_mem (data : List Byte) (hlen : data.length < 2 ^ 63) :
    FamSim MemFam.step (memCfg data) (fun op => op.Valid ∧ (data = [] → op.EmptyOk)) (MemRel data) where
  sim s f op h hok := ⟨{}, mem_step_sim hlen s f op h hok⟩
  safe s f op h hok hw p := by
    rw [(mem_step_sim hlen s f op h hok).1]
    exact spec_no_panic rfl hw p
  read h k _ := ⟨trivial, fun _ => trivial⟩
  readAt _ h k off h0 h1 := ⟨⟨by omega, h1⟩, fun _ => h0⟩
  seek _ h off wh hv := ⟨hv, fun _ => trivial⟩
  close h := ⟨trivial, fun _ => trivial⟩

theorem famSim_pos {K : PosKind σ} [K.R.CloseOk] {F : List Byte} {Inv : σ → Prop} (hG : GoodGet K F Inv) {n : Nat} (hn : n ≤ F.length)
    (hn63 : n < 2 ^ 63) : FamSim (Pos.step K) (posCfg n) Op.Valid (PSim (F.take n) Inv) where
  sim s f op h hok := by
    obtain ⟨ch, _, h2, h3⟩ := psim_step hG hn hn63 s f op hok h
    exact ⟨ch, h2, h3⟩
  safe s f op h hok hw p := by
    obtain ⟨ch, h1, h2, _⟩ := psim_step hG hn hn63 s f op hok h
    rw [h2]
    exact spec_no_panic h1.2 hw p
  read h k _ := trivial
  readAt _ h k off h0 h1 := ⟨by omega, h1⟩
  seek _ h off wh hv := hv
  close h := trivial

theorem famSim_readerAt {R : Rdr σ} {F : List Byte} {Inv : σ → Prop} (hR : IsReaderAt R F Inv) {n : Nat} (hn : n ≤ F.length)
    (hn63 : n < 2 ^ 63) : FamSim (ReaderAtBody.step R) (posCfg n) Op.Valid (PSim (F.take n) Inv) := by
  haveI := hR.closeOk
  rw [at_step]
  exact famSim_pos (goodGet_at hR) hn hn63

theorem famSim_seeker {R : Rdr σ} {F : List Byte} {At : σ → Nat → Prop} (hR : IsFullSeeker R F At) {n : Nat} (hn : n ≤ F.length)
    (hn63 : n < 2 ^ 63) : FamSim (SeekerBody.step R) (posCfg n) Op.Valid (PSim (F.take n) fun st => ∃ p, At st p) := by
  haveI := hR.closeOk
  rw [seek_step]
  exact famSim_pos (goodGet_seek hR) hn hn63

/-- Enough iterations for all buffers of less than `2^62` bytes. -/
def hugeFuel (B : Nat) : Nat := (2 ^ 62 + 65536) * (B + 1) + B

theorem famSim_stream {R : Rdr σ} [R.CloseOk] {fin : Err} {Inv : σ → List Byte → Prop} (hS : IsStream R fin Inv) {B : Nat} {idle : σ → Nat}
    (hE : Eager R B idle) (T : List Byte) (L : Int) (hL : fin = .eof ∨ L ≠ T.length) (fuel : Nat) (hf : hugeFuel B ≤ fuel) :
    FamSim (streamStep R fuel) (streamCfg L (if 0 ≤ L ∧ L < T.length then .eof else fin)) Op.Small (StreamRel R fin Inv T L) where
  sim s f op h hok := by
    have hnh : (streamStep R fuel s op).2 ≠ .hang := step_noHang hE fuel L s h.winv op hok (2 ^ 62 - 1)
      (fun i k e => by subst e; simp only [Op.Small] at hok; omega) (by
        unfold hugeFuel at hf
        have : (2 ^ 62 - 1 + 65536) * (B + 1) < (2 ^ 62 + 65536) * (B + 1) := Nat.mul_lt_mul_of_pos_right (by omega) (by omega)
        omega)
    obtain ⟨ch, _, h2, h3⟩ := streamRel_step hS T L hL fuel s f op h hok hnh
    exact ⟨ch, h2, h3⟩
  safe s f op h hok hw p hp := by
    obtain ⟨ext, S⟩ := buf_step R fuel L s h.winv op hok
    have hsi := step_pred R (SInv R fin Inv T) (sinv_read hS) sinv_close fuel L s h.winv h.close op h.sinv
    obtain ⟨pre, n, r, h2, h3⟩ := S.blame p hp
    have hmem : Call.read n r ∈ (streamStep R fuel s op).1.common.rdr.log := by
      show _ ∈ (BufSys.step R.record fuel s op).1.common.rdr.log
      rw [S.log, h2]; simp
    obtain ⟨d, e, h4, h5⟩ := hsi.tame n r hmem
    subst h4
    rcases h3 with ⟨_, h6 | ⟨d', e', h6, h7⟩⟩ | h6
    · cases h6
    · cases h6; omega
    · cases h6
  read h k hk := hk
  readAt hs := by simp [streamCfg] at hs
  seek hs := by simp [streamCfg] at hs
  close h := trivial

/-! ## C58 -/

/-- **C58**: a Body with `ReadAt` and `Seek`, as a Reader, is a file that has the whole content of the Body, wherever the Body stands; and it
stays so whatever is done to the family, except closing this Body. -/
theorem C58_seekable (H : FamSim step cfg Ok Rel) (hs : cfg.seekable = true) (hfin : cfg.fin = .eof) (h : Nat) (C : List Byte)
    (hC : C.length < 2 ^ 63) :
    IsFile (H.rdr h) C (Opened Rel h C) ∧
      ∀ x op (hok : Ok op), op ≠ .close h → Opened Rel h C x → Opened Rel h C ⟨(step x.1 op).1, H.keep x.1 op hok x.2⟩ :=
  ⟨isFile_body H hs hfin h C hC, fun x op hok hne hx => opened_step H h C x op hok hne hx⟩

/-- **C58**: every Body, as a Reader without positions, is a stream of the bytes it has not delivered yet, and never idle. -/
theorem C58_stream (H : FamSim step cfg Ok Rel) (h : Nat) : IsStream (H.rdr h) cfg.fin (Left Rel h) ∧ Eager (H.rdr h) 0 (fun _ => 0) :=
  ⟨isStream_body H h, eager_body H h⟩

/-- **C58**: a Body is a Reader that can be closed (so C15 applies: the last `Close` of the Bodies over it calls its `Close` and returns what
this returns): its `Close` is the one of the Body, after which the Body is closed and all others of the family are as before. -/
theorem C58_close (H : FamSim step cfg Ok Rel) (h : Nat) : (H.rdr h).isCloser = true ∧
    ∀ (x : { s // ∃ f, Rel s f }) (f : List Cursor), Rel x.1 f → h < f.length → ∃ x' e,
      (H.rdr h).close x = (x', .ok e) ∧ (step x.1 (.close h)) = (x'.1, .closed e) ∧
      (step x'.1 (.close h)).2 = .closed (some .closed) ∧
      (∀ i C, i ≠ h → Opened Rel i C x → Opened Rel i C x') ∧
      ((∃ i, i ≠ h ∧ ∃ c, f[i]? = some c ∧ c.isOpen = true) ∨ cfg.backed = false → f[h]?.map Cursor.isOpen = some true → e = none) := by
  refine ⟨rfl, fun x f hf hlt => ?_⟩
  have hok := H.close h
  obtain ⟨ch, h1, h2⟩ := H.sim x.1 f _ hf hok
  have hst : Spec.step cfg ch f (.close h) =
      if f[h].isOpen then (f.set h { f[h] with isOpen := false }, .closed (if cfg.backed && decide (openCount f = 1) then ch.closeErr else none))
      else (f, .closed (some .closed)) := by
    simp only [Spec.step, Op.h, List.getElem?_eq_getElem hlt]
  rw [hst] at h1 h2
  have he : ∃ e, (step x.1 (.close h)).2 = .closed e := by
    split at h1 <;> exact ⟨_, h1⟩
  obtain ⟨e, he⟩ := he
  refine ⟨⟨(step x.1 (.close h)).1, H.keep x.1 _ hok x.2⟩, e, ?_, ?_, ?_, ?_, ?_⟩
  · simp only [FamSim.rdr, Rdr.ofBody, hok, dite_true, he]
  · rw [← he]
  · have hc : ∃ f' : List Cursor, Rel (step x.1 (.close h)).1 f' ∧ ∃ c, f'[h]? = some c ∧ c.isOpen = false := by
      refine ⟨_, h2, ?_⟩
      split
      · exact ⟨{ f[h] with isOpen := false }, by simp [hlt], rfl⟩
      · rename_i hcl
        exact ⟨f[h], by simp [hlt], by simpa using hcl⟩
    obtain ⟨f', hf', c, hc, hcl⟩ := hc
    obtain ⟨ch', g1, -⟩ := H.sim _ f' _ hf' hok
    rw [g1]
    simp [Spec.step, Op.h, hc, hcl]
  · intro i C hi hx
    exact opened_step H i C x (.close h) hok (by simpa using Ne.symm hi) hx
  · intro hother hopen
    rw [List.getElem?_eq_getElem hlt] at hopen
    have ho : f[h].isOpen = true := by simpa using hopen
    rw [if_pos ho, he] at h1
    simp only [Out.closed.injEq] at h1
    rw [h1]
    rcases hother with ⟨i, hi, c, hc, hco⟩ | hb
    · have : openCount f ≠ 1 := by
        intro h1
        unfold openCount at h1
        have h3 : (f.set h { f[h] with isOpen := false }).countP (·.isOpen) = 0 := by
          rw [List.countP_set hlt, h1]
          simp [ho]
        rw [List.countP_eq_zero] at h3
        exact h3 c (List.mem_of_getElem? (i := i) (by rw [List.getElem?_set_ne (Ne.symm hi)]; exact hc)) hco
      simp [this]
    · simp [hb]

/-- The families of this repository are such: `FromBytes`. -/
theorem C58_bytes (data : List Byte) (hlen : data.length < 2 ^ 63) :
    ∃ Rel, FamSim MemFam.step (memCfg data) (fun op => op.Valid ∧ (data = [] → op.EmptyOk)) Rel ∧ Rel (fromBytes data) [{ content := data }] :=
  ⟨_, famSim_mem data hlen, mem_init data⟩

/-- Bodies over a ReaderAt … -/
theorem C58_readerAt {R : Rdr σ} {F : List Byte} {Inv : σ → Prop} (hR : IsReaderAt R F Inv) (n : Nat) (hn : n ≤ F.length) (hn63 : n < 2 ^ 63)
    (st : σ) (hi : Inv st) :
    ∃ Rel, FamSim (ReaderAtBody.step R) (posCfg n) Op.Valid Rel ∧ Rel (ReaderAtBody.init st n) [{ content := F.take n }] :=
  ⟨_, famSim_readerAt hR hn hn63, psim_init hi hn⟩

/-- … over a Seeker … -/
theorem C58_seeker {R : Rdr σ} {F : List Byte} {At : σ → Nat → Prop} (hR : IsFullSeeker R F At) (n : Nat) (hn : n ≤ F.length) (hn63 : n < 2 ^ 63)
    (st : σ) (p : Nat) (hi : At st p) :
    ∃ Rel, FamSim (SeekerBody.step R) (posCfg n) Op.Valid Rel ∧ Rel (SeekerBody.init st n) [{ content := F.take n }] :=
  ⟨_, famSim_seeker hR hn hn63, psim_init ⟨p, hi⟩ hn⟩

/-- … and over a stream. -/
theorem C58_buffered {R : Rdr σ} [R.CloseOk] {fin : Err} {Inv : σ → List Byte → Prop} (hS : IsStream R fin Inv) {B : Nat} {idle : σ → Nat}
    (hE : Eager R B idle) (T : List Byte) (L : Int) (hL : fin = .eof ∨ L ≠ T.length) (fuel : Nat) (hf : hugeFuel B ≤ fuel) (st : σ)
    (hi : Inv st T) :
    ∃ Rel, FamSim (streamStep R fuel) (streamCfg L (if 0 ≤ L ∧ L < T.length then .eof else fin)) Op.Small Rel ∧
      Rel (streamInit st L) [{ content := cut T L }] :=
  ⟨_, famSim_stream hS hE T L hL fuel hf, streamRel_init st T hi L⟩

/-- **C58**: a Body made from a Body with `ReadAt` and `Seek` serves the content of the latter from its first byte (up to the given length),
wherever that stands; it is such a Body again, so there may be any number of layers. -/
theorem C58_over_seekable (H : FamSim step cfg Ok Rel) (hs : cfg.seekable = true) (hfin : cfg.fin = .eof) (h : Nat) (C : List Byte)
    (hC : C.length < 2 ^ 63) (x : { s // ∃ f, Rel s f }) (hx : Opened Rel h C x) (L : Int) (hL : L ≤ C.length) :
    ∃ (n : Nat) (x' : { s // ∃ f, Rel s f }), n = (if L < 0 then C.length else L.toNat) ∧
      fromReaderAndLength (H.rdr h) x L = (x', .ret (.ok (.readerAt (ReaderAtBody.init x' n)))) ∧ Opened Rel h C x' ∧
      Refines (ReaderAtBody.step (H.rdr h)) (posCfg n) Op.Valid PosAllowed (ReaderAtBody.init x' n) [{ content := C.take n }] ∧
      ∃ Rel', FamSim (ReaderAtBody.step (H.rdr h)) (posCfg n) Op.Valid Rel' ∧ Rel' (ReaderAtBody.init x' n) [{ content := C.take n }] := by
  have hF := isFile_body H hs hfin h C hC
  have hat : (H.rdr h).isReaderAt = true := by simp [FamSim.rdr, Rdr.ofBody, hs]
  have hsk : (H.rdr h).isSeeker = true := by simp [FamSim.rdr, Rdr.ofBody, hs]
  obtain ⟨x', fam, h1, h2, -⟩ := make_shared hF hx L hL (fun _ => .inr hsk)
  obtain ⟨m, h3, h4⟩ := made_cases _ _ _ _ _ h1
  have hm : m = ((if L < 0 then C.length else L.toNat : Nat) : Int) := by
    by_cases h0 : 0 ≤ L
    · rw [measure_declared _ _ _ h0] at h3
      simp at h3
      rw [if_neg (by omega), ← h3.2]; omega
    · have h0' : L < 0 := by omega
      obtain ⟨x1, e1, hx1⟩ := hF.toEnd hsk x hx
      obtain ⟨x2, k, e2, hx2⟩ := hF.rewind hsk x1 hx1
      rw [measure_seeker _ x L h0' rfl hsk, e1] at h3
      simp only [e2] at h3
      rw [if_neg (by omega)] at h3
      simp at h3
      rw [if_pos h0', ← h3.2]
  have hn : (if L < 0 then C.length else L.toNat) ≤ C.length := by split <;> omega
  generalize (if L < 0 then C.length else L.toNat) = n at *
  rw [if_pos ⟨hat, by omega⟩, hm] at h4
  refine ⟨n, x', rfl, by rw [h1, h4], h2, C16_readerAt_refines_cursors (hF.readerAt hat) x' h2 n hn (by omega), ?_⟩
  exact C58_readerAt (hF.readerAt hat) n hn (by omega) x' h2

/-- **C58**: a Body made from a Body over a stream serves what the latter has not delivered yet, up to the given length. -/
theorem C58_over_stream (H : FamSim step cfg Ok Rel) (hs : cfg.seekable = false) (h : Nat) (x : { s // ∃ f, Rel s f }) (T : List Byte)
    (hx : Left Rel h x T) (L : Int) (hL : cfg.fin = .eof ∨ (if L < 0 then -1 else L) ≠ T.length) (fuel : Nat) :
    ∃ fam, fromReaderAndLength (H.rdr h) x L = (x, .ret (.ok fam)) ∧
      ∀ ops : List Op, (∀ op ∈ ops, op.Small) → Out.hang ∉ (run (ReaderFam.step (H.rdr h) fuel) fam ops).2 →
        ∃ chs : List Choice, chs.length = ops.length ∧ (∀ ch ∈ chs, ch.crash = none ∧ ch.early = false) ∧
          (run (ReaderFam.step (H.rdr h) fuel) fam ops).2 =
            (Spec.run (streamCfg (if L < 0 then -1 else L) (if 0 ≤ L ∧ L < T.length then .eof else cfg.fin))
              [{ content := cut T L }] (chs.zip ops)).2 := by
  have hat : (H.rdr h).isReaderAt = false := by simp [FamSim.rdr, Rdr.ofBody, hs]
  have hsk : (H.rdr h).isSeeker = false := by simp [FamSim.rdr, Rdr.ofBody, hs]
  have hm : measure (H.rdr h) x L = (x, .ret (.ok (if L < 0 then -1 else L))) := by
    by_cases h0 : L < 0
    · rw [measure_unknown _ _ _ h0 rfl hsk, if_pos h0]
    · rw [measure_declared _ _ _ (by omega), if_neg h0]
  refine ⟨.buffered (BufSys.init x (if L < 0 then -1 else L)), by simp [fromReaderAndLength, hm, hat, hsk], fun ops hok hh => ?_⟩
  have := C23_content_stream (isStream_body H h) hsk hat fuel x x L
    (.buffered (BufSys.init x (if L < 0 then -1 else L))) (by simp [fromReaderAndLength, hm, hat, hsk]) T hx (if L < 0 then -1 else L)
    (by simp [ReaderFam.step, BufSys.step, BufSys.init, Op.h, BufSys.bytesRemaining, BufSys.ref]
        by_cases h0 : L < 0
        · simp [h0]
        · simp [h0]) hL ops hok hh
  have e1 : (0 ≤ (if L < 0 then -1 else L) ∧ (if L < 0 then -1 else L) < T.length) ↔ (0 ≤ L ∧ L < T.length) := by
    by_cases h0 : L < 0
    · simp [h0]; omega
    · simp [h0]
  have e2 : cut T (if L < 0 then -1 else L) = cut T L := by
    by_cases h0 : L < 0
    · simp [cut, h0]; omega
    · simp [h0]
  rw [e2] at this
  simpa only [e1] using this

/-! ### Examples -/

/-- A Body over the bytes 1 … 5, from which two bytes have been read, and a copy. -/
def innerBytes : { s // ∃ f, MemRel [1, 2, 3, 4, 5] s f } :=
  ⟨(run MemFam.step (fromBytes [1, 2, 3, 4, 5]) [.read 0 2, .copy 0]).1,
    (famSim_mem [1, 2, 3, 4, 5] (by decide)).keep _ (.copy 0) (by decide)
      ((famSim_mem [1, 2, 3, 4, 5] (by decide)).keep _ (.read 0 2) (by decide) ⟨_, mem_init _⟩)⟩

/-- The Body made from it (with a copy) starts at the first byte, in spite of the position of the inner one; the inner Body is rewound, its copy is not. -/
example : let H := famSim_mem [1, 2, 3, 4, 5] (by decide)
    (Shared.run (H.rdr 0) 9 ⟨innerBytes, []⟩ [.make (-1), .on 0 (.read 0 1), .on 0 (.copy 0), .on 0 (.read 1 9), .make 2,
        .direct (fun x => ⟨_, H.keep x.1 (.read 0 4) (by decide) x.2⟩), .on 1 (.read 0 9), .on 0 (.readAt 0 2 3)]).2 =
      [.made 0, .out (.read [1] none), .out (.copied 1), .out (.read [2, 3, 4, 5] (some .eof)), .made 1, .done,
        .out (.read [1, 2] (some .eof)), .out (.read [4, 5] none)] := by
  decide +kernel

example : let H := famSim_mem [1, 2, 3, 4, 5] (by decide)
    let x := (Shared.run (H.rdr 0) 9 ⟨innerBytes, []⟩ [.make (-1), .on 0 (.read 0 1)]).1.rdr
    (MemFam.step innerBytes.1 (.read 0 1)).2 = .read [3] none ∧ (MemFam.step x.1 (.read 0 1)).2 = .read [1] none ∧
      (MemFam.step x.1 (.read 1 1)).2 = .read [3] none := by
  decide +kernel

/-- Closing the outer Bodies: the last `Close` closes the inner Body (and not its copy). -/
example : let H := famSim_mem [1, 2, 3, 4, 5] (by decide)
    let r := Shared.run (H.rdr 0) 9 ⟨innerBytes, []⟩ [.make (-1), .on 0 (.copy 0), .on 0 (.close 0)]
    let r' := Shared.run (H.rdr 0) 9 r.1 [.on 0 (.close 1)]
    r.2 = [.made 0, .out (.copied 1), .out (.closed none)] ∧ (MemFam.step r.1.rdr.1 (.read 0 1)).2 = .read [1] none ∧
      r'.2 = [.out (.closed none)] ∧ (MemFam.step r'.1.rdr.1 (.read 0 1)).2 = .read [] (some .closed) ∧
      (MemFam.step r'.1.rdr.1 (.read 1 1)).2 = .read [3] none := by
  decide +kernel

/-- If the inner Body has been closed before, this is what the last `Close` returns. -/
example : let H := famSim_mem [1, 2, 3, 4, 5] (by decide)
    (Shared.run (H.rdr 0) 9 ⟨innerBytes, []⟩ [.make (-1), .direct (fun x => ⟨_, H.keep x.1 (.close 0) (by decide) x.2⟩), .on 0 (.close 0)]).2 =
      [.made 0, .done, .out (.closed (some .closed))] := by
  decide +kernel

/-- The premises of `C58_over_seekable` hold. -/
example : Opened (MemRel [1, 2, 3, 4, 5]) 0 [1, 2, 3, 4, 5] innerBytes :=
  opened_step (famSim_mem [1, 2, 3, 4, 5] (by decide)) 0 _ ⟨_, (famSim_mem [1, 2, 3, 4, 5] (by decide)).keep _ (.read 0 2) (by decide) ⟨_, mem_init _⟩⟩
    (.copy 0) (by decide) (by simp)
    (opened_step (famSim_mem [1, 2, 3, 4, 5] (by decide)) 0 _ ⟨_, _, mem_init _⟩ (.read 0 2) (by decide) (by simp)
      ⟨_, _, mem_init _, rfl, rfl, rfl⟩)

/-- A plain stream. -/
def plainRdr (F : List Byte) : Rdr Nat := { fileRdr F with isReaderAt := false, isSeeker := false, isFile := false }

instance (F : List Byte) : (plainRdr F).CloseOk := ⟨fun _ _ => ⟨_, rfl⟩⟩

theorem plainRdr_stream (F : List Byte) : IsStream (plainRdr F) .eof (fun p T => T = F.drop p) := by
  refine ⟨fun p T n hn hT => ⟨_, _, _, (F.drop p).drop n, rfl, by simp; omega, by rw [hT, List.take_append_drop], fun he => ?_, fun x hx => ?_⟩⟩
  · split at he
    · cases he
    · simp only [List.drop_drop, List.length_take, List.length_drop]; congr 1; omega
  · split at hx
    · injection hx with hx
      exact ⟨List.eq_nil_of_length_eq_zero (by simp; omega), hx.symm⟩
    · cases hx

theorem plainRdr_eager (F : List Byte) : Eager (plainRdr F) 0 (fun _ => 0) := by
  refine ⟨fun _ => Nat.le_refl _, fun p n hn he => ?_⟩
  simp only [plainRdr, fileRdr, RResp.got.injEq] at he
  obtain ⟨h1, h2⟩ := he
  split at h2
  · cases h2
  · have := congrArg List.length h1
    simp at this
    omega

theorem famSim_plain : FamSim (streamStep (plainRdr [1, 2, 3, 4, 5]) (hugeFuel 0)) (streamCfg (-1) .eof) Op.Small
    (StreamRel (plainRdr [1, 2, 3, 4, 5]) .eof (fun p T => T = [1, 2, 3, 4, 5].drop p) [1, 2, 3, 4, 5] (-1)) :=
  famSim_stream (plainRdr_stream [1, 2, 3, 4, 5]) (plainRdr_eager _) [1, 2, 3, 4, 5] (-1) (.inl rfl) _ (Nat.le_refl _)

theorem plain_init : StreamRel (plainRdr [1, 2, 3, 4, 5]) .eof (fun p T => T = [1, 2, 3, 4, 5].drop p) [1, 2, 3, 4, 5] (-1) (streamInit 0 (-1))
    [{ content := cut [1, 2, 3, 4, 5] (-1) }] :=
  streamRel_init (Inv := fun p T => T = [1, 2, 3, 4, 5].drop p) 0 [1, 2, 3, 4, 5] rfl (-1)

/-- A Body over a stream, from which two bytes have been read, and a copy, which is made the Reader of another Body: it goes on after the two
bytes; the original is not affected. -/
example : let x : { s // ∃ f, StreamRel (plainRdr [1, 2, 3, 4, 5]) .eof (fun p T => T = [1, 2, 3, 4, 5].drop p) [1, 2, 3, 4, 5] (-1) s f } :=
      ⟨(run (streamStep (plainRdr [1, 2, 3, 4, 5]) (hugeFuel 0)) (streamInit 0 (-1)) [.read 0 2, .copy 0]).1,
        famSim_plain.keep _ (.copy 0) (by decide) (famSim_plain.keep _ (.read 0 2) (by decide) ⟨_, plain_init⟩)⟩
    let r := Shared.run (famSim_plain.rdr 1) 99 ⟨x, []⟩ [.make 2, .on 0 (.read 0 1), .on 0 (.copy 0), .on 0 (.read 1 9), .on 0 (.read 0 9)]
    r.2 = [.made 0, .out (.read [3] none), .out (.copied 1), .out (.read [4] (some .eof)), .out (.read [4] (some .eof))] ∧
      (streamStep (plainRdr [1, 2, 3, 4, 5]) (hugeFuel 0) r.1.rdr.1 (.read 0 9)).2 = .read [3, 4, 5] (some .eof) := by
  decide +kernel

end Verif
