import Verif.Proofs.Serve
import Verif.Props.Mem
import Verif.Props.Buffered
import Verif.Props.Positional

/-! # The Bodies of this repository are sources -/

set_option autoImplicit false

namespace Verif
open Spec

variable {S : Type} {step : S → Op → S × Out} {cfg : Cfg} {Ok : Op → Prop} {Allowed : Choice → Prop}

/-- What the cursor is still going to deliver. -/
def Spec.Cursor.rest (c : Cursor) : List Byte := if c.done then [] else c.content.drop c.pos

/-- In state `s` Body `h` is open and is going to deliver `C`. -/
def SrcRel (Rel : S → List Cursor → Prop) (h : Nat) (s : S) (C : List Byte) : Prop :=
  ∃ f c, Rel s f ∧ f[h]? = some c ∧ c.isOpen = true ∧ C = c.rest

theorem source_of_sim (Rel : S → List Cursor → Prop)
    (hstep : ∀ s f op, Rel s f → Ok op → (step s op).2 ≠ .hang →
      ∃ ch, Allowed ch ∧ (step s op).2 = (Spec.step cfg ch f op).2 ∧
        Rel (step s op).1 (Spec.step cfg ch f op).1)
    (h : Nat) (hread : ∀ k, k < 2 ^ 62 → Ok (.read h k)) (hwrite : cfg.drains = true → ∀ w, Ok (.writeTo h w))
    (hw0 : ∀ s w, (step s (.writeTo h w)).2 ≠ .hang) :
    IsSource (BodyOps.ofFam step cfg.drains h) (SrcRel Rel h) := by
  constructor
  · rintro s C k s' d e hk ⟨f, c, hR, hc, ho, rfl⟩ hr
    simp only [BodyOps.ofFam] at hr
    have hstep' := hstep s f (.read h k) hR (hread k hk)
    rcases hq : step s (.read h k) with ⟨s1, o⟩
    rw [hq] at hr hstep'
    cases o <;> simp at hr
    rename_i d' e'
    obtain ⟨rfl, rfl, rfl⟩ := hr
    obtain ⟨ch, -, h1, h2⟩ := hstep' (by simp)
    simp only [Spec.step, Op.h, hc] at h1 h2
    by_cases hd : c.done = true
    · have hrd : c.read cfg ch k = (c, .read [] (some cfg.fin)) := by simp [Cursor.read, ho, hd]
      rw [hrd] at h1 h2
      simp at h1
      obtain ⟨rfl, rfl⟩ := h1
      have hset : f.set h c = f := by
        apply List.ext_getElem?
        intro i
        by_cases hi : h = i
        · subst hi
          have : h < f.length := by
            rcases List.getElem?_eq_some_iff.1 hc with ⟨hlt, -⟩; exact hlt
          simp [this, ← hc]
        · simp [hi]
      refine ⟨[], by simp [Cursor.rest, hd], ⟨f, c, by simpa [hset] using h2, hc, ho, by simp [Cursor.rest, hd]⟩, fun _ => rfl⟩
    · have hd' : c.done = false := by simpa using hd
      cases hcr : ch.crash with
      | some p => simp [Cursor.read, ho, hd', hcr] at h1
      | none =>
        simp only [Cursor.read, ho, hd', hcr, Bool.not_true, Bool.false_eq_true, if_false] at h1 h2
        simp only [Out.read.injEq] at h1
        obtain ⟨rfl, he⟩ := h1
        generalize hen : (decide (c.content.length < c.pos + k) ||
          (ch.early && decide (0 < k) && decide (c.pos + k = c.content.length))) = ended at he h2
        have hlt : h < f.length := (List.getElem?_eq_some_iff.1 hc).1
        have hget : (f.set h { c with pos := c.pos + ((c.content.drop c.pos).take k).length, done := ended, isOpen := true })[h]? =
            some { c with pos := c.pos + ((c.content.drop c.pos).take k).length, done := ended, isOpen := true } := by simp [hlt]
        have hsplit : c.content.drop c.pos = (c.content.drop c.pos).take k ++
            c.content.drop (c.pos + ((c.content.drop c.pos).take k).length) := by
          conv => lhs; rw [← List.take_append_drop k (c.content.drop c.pos)]
          congr 1
          rw [List.drop_drop, List.length_take, List.length_drop]
          by_cases hle : k ≤ c.content.length - c.pos
          · rw [Nat.min_eq_left hle]
          · rw [Nat.min_eq_right (by omega), List.drop_eq_nil_of_le (by omega), List.drop_eq_nil_of_le (by omega)]
        have hend : ended = true → c.content.drop (c.pos + ((c.content.drop c.pos).take k).length) = [] := by
          intro hen'
          rw [hen'] at hen
          apply List.drop_eq_nil_of_le
          rw [List.length_take, List.length_drop]
          simp at hen
          omega
        generalize ((c.content.drop c.pos).take k).length = m at h2 hget hsplit hend
        refine ⟨c.content.drop (c.pos + m), ?_, ⟨_, _, h2, hget, rfl, ?_⟩, ?_⟩
        · simpa [Cursor.rest, hd'] using hsplit
        · cases ended with
          | true => simp [Cursor.rest, hend rfl]
          | false => simp [Cursor.rest]
        · intro heof
          apply hend
          cases ended
          · simp at he; rw [he] at heof; simp at heof
          · rfl
  · rintro (hdr : cfg.drains = true) s C ⟨f, c, hR, hc, ho, rfl⟩
    · simp only [BodyOps.ofFam]
      have hlt : h < f.length := (List.getElem?_eq_some_iff.1 hc).1
      have one : ∀ w, (step s (.writeTo h w)).2 = (c.writeTo w).2 := by
        intro w
        obtain ⟨ch, -, h1, -⟩ := hstep s f (.writeTo h w) hR (hwrite hdr w) (hw0 s w)
        simpa [Spec.step, Op.h, hc, hdr] using h1
      have h0 := one (fun _ => .ok (0, none))
      rcases hq : step s (.writeTo h (fun _ => .ok (0, none))) with ⟨s1, o⟩
      rw [hq] at h0
      dsimp only at h0
      by_cases hd : c.done = true
      · have : o = .wrote none 0 none := by rw [h0]; simp [Cursor.writeTo, ho, hd]
        subst this
        simp [WTGood, Cursor.rest, hd]
      · have hd' : c.done = false := by simpa using hd
        have : o = .wrote (some (c.content.drop c.pos)) 0 none := by
          rw [h0]; simp [Cursor.writeTo, ho, hd']
        subst this
        simp only [WTGood]
        have hcont : ∀ n err, (∃ s', (step s (.writeTo h (fun _ => .ok (n, err)))) = (s', .wrote (some (c.content.drop c.pos)) n err)) ∨
            ∃ s' p, (step s (.writeTo h (fun _ => .ok (n, err)))) = (s', .panic p) := by
          intro n err
          have h3 := one (fun _ => .ok (n, err))
          rcases hq2 : step s (.writeTo h (fun _ => .ok (n, err))) with ⟨s2, o2⟩
          rw [hq2] at h3
          dsimp only at h3
          by_cases hn : 0 ≤ n ∧ n ≤ (c.content.drop c.pos).length
          · exact .inl ⟨s2, by
              rw [h3]; simp only [Cursor.writeTo, ho, hd', Bool.not_true, Bool.false_eq_true, if_false]; rw [if_pos hn]⟩
          · exact .inr ⟨s2, .badWriter, by
              rw [h3]; simp only [Cursor.writeTo, ho, hd', Bool.not_true, Bool.false_eq_true, if_false]; rw [if_neg hn]⟩
        refine ⟨[], by simp [Cursor.rest, hd'], ?_, ?_⟩
        · rcases hcont (c.content.drop c.pos).length none with ⟨s', h'⟩ | ⟨s', p, h'⟩ <;> rw [h'] <;> simp [WTGood]
        · intro n e
          rcases hcont n (some e) with ⟨s', h'⟩ | ⟨s', p, h'⟩ <;> rw [h'] <;> simp [WTGood.WTFails]

variable {σ : Type}

/-- The interaction tree which `BodyOps.ofFam` makes of `WriteTo` is faithful: run against any writer it leaves the Body and
returns or panics as the call itself. -/
theorem memFam_writeTo_faithful (m : MemFam) (h : Nat) (w : WriteFn) :
    runWT (ω := Unit) (fun u d => (u, match w d with | .ok r => .ret r | .panics p => .panic p))
        ((BodyOps.ofFam MemFam.step true h).writeTo m) () =
      ((m.step (.writeTo h w)).1, (), match (m.step (.writeTo h w)).2 with
        | .wrote _ n err => .ret (n, err)
        | .panic p => .panic p
        | _ => .panic .nilDeref) := by
  cases m with
  | empty s =>
    simp only [BodyOps.ofFam, MemFam.step, EmptyBody.step, Op.h]
    cases hb : s[h]? with
    | none => rfl
    | some b =>
      by_cases hc : b.closed = true <;> simp [EmptyBody.writeTo, hc, runWT]
  | bytes s =>
    simp only [BodyOps.ofFam, MemFam.step, BytesBody.step, Op.h]
    cases hb : s[h]? with
    | none => rfl
    | some b =>
      have hset : s.set h b = s := by
        obtain ⟨hlt, rfl⟩ := List.getElem?_eq_some_iff.mp hb
        exact List.set_getElem_self hlt
      simp only [BytesBody.writeTo]
      by_cases hc : b.closed = true
      · simp [hc, runWT]
      · by_cases he : b.eof = true
        · simp [hc, he, runWT]
        · simp only [hc, he, Bool.false_eq_true, if_false]
          cases hg : goSlice b.data b.offset b.data.length with
          | none => rfl
          | some d =>
            have hav : (0 : Int) ≤ b.data.length - b.offset := by
              unfold goSlice at hg
              split at hg
              · omega
              · simp at hg
            simp only [ge_iff_le, Int.le_refl, not_true, if_false, hav, runWT]
            cases hw : w d with
            | panics p => simp [hset]
            | ok r =>
              obtain ⟨n, err⟩ := r
              dsimp only
              by_cases h0 : (0 : Int) ≤ n
              · by_cases h1 : n ≤ b.data.length - b.offset
                · simp [h0, h1, runWT]
                · simp [h0, h1, runWT]
              · simp [h0, runWT]

/-- Bodies made by `FromBytes`/`FromString` from a non-empty string. -/
theorem mem_source (data : List Byte) (hlen : data.length < 2 ^ 63) (hne : data ≠ []) (h : Nat) :
    IsSource (BodyOps.ofFam MemFam.step true h) (SrcRel (MemRel data) h) :=
  source_of_sim (cfg := memCfg data) (Allowed := (· = {})) (MemRel data) (mem_step_sim' hlen) h
    (fun k _ => ⟨trivial, fun h => absurd h hne⟩) (fun _ w => ⟨trivial, fun h => absurd h hne⟩) (fun s w => goOut_ne_hang s _)

theorem mem_source_init (data : List Byte) : SrcRel (MemRel data) 0 (fromBytes data) data :=
  ⟨_, _, mem_init data, rfl, rfl, by simp [Cursor.rest]⟩

/-- Bodies over a well-behaved `io.ReaderAt`. -/
theorem readerAt_source {R : Rdr σ} {F : List Byte} {Inv : σ → Prop} (hR : IsReaderAt R F Inv) (n : Nat) (hn : n ≤ F.length)
    (hn63 : n < 2 ^ 63) (h : Nat) :
    IsSource (BodyOps.ofFam (ReaderAtBody.step R) false h) (SrcRel (PSim (F.take n) Inv) h) := by
  haveI := hR.closeOk
  rw [at_step]
  exact source_of_sim (cfg := posCfg n) (Allowed := PosAllowed) (PSim (F.take n) Inv) (psim_step' (goodGet_at hR) hn hn63) h
    (fun k _ => trivial) (fun _ w => trivial) (fun s w => by rw [← at_step]; exact at_noHang R s _)

theorem readerAt_source_init {F : List Byte} {Inv : σ → Prop} {st : σ} (hi : Inv st) (n : Nat) (hn : n ≤ F.length) :
    SrcRel (PSim (F.take n) Inv) 0 (ReaderAtBody.init st n) (F.take n) :=
  ⟨_, _, psim_init hi hn, rfl, rfl, by simp [Cursor.rest]⟩

/-- Bodies over a well-behaved `io.ReadSeeker` that fills the buffer. -/
theorem seeker_source {R : Rdr σ} {F : List Byte} {At : σ → Nat → Prop} (hR : IsFullSeeker R F At) (n : Nat) (hn : n ≤ F.length)
    (hn63 : n < 2 ^ 63) (h : Nat) :
    IsSource (BodyOps.ofFam (SeekerBody.step R) false h) (SrcRel (PSim (F.take n) fun st => ∃ p, At st p) h) := by
  haveI := hR.closeOk
  rw [seek_step]
  exact source_of_sim (cfg := posCfg n) (Allowed := PosAllowed) (PSim (F.take n) fun st => ∃ p, At st p)
    (psim_step' (goodGet_seek hR) hn hn63) h
    (fun k _ => trivial) (fun _ w => trivial) (fun s w => by rw [← seek_step]; exact seek_noHang R s _)

/-- What is known of a family over a reader that is a stream. -/
structure StreamRel (R : Rdr σ) (fin : Err) (Inv : σ → List Byte → Prop) (T : List Byte) (L : Int) (s : BufSys (Rec σ))
    (f : List Cursor) : Prop where
  winv : WInv L s
  close : CloseInv R s
  sinv : SInv R fin Inv T s.common.rdr
  within : 0 ≤ L → ((obtained s.common.rdr.log).length : Int) ≤ L
  rel : Pw (BRel (cut T L)) s.heap f

theorem streamRel_step {R : Rdr σ} [R.CloseOk] {fin : Err} {Inv : σ → List Byte → Prop} (hS : IsStream R fin Inv) (T : List Byte) (L : Int)
    (hL : fin = .eof ∨ L ≠ T.length) (fuel : Nat) (s : BufSys (Rec σ)) (f : List Cursor) (op : Op) (h : StreamRel R fin Inv T L s f)
    (hok : op.Small) (hh : (streamStep R fuel s op).2 ≠ .hang) :
    ∃ ch, True ∧ (streamStep R fuel s op).2 =
        (Spec.step (streamCfg L (if 0 ≤ L ∧ L < T.length then .eof else fin)) ch f op).2 ∧
      StreamRel R fin Inv T L (streamStep R fuel s op).1
        (Spec.step (streamCfg L (if 0 ≤ L ∧ L < T.length then .eof else fin)) ch f op).1 := by
  obtain ⟨ext, S⟩ := buf_step R fuel L s h.winv op hok
  have hsi := step_pred R (SInv R fin Inv T) (sinv_read hS) sinv_close fuel L s h.winv h.close op h.sinv
  have hw := within_step S h.within
  obtain ⟨ch, -, h1, h2⟩ := S.sim _ _ f h.rel (sinv_pre hsi hw hL) hh
  exact ⟨ch, trivial, h1, ⟨S.inv, closeInv_step S h.close, hsi, hw, h2⟩⟩

theorem streamRel_init {R : Rdr σ} {fin : Err} {Inv : σ → List Byte → Prop} (st : σ) (T : List Byte) (hI : Inv st T) (L : Int) :
    StreamRel R fin Inv T L (streamInit st L) [{ content := cut T L }] :=
  ⟨init_winv st L, closeInv_init R st L, ⟨by simp [BufSys.init, BufSys.ref], .inr ⟨rfl, T, rfl, fun _ => hI⟩⟩,
    by simp [BufSys.init, BufSys.ref, obtained], init_rel st L _⟩

/-- Bodies over a plain `io.Reader` that is a stream. -/
theorem stream_source {R : Rdr σ} [R.CloseOk] {fin : Err} {Inv : σ → List Byte → Prop} (hS : IsStream R fin Inv) (T : List Byte) (L : Int)
    (hL : fin = .eof ∨ L ≠ T.length) (fuel : Nat) (h : Nat) :
    IsSource (BodyOps.ofFam (streamStep R fuel) false h) (SrcRel (StreamRel R fin Inv T L) h) :=
  source_of_sim (cfg := streamCfg L (if 0 ≤ L ∧ L < T.length then .eof else fin)) (Allowed := fun _ => True) (Ok := Op.Small)
    (StreamRel R fin Inv T L) (streamRel_step hS T L hL fuel) h (fun k hk => hk) (fun _ w => trivial)
    (fun s w => by
      unfold streamStep BufSys.step
      split
      · simp
      · simp)

theorem stream_source_init {R : Rdr σ} {fin : Err} {Inv : σ → List Byte → Prop} (st : σ) (T : List Byte) (hI : Inv st T) (L : Int) :
    SrcRel (StreamRel R fin Inv T L) 0 (streamInit st L) (cut T L) :=
  ⟨_, _, streamRel_init st T hI L, rfl, rfl, by simp [Cursor.rest]⟩

end Verif
