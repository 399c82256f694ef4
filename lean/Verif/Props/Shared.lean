import Verif.Model.Shared
import Verif.Props.Construct

/-! # C57: Bodies made by separate calls from one positional Reader do not disturb each other -/

set_option autoImplicit false

namespace Verif
open Spec Pos
variable {σ : Type}

/-- A history of events. -/
def Shared.run (R : Rdr σ) (fuel : Nat) : Shared σ → List (SEv σ) → Shared σ × List SOut
  | X, [] => (X, [])
  | X, ev :: evs =>
    let r := X.step R fuel ev
    let t := Shared.run R fuel r.1 evs
    (t.1, r.2 :: t.2)

/-- How a family is related to its cursors; nothing is said about the state of the Reader in it. -/
def FRel (R : Rdr σ) (F : List Byte) (fam : ReaderFam σ) (f : Nat × List Cursor) : Prop :=
  f.1 ≤ F.length ∧ ∃ s, PSim (F.take f.1) (fun _ => True) s f.2 ∧ fam = if R.isReaderAt = true then .readerAt s else .seeker s

/-- The relation between the Reader with its families and the independent cursors. -/
def SRel (R : Rdr σ) (F : List Byte) (X : Shared σ) (fs : List (Nat × List Cursor)) : Prop := Pw (FRel R F) X.fams fs

theorem psim_weak {C : List Byte} {Inv : σ → Prop} {s : PosSys σ} {f : List Cursor} (h : PSim C Inv s f) :
    PSim C (fun _ => True) s f :=
  ⟨h.pw, h.cnt, fun hp => ⟨(h.live hp).1, (h.live hp).2.1, trivial⟩⟩

theorem psim_put {C : List Byte} {Inv : σ → Prop} {s : PosSys σ} {f : List Cursor} (h : PSim C (fun _ => True) s f) {st : σ}
    (hi : Inv st) : PSim C Inv { s with common := { s.common with rdr := st } } f :=
  ⟨h.pw, h.cnt, fun hp => ⟨(h.live hp).1, (h.live hp).2.1, hi⟩⟩

/-- One call on a family, wherever the Reader has been left by others. -/
theorem fam_shared_step {R : Rdr σ} {F : List Byte} {Inv : σ → Prop} (hF : IsFile R F Inv) (fuel : Nat) {fam : ReaderFam σ}
    {f : Nat × List Cursor} (h : FRel R F fam f) {st : σ} (hi : Inv st) (op : Op) (hv : op.Valid) :
    ∃ ch, PosAllowed ch ∧ ((fam.withRdr st).step R fuel op).2 = (Spec.step (posCfg f.1) ch f.2 op).2 ∧
      FRel R F ((fam.withRdr st).step R fuel op).1 (f.1, (Spec.step (posCfg f.1) ch f.2 op).1) := by
  obtain ⟨hn, s, hs, rfl⟩ := h
  have hn63 : f.1 < 2 ^ 63 := Nat.lt_of_le_of_lt hn hF.small
  have hp := psim_put (st := st) hs hi
  cases hat : R.isReaderAt with
  | true =>
    have hR := hF.readerAt hat
    haveI := hR.closeOk
    obtain ⟨ch, h1, h2, h3⟩ := psim_step (goodGet_at hR) hn hn63 _ _ op hv hp
    rw [← at_step R] at h2 h3
    exact ⟨ch, h1, h2, hn, _, psim_weak h3, by simp [hat, ReaderFam.withRdr, ReaderFam.step]⟩
  | false =>
    obtain ⟨_, At, hR, hAt⟩ := hF.seeker hat
    haveI := hR.closeOk
    have hp' : PSim (F.take f.1) (fun st => ∃ p, At st p) { s with common := { s.common with rdr := st } } f.2 :=
      psim_put hs ((hAt st).1 hi)
    obtain ⟨ch, h1, h2, h3⟩ := psim_step (goodGet_seek hR) hn hn63 _ _ op hv hp'
    rw [← seek_step R] at h2 h3
    exact ⟨ch, h1, h2, hn, _, psim_weak h3, by simp [hat, ReaderFam.withRdr, ReaderFam.step]⟩

/-- What `FromReaderAndLength` makes. -/
theorem make_shared {R : Rdr σ} {F : List Byte} {Inv : σ → Prop} (hF : IsFile R F Inv) {st : σ} (hi : Inv st) (L : Int)
    (hL : L ≤ F.length) (hm : L < 0 → R.isFile = true ∨ R.isSeeker = true) :
    ∃ st' fam, fromReaderAndLength R st L = (st', .ret (.ok fam)) ∧ Inv st' ∧
      FRel R F fam (if L < 0 then F.length else L.toNat, [{ content := F.take (if L < 0 then F.length else L.toNat) }]) := by
  have key : ∃ st', measure R st L = (st', .ret (.ok ((if L < 0 then F.length else L.toNat : Nat) : Int))) ∧ Inv st' := by
    by_cases h0 : 0 ≤ L
    · refine ⟨st, ?_, hi⟩
      rw [measure_declared R st L h0, if_neg (by omega)]
      simp; omega
    · have h0' : L < 0 := by omega
      rw [if_pos h0']
      cases hf : R.isFile with
      | true =>
        obtain ⟨st', e, hi'⟩ := hF.stat hf st hi
        refine ⟨st', ?_, hi'⟩
        rw [measure_file R st L h0' hf, e]
        simp
      | false =>
        have hs : R.isSeeker = true := by rcases hm h0' with h | h <;> simp_all
        obtain ⟨st1, e1, hi1⟩ := hF.toEnd hs st hi
        obtain ⟨st2, n, e2, hi2⟩ := hF.rewind hs st1 hi1
        refine ⟨st2, ?_, hi2⟩
        rw [measure_seeker R st L h0' hf hs, e1]
        simp only [e2]
        rw [if_neg (by omega)]
  obtain ⟨st', e, hi'⟩ := key
  generalize hN : (if L < 0 then F.length else L.toNat) = N at *
  have hNF : N ≤ F.length := by rw [← hN]; split <;> omega
  unfold fromReaderAndLength
  rw [e]
  cases hat : R.isReaderAt with
  | true =>
    refine ⟨st', .readerAt (ReaderAtBody.init st' N), by simp, hi', hNF, ReaderAtBody.init st' N, psim_init trivial hNF, by simp [hat]⟩
  | false =>
    have hs := (hF.seeker hat).1
    exact ⟨st', .seeker (SeekerBody.init st' N), by simp [hs], hi', hNF, ReaderAtBody.init st' N, psim_init trivial hNF,
      by simp [hat, SeekerBody.init, ReaderAtBody.init, SeekerBody.ref, ReaderAtBody.ref]⟩

theorem srel_step {R : Rdr σ} {F : List Byte} {Inv : σ → Prop} (hF : IsFile R F Inv) (fuel : Nat) {X : Shared σ}
    {fs : List (Nat × List Cursor)} (h : SRel R F X fs) (hi : Inv X.rdr) (ev : SEv σ) (hv : SEv.Ok R F ev) :
    ∃ ch, PosAllowed ch ∧ (X.step R fuel ev).2 = (sharedStep F ch fs ev).2 ∧ SRel R F (X.step R fuel ev).1 (sharedStep F ch fs ev).1 := by
  cases ev with
  | direct f => exact ⟨{}, ⟨rfl, rfl⟩, rfl, h⟩
  | make L =>
    obtain ⟨st', fam, e, _, hr⟩ := make_shared hF hi L hv.1 hv.2
    refine ⟨{}, ⟨rfl, rfl⟩, ?_, ?_⟩
    · simp only [Shared.step, e, sharedStep, h.1]
    · simp only [Shared.step, e, sharedStep]
      exact h.append hr
  | on i op =>
    cases hb : X.fams[i]? with
    | none =>
      refine ⟨{}, ⟨rfl, rfl⟩, ?_, ?_⟩
      · simp only [Shared.step, hb, sharedStep, (h.none_iff _).1 hb]
      · simp only [Shared.step, hb, sharedStep, (h.none_iff _).1 hb]; exact h
    | some fam =>
      obtain ⟨f, hf, hr⟩ := h.get hb
      obtain ⟨ch, h1, h2, h3⟩ := fam_shared_step hF fuel hr hi op hv
      refine ⟨ch, h1, ?_, ?_⟩
      · simp only [Shared.step, hb, sharedStep, hf, h2]
      · simp only [Shared.step, hb, sharedStep, hf]
        exact h.set i h3

theorem srel_run {R : Rdr σ} {F : List Byte} {Inv : σ → Prop} (hF : IsFile R F Inv) (fuel : Nat) (evs : List (SEv σ)) (X : Shared σ)
    (fs : List (Nat × List Cursor)) (h : SRel R F X fs) (hv : ∀ ev ∈ evs, SEv.Ok R F ev)
    (hi : ∀ m, m < evs.length → Inv (Shared.run R fuel X (evs.take m)).1.rdr) :
    ∃ chs : List Choice, chs.length = evs.length ∧ (∀ ch ∈ chs, PosAllowed ch) ∧
      (Shared.run R fuel X evs).2 = (sharedRun F fs (chs.zip evs)).2 := by
  induction evs generalizing X fs with
  | nil => exact ⟨[], rfl, by simp, rfl⟩
  | cons ev evs ih =>
    have hi0 : Inv X.rdr := hi 0 (by simp)
    obtain ⟨ch, h1, h2, h3⟩ := srel_step hF fuel h hi0 ev (hv ev (by simp))
    obtain ⟨chs, hl, ha, he⟩ := ih _ _ h3 (fun e he => hv e (by simp [he])) (fun m hm => by
      have := hi (m + 1) (by simp; omega)
      simpa [Shared.run] using this)
    exact ⟨ch :: chs, by simp [hl], by simpa using ⟨h1, ha⟩, by simp [Shared.run, sharedRun, h2, he]⟩

/-- **C57**: any number of Bodies, made at any time by separate calls of `FromReaderAndLength` from one Reader of content `F`, each with
its own length, with any number of copies, and with the Reader also used directly in between: as long as the Reader itself stays in order,
each family of Bodies behaves as independent cursors over the beginning of `F`. -/
theorem C57_shared_reader {R : Rdr σ} {F : List Byte} {Inv : σ → Prop} (hF : IsFile R F Inv) (fuel : Nat) (st : σ) (evs : List (SEv σ))
    (hv : ∀ ev ∈ evs, SEv.Ok R F ev) (hi : ∀ m, m < evs.length → Inv (Shared.run R fuel ⟨st, []⟩ (evs.take m)).1.rdr) :
    ∃ chs : List Choice, chs.length = evs.length ∧ (∀ ch ∈ chs, PosAllowed ch) ∧
      (Shared.run R fuel ⟨st, []⟩ evs).2 = (sharedRun F [] (chs.zip evs)).2 :=
  srel_run hF fuel evs _ _ ⟨rfl, by simp⟩ hv hi

/-- **C57**: making a Body, successful or not, leaves the families that exist alone, and the Reader where `FromReaderAndLength` left it. -/
theorem C57_make (R : Rdr σ) (fuel : Nat) (X : Shared σ) (L : Int) :
    X.fams <+: (X.step R fuel (.make L)).1.fams ∧ (X.step R fuel (.make L)).1.rdr = (fromReaderAndLength R X.rdr L).1 ∧
      ((∀ i, (X.step R fuel (.make L)).2 ≠ .made i) → (X.step R fuel (.make L)).1.fams = X.fams) := by
  simp only [Shared.step]
  split <;> simp

/-! ## When the Reader stays in order -/

theorem pos_keeps_open (K : PosKind σ) (s : PosSys σ) (op : Op) {b : PosBody} (hb : s.heap[op.h]? = some b) (ho : ∀ h, op ≠ .close h) :
    ∃ b', (Pos.step K s op).1.heap[op.h]? = some b' ∧ b'.closed = b.closed := by
  have hlt : op.h < s.heap.length := by
    rcases Nat.lt_or_ge op.h s.heap.length with h | h
    · exact h
    · rw [List.getElem?_eq_none h] at hb; cases hb
  unfold Pos.step
  rw [hb]
  cases op with
  | close h => exact absurd rfl (ho h)
  | read h k =>
    simp only [Op.h] at hb hlt
    simp only [Pos.read, Op.h]
    repeat' split
    all_goals first
      | exact ⟨b, hb, rfl⟩
      | (unfold Pos.served; split <;> exact ⟨_, List.getElem?_set_self hlt, rfl⟩)
  | readAt h k off =>
    simp only [Pos.readAt]
    repeat' split
    all_goals exact ⟨b, hb, rfl⟩
  | seek h off wh =>
    simp only [Op.h] at hb hlt
    simp only [Pos.seek, ReaderAtBody.seek, Op.h]
    repeat' split
    all_goals first
      | exact ⟨b, hb, rfl⟩
      | exact ⟨_, List.getElem?_set_self hlt, rfl⟩
  | copy h =>
    dsimp only
    split
    · exact ⟨b, hb, rfl⟩
    · exact ⟨b, by simp only [Op.h] at hb hlt ⊢; rw [List.getElem?_append_left hlt]; exact hb, rfl⟩
  | remaining h => exact ⟨b, hb, rfl⟩
  | unwrap h => exact ⟨b, hb, rfl⟩
  | writeTo h w => exact ⟨b, hb, rfl⟩

theorem pos_closed_same (K : PosKind σ) (s : PosSys σ) (op : Op) {b : PosBody} (hb : s.heap[op.h]? = some b) (hc : b.closed = true) :
    (Pos.step K s op).1 = s := by
  unfold Pos.step
  rw [hb]
  cases op <;> simp [Pos.read, Pos.readAt, Pos.seek, ReaderAtBody.seek, hc] <;> (repeat' split) <;> rfl

theorem unref_keep {R : Rdr σ} {Inv : σ → Prop} {c : PosCommon σ} (hi : Inv c.rdr) (hc : R.isCloser = true → Inv (R.close c.rdr).1) :
    Inv (Pos.unref R c).1.rdr := by
  unfold Pos.unref
  split
  · exact hi
  · split
    · rename_i h
      have := hc (by simp at h; exact h.2)
      dsimp only
      split <;> exact this
    · exact hi

/-- A call leaves the Reader in order, if its `Close` does. -/
theorem pos_keep {K : PosKind σ} [K.R.CloseOk] {F : List Byte} {Inv : σ → Prop} (hG : GoodGet K F Inv) {n : Nat}
    (hn : n ≤ F.length) (hn63 : n < 2 ^ 63) (s : PosSys σ) (f : List Cursor) (op : Op) (hv : op.Valid)
    (hs : PSim (F.take n) Inv s f) (hi : Inv s.common.rdr) (hc : K.R.isCloser = true → ∀ st, Inv st → Inv (K.R.close st).1) :
    Inv (Pos.step K s op).1.common.rdr := by
  cases hb : s.heap[op.h]? with
  | none => unfold Pos.step; rw [hb]; exact hi
  | some b =>
    cases hcl : b.closed with
    | true => rw [pos_closed_same K s op hb hcl]; exact hi
    | false =>
      by_cases ho : ∃ h, op = .close h
      · obtain ⟨h, rfl⟩ := ho
        unfold Pos.step
        rw [hb]
        simp only [hcl]
        exact unref_keep hi (fun hcl => hc hcl _ hi)
      · obtain ⟨b', hb', hcl'⟩ := pos_keeps_open K s op hb (fun h e => ho ⟨h, e⟩)
        obtain ⟨ch, _, _, h3⟩ := psim_step hG hn hn63 s f op hv hs
        exact (h3.live (posOpen_pos hb' (hcl'.trans hcl))).2.2

theorem shared_keep {R : Rdr σ} {F : List Byte} {Inv : σ → Prop} (hF : IsFile R F Inv)
    (hc : R.isCloser = true → ∀ st, Inv st → Inv (R.close st).1) (fuel : Nat) {X : Shared σ}
    {fs : List (Nat × List Cursor)} (h : SRel R F X fs) (hi : Inv X.rdr) (ev : SEv σ) (hv : SEv.Ok R F ev)
    (hd : ∀ f, ev = .direct f → ∀ st, Inv st → Inv (f st)) : Inv (X.step R fuel ev).1.rdr := by
  cases ev with
  | direct f => exact hd f rfl _ hi
  | make L =>
    obtain ⟨st', fam, e, hi', _⟩ := make_shared hF hi L hv.1 hv.2
    simp only [Shared.step, e]; exact hi'
  | on i op =>
    cases hb : X.fams[i]? with
    | none => simp only [Shared.step, hb]; exact hi
    | some fam =>
      obtain ⟨f, hf, hr⟩ := h.get hb
      simp only [Shared.step, hb]
      obtain ⟨hn, s, hs, rfl⟩ := hr
      have hn63 : f.1 < 2 ^ 63 := Nat.lt_of_le_of_lt hn hF.small
      cases hat : R.isReaderAt with
      | true =>
        have hR := hF.readerAt hat
        haveI := hR.closeOk
        have := pos_keep (goodGet_at hR) hn hn63 _ _ op hv (psim_put (st := X.rdr) hs hi) hi hc
        rw [← at_step R] at this
        simpa [ReaderFam.withRdr, ReaderFam.step, ReaderFam.rdr] using this
      | false =>
        obtain ⟨_, At, hR, hAt⟩ := hF.seeker hat
        haveI := hR.closeOk
        have := pos_keep (goodGet_seek hR) hn hn63 _ _ op hv (psim_put (st := X.rdr) hs ((hAt _).1 hi)) ((hAt _).1 hi)
          (fun hcl st h => (hAt _).1 (hc hcl st ((hAt _).2 h)))
        rw [← seek_step R] at this
        simpa [ReaderFam.withRdr, ReaderFam.step, ReaderFam.rdr] using (hAt _).2 this

/-- **C57**: in particular so if the Reader is no `io.Closer` (or one which stays usable after `Close`), and those who use it directly
leave it in order too. -/
theorem C57_shared_reader_stays {R : Rdr σ} {F : List Byte} {Inv : σ → Prop} (hF : IsFile R F Inv)
    (hc : R.isCloser = true → ∀ st, Inv st → Inv (R.close st).1) (fuel : Nat) (st : σ) (hst : Inv st) (evs : List (SEv σ))
    (hv : ∀ ev ∈ evs, SEv.Ok R F ev) (hd : ∀ f, SEv.direct f ∈ evs → ∀ st, Inv st → Inv (f st)) :
    ∃ chs : List Choice, chs.length = evs.length ∧ (∀ ch ∈ chs, PosAllowed ch) ∧
      (Shared.run R fuel ⟨st, []⟩ evs).2 = (sharedRun F [] (chs.zip evs)).2 := by
  suffices H : ∀ (X : Shared σ) (fs : List (Nat × List Cursor)), SRel R F X fs → Inv X.rdr →
      ∃ chs : List Choice, chs.length = evs.length ∧ (∀ ch ∈ chs, PosAllowed ch) ∧
        (Shared.run R fuel X evs).2 = (sharedRun F fs (chs.zip evs)).2 from
    H _ _ ⟨rfl, by simp⟩ hst
  induction evs with
  | nil => intro X fs _ _; exact ⟨[], rfl, by simp, rfl⟩
  | cons ev evs ih =>
    intro X fs h hi
    obtain ⟨ch, h1, h2, h3⟩ := srel_step hF fuel h hi ev (hv ev (by simp))
    have h4 := shared_keep hF hc fuel h hi ev (hv ev (by simp)) (fun f e => hd f (by simp [e]))
    obtain ⟨chs, hl, ha, he⟩ := ih (fun e he => hv e (by simp [he])) (fun f hf => hd f (by simp [hf])) _ _ h3 h4
    exact ⟨ch :: chs, by simp [hl], by simpa using ⟨h1, ha⟩, by simp [Shared.run, sharedRun, h2, he]⟩

/-! ## Examples -/

theorem fileRdr_isFile (F : List Byte) (h : F.length < 2 ^ 63) : IsFile (fileRdr F) F (fun _ => True) where
  small := h
  readerAt _ := fileRdr_readerAt F
  seeker h := by cases h
  stat _ _ _ := ⟨_, rfl, trivial⟩
  toEnd _ _ _ := ⟨_, by simp [fileRdr]; rfl, trivial⟩
  rewind _ _ _ := ⟨_, _, rfl, trivial⟩

/-- Without `ReadAt` and `Stat`, and unusable after `Close`: the state is the position, unless closed. -/
def onceRdr (F : List Byte) : Rdr (Option Nat) where
  read p n := match p with
    | none => (none, .got [] (some .closed))
    | some p => (some (p + ((F.drop p).take n).length), .got ((F.drop p).take n) (if F.length < p + n then some .eof else none))
  readAt p _ _ := (p, .got [] (some .closed))
  seek p off wh := match p with
    | none => (none, .ok (0, some .closed))
    | some p =>
      let t := if wh = 0 then off else if wh = 1 then p + off else F.length + off
      (some t.toNat, .ok (t, none))
  stat p := (p, .ok (0, some .closed))
  close _ := (none, .ok none)
  isReaderAt := false
  isSeeker := true
  isFile := false
  isCloser := true

theorem onceRdr_isFile (F : List Byte) (h : F.length < 2 ^ 63) : IsFile (onceRdr F) F (fun st => ∃ p, st = some p) where
  small := h
  readerAt h := by cases h
  seeker _ := by
    refine ⟨rfl, fun st p => st = some p, ⟨⟨fun _ _ => ⟨_, rfl⟩⟩, ?_, ?_⟩, fun _ => Iff.rfl⟩
    · rintro st p off rfl h0 _; exact ⟨_, _, rfl, rfl⟩
    · rintro st p x rfl
      refine ⟨_, _, rfl, rfl, ?_, ?_⟩
      · intro h; rw [if_neg]; omega
      · split <;> simp
  stat h := by cases h
  toEnd := by rintro _ _ ⟨p, rfl⟩; exact ⟨_, by simp [onceRdr]; rfl, _, rfl⟩
  rewind := by rintro _ _ ⟨p, rfl⟩; exact ⟨_, _, rfl, _, rfl⟩

/-- Two Bodies and the one who owns the Reader take turns: each goes on where it was. -/
example : (Shared.run (onceRdr [1, 2, 3, 4, 5]) 9 ⟨some 3, []⟩ [.make 4, .on 0 (.read 0 2), .make (-1), .on 1 (.read 0 1), .on 0 (.copy 0),
      .direct fun _ => some 77, .on 0 (.read 1 1), .on 1 (.read 0 9), .on 0 (.read 0 9), .on 0 (.close 0), .on 0 (.remaining 1)]).2 =
    [.made 0, .out (.read [1, 2] none), .made 1, .out (.read [1] none), .out (.copied 1), .done, .out (.read [3] none),
      .out (.read [2, 3, 4, 5] (some .eof)), .out (.read [3, 4] (some .eof)), .out (.closed none), .out (.remaining 1)] := by
  decide +kernel

/-- A family which is closed takes the Reader from the others (`C57_shared_reader` speaks about what comes before). -/
example : (Shared.run (onceRdr [1, 2, 3, 4, 5]) 9 ⟨some 3, []⟩ [.make 4, .make 5, .on 0 (.close 0), .on 1 (.read 0 2)]).2 =
    [.made 0, .made 1, .out (.closed none), .out (.read [] (some .closed))] := by
  decide +kernel

/-- Bodies over a Reader without positions share what it delivers: the first has read ahead, the second gets what is left. -/
example : (Shared.run { fileRdr [1, 2, 3, 4, 5] with isReaderAt := false, isSeeker := false, isFile := false } 9 ⟨0, []⟩
      [.make (-1), .make (-1), .on 0 (.read 0 2), .on 1 (.read 0 2), .on 0 (.read 0 2)]).2 =
    [.made 0, .made 1, .out (.read [1, 2] none), .out (.read [] (some .eof)), .out (.read [3, 4] none)] := by
  decide +kernel

end Verif
