import Verif.Proofs.Adaptor
import Verif.Props.Serve
import Verif.Props.Writer

/-!
# C50: serving a Response through a Writer

`C50_transparent`: unless the body is to be suppressed, the wrapped ResponseWriter sees exactly what it would see if the
Response were served to it directly.  `C50_suppressed`: for HEAD requests and status 204 it sees exactly the beginning of that,
up to the status; the Body is consumed and closed all the same, and a failure to read it is reported.
-/

set_option autoImplicit false

namespace Verif
open Spec
variable {β ω : Type}

/-- A run of `ReadFrom` never returns a negative count. -/
def Spec.RFCounts : RF ω → Prop
  | .done _ n _ => 0 ≤ n
  | .read _ _ cont => ∀ d e, RFCounts (cont d e)
  | .drain _ cont => ∀ n e, RFCounts (cont n e)
  | _ => True

/-- A ResponseWriter that never returns a negative count. -/
structure Spec.CountsOk (N : RW ω) : Prop where
  write : ∀ w d n e, (N.write w d).2 = .ret (n, e) → 0 ≤ n
  readFrom : ∀ w, RFCounts (N.readFrom w)

/-- The wrapped ResponseWriter without the interface that a Writer of this kind hides. -/
def RW.through (N : RW ω) (kind : WKind) : RW ω := { N with isReaderFrom := kind == .fancy }

/-- A Writer whose status has been sent, and which passes on the body. -/
structure Passing (s : WState ω) : Prop where
  head : s.isHEAD = false
  sent : s.status ≠ 0
  body : s.status ≠ 204

theorem passing_maybe (N : RW ω) (s : WState ω) (h : s.status ≠ 0) : Writer.maybeWriteHeader N s 200 = (s, .ret ()) := by
  simp [Writer.maybeWriteHeader, h]

theorem passing_write (N : RW ω) (hN : CountsOk N) (s : WState ω) (hs : Passing s) (d : List Byte) :
    ∃ n e, Writer.write N s d = ({ s with next := (N.write s.next d).1, bytes := n, sawError := e }, (N.write s.next d).2) := by
  simp only [Writer.write, passing_maybe N s hs.sent]
  rw [if_neg (by simp [hs.head, hs.body])]
  have hc := hN.write s.next d
  rcases hw : N.write s.next d with ⟨w, r⟩
  rw [hw] at hc
  cases r with
  | panic q => exact ⟨s.bytes, s.sawError, rfl⟩
  | hang => exact ⟨s.bytes, s.sawError, rfl⟩
  | ret a =>
    obtain ⟨n, e⟩ := a
    have h0 := hc n e rfl
    simp only
    rw [if_neg (by omega)]
    split
    · exact ⟨s.bytes + n, true, rfl⟩
    · exact ⟨s.bytes + n, s.sawError, rfl⟩

theorem Passing.next {s : WState ω} (hs : Passing s) (w : ω) (n : Int) (e : Bool) :
    Passing { s with next := w, bytes := n, sawError := e } := ⟨hs.head, hs.sent, hs.body⟩

/-- The Writer's answer is that of the wrapped ResponseWriter, and so is what happens to both ends. -/
def Same (s : WState ω) (x : β × WState ω × WAns) (y : β × ω × WAns) : Prop :=
  ∃ n e, x = (y.1, { s with next := y.2.1, bytes := n, sawError := e }, y.2.2)

theorem Same.of {s : WState ω} {w : ω} {n : Int} {e : Bool} {x : β × WState ω × WAns} {y : β × ω × WAns}
    (h : Same { s with next := w, bytes := n, sawError := e } x y) : Same s x y := h

theorem passing_runWT (N : RW ω) (hN : CountsOk N) (t : WT β) (s : WState ω) (hs : Passing s) :
    Same s (runWT (Writer.write N) t s) (runWT N.write t s.next) := by
  induction t generalizing s with
  | done b n err => exact ⟨s.bytes, s.sawError, rfl⟩
  | write b d cont ih =>
    obtain ⟨n, e, h⟩ := passing_write N hN s hs d
    simp only [runWT, h]
    rcases N.write s.next d with ⟨w, r⟩
    cases r with
    | ret a => exact (ih a.1 a.2 _ (hs.next w n e)).of
    | panic p => exact ⟨n, e, rfl⟩
    | hang => exact ⟨n, e, rfl⟩
  | panic b p => exact ⟨s.bytes, s.sawError, rfl⟩
  | hang b => exact ⟨s.bytes, s.sawError, rfl⟩

theorem passing_wrapRF (B : BodyOps β) (fuel : Nat) (t : RF ω) (ht : RFCounts t) (s : WState ω) (b : β) :
    Same s (runRF B fuel (Writer.wrapRF s t) b) (runRF B fuel t b) := by
  induction t generalizing b with
  | done w n err =>
    simp only [Writer.wrapRF]
    rw [if_neg (by simpa [RFCounts] using ht)]
    exact ⟨s.bytes + n, s.sawError, rfl⟩
  | read w k cont ih =>
    simp only [Writer.wrapRF, runRF]
    rcases B.read b k with ⟨b', r⟩
    cases r with
    | ret a => exact ih a.1 a.2 (ht a.1 a.2) b'
    | panic p => exact ⟨s.bytes, s.sawError, rfl⟩
    | hang => exact ⟨s.bytes, s.sawError, rfl⟩
  | drain w cont ih =>
    simp only [Writer.wrapRF, runRF]
    rcases discardAll B fuel b with ⟨b', r⟩
    cases r with
    | ret a => exact ih a.1 a.2 (ht a.1 a.2) b'
    | panic p => exact ⟨s.bytes, s.sawError, rfl⟩
    | hang => exact ⟨s.bytes, s.sawError, rfl⟩
  | panic w p => exact ⟨s.bytes, s.sawError, rfl⟩
  | hang w => exact ⟨s.bytes, s.sawError, rfl⟩

theorem passing_copyLoop (N : RW ω) (hN : CountsOk N) (raises : Bool) (kind : WKind) (B : BodyOps β) (fuel : Nat) (b : β)
    (s : WState ω) (hs : Passing s) (k : Int) :
    Same s (copyLoop (Writer.ops N raises kind) B fuel b s k) (copyLoop (N.through kind) B fuel b s.next k) := by
  induction fuel generalizing b s k with
  | zero => exact ⟨s.bytes, s.sawError, rfl⟩
  | succ fuel ih =>
    simp only [copyLoop]
    rcases B.read b 32768 with ⟨b', r⟩
    have h0 : ∀ b' r, Same s (β := β) (b', s, r) (b', s.next, r) := fun b' r => ⟨s.bytes, s.sawError, rfl⟩
    rcases r with ⟨d, er⟩ | p | _
    · obtain ⟨n, e, h⟩ := passing_write N hN s hs d
      have h' : (Writer.ops N raises kind).write s d = _ := h
      have e' : (N.through kind).write s.next d = N.write s.next d := rfl
      simp only [h', e']
      rcases N.write s.next d with ⟨w, q⟩
      have h1 : ∀ b' r, Same s (β := β) (b', { s with next := w, bytes := n, sawError := e }, r) (b', w, r) :=
        fun b' r => ⟨n, e, rfl⟩
      have ih1 := fun b k => (ih b _ (hs.next w n e) k).of
      rcases q with ⟨nw, ew⟩ | p | _
      all_goals (dsimp only; repeat' (first | exact h0 _ _ | exact h1 _ _ | exact ih _ _ hs _ | exact ih1 _ _ | split))
    · exact h0 _ _
    · exact h0 _ _

theorem passing_ioCopy (N : RW ω) (hN : CountsOk N) (raises : Bool) (kind : WKind) (hk : kind = .fancy → N.isReaderFrom = true)
    (B : BodyOps β) (fuel : Nat) (b : β) (s : WState ω) (hs : Passing s) :
    Same s (ioCopy (Writer.ops N raises kind) B fuel b s) (ioCopy (N.through kind) B fuel b s.next) := by
  unfold ioCopy
  split
  · exact passing_runWT N hN _ s hs
  · have : (N.through kind).isReaderFrom = (Writer.ops N raises kind).isReaderFrom := rfl
    rw [this]
    split
    · rename_i h
      have hk := hk (by simpa [Writer.ops] using h)
      have : (Writer.ops N raises kind).readFrom s = Writer.wrapRF s (N.readFrom s.next) := by
        show Writer.readFrom N s = _
        simp [Writer.readFrom, passing_maybe N s hs.sent, hs.head, hs.body, hk]
      rw [this]
      exact passing_wrapRF B fuel _ (hN.readFrom _) s b
    · exact passing_copyLoop N hN raises kind B fuel b s hs 0

theorem through_pushAll (N : RW ω) (raises : Bool) (kind : WKind) (urls : List GoStr) (s : WState ω) :
    pushAll (Writer.ops N raises kind) urls s =
      (let p := if N.isPusher then pushAll N urls s.next else (s.next, none)
       ({ s with next := p.1 }, p.2)) := by
  induction urls generalizing s with
  | nil => by_cases h : N.isPusher = true <;> simp [pushAll, h]
  | cons u urls ih =>
    have e : (Writer.ops N raises kind).push s u = Writer.push N s u := rfl
    simp only [pushAll, e, Writer.push]
    by_cases h : N.isPusher = true
    · simp only [h, if_true] at ih ⊢
      rcases N.push s.next u with ⟨w, r⟩
      cases r with
      | panic p => rfl
      | hang => rfl
      | ret o =>
        cases o with
        | none => exact ih _
        | some e =>
          dsimp only
          split
          · rfl
          · exact ih _
    · simp only [h] at ih ⊢
      simpa using ih s

theorem through_setAll (N : RW ω) (raises : Bool) (kind : WKind) (hdrs : List (GoStr × List GoStr)) (s : WState ω) :
    setAll (Writer.ops N raises kind) hdrs s = { s with next := setAll N hdrs s.next } := by
  induction hdrs generalizing s with
  | nil => rfl
  | cons e hdrs ih =>
    simp only [setAll, List.foldl_cons] at ih ⊢
    by_cases h : e.1 ≠ headerPush
    · simp only [if_pos h]; rw [ih]; rfl
    · simp only [if_neg h]; rw [ih]

/-- **C50.** Unless the request is HEAD or the status 204, serving through a new Writer has the same effect on the Body and on
the wrapped ResponseWriter, and the same outcome, as serving to the wrapped ResponseWriter (without the interface that this
kind of Writer hides). -/
theorem C50_transparent (N : RW ω) (hN : CountsOk N) (raises : Bool) (B : BodyOps β) (fuel : Nat) (r : Resp β)
    (h1 : 100 ≤ r.code) (h2 : r.code ≤ 999) (h3 : r.code ≠ 204) (w : ω) :
    let x := serve (Writer.ops N raises (Writer.kindFor N)) B fuel r (Writer.init w false)
    (x.1, x.2.1.next, x.2.2) = serve (N.through (Writer.kindFor N)) B fuel r w := by
  have hk : Writer.kindFor N = .fancy → N.isReaderFrom = true := by
    unfold Writer.kindFor
    split
    · rename_i h; simp at h; exact fun _ => h.2
    · split <;> simp
  generalize Writer.kindFor N = kind at hk
  have e1 : (if (Writer.ops N raises kind).isPusher then
        pushAll (Writer.ops N raises kind) (hdrGet r.hdrs headerPush) (Writer.init w false) else (Writer.init w false, none)) =
      (let p := if (N.through kind).isPusher then pushAll (N.through kind) (hdrGet r.hdrs headerPush) w else (w, none)
       ({ Writer.init w false with next := p.1 }, p.2)) := by
    have : (Writer.ops N raises kind).isPusher = true := rfl
    rw [if_pos this, through_pushAll]
    have : ∀ urls w, pushAll (N.through kind) urls w = pushAll N urls w := by
      intro urls
      induction urls with
      | nil => intro w; rfl
      | cons u urls ih =>
        intro w
        simp only [pushAll, ih]
        rfl
    simp only [this]
    rfl
  dsimp only
  unfold serve
  rw [e1]
  generalize (if (N.through kind).isPusher then pushAll (N.through kind) (hdrGet r.hdrs headerPush) w else (w, none)) = p
  obtain ⟨w1, o⟩ := p
  cases o with
  | some o => rfl
  | none =>
    dsimp only
    rw [through_setAll]
    have e2 : ∀ s : WState ω, s.status = 0 → (Writer.ops N raises kind).writeHeader s r.code =
        ({ s with status := r.code, next := (N.writeHeader s.next r.code).1 }, (N.writeHeader s.next r.code).2) := by
      intro s hs
      show Writer.writeHeader N raises s r.code = _
      simp only [Writer.writeHeader, Writer.writeHeaderImpl]
      rw [if_neg (by omega), if_neg (by omega), if_neg (by simp [hs])]
    rw [e2 _ rfl]
    have e3 : (N.through kind).writeHeader (setAll (N.through kind) r.hdrs w1) r.code =
        N.writeHeader (setAll N r.hdrs w1) r.code := rfl
    rw [e3]
    rcases N.writeHeader (setAll N r.hdrs w1) r.code with ⟨w2, q⟩
    cases q with
    | panic p => rfl
    | hang => rfl
    | ret u =>
      dsimp only
      obtain ⟨n, e, h⟩ := passing_ioCopy N hN raises kind hk B fuel r.body
        ({ Writer.init w false with next := w2, status := r.code } : WState ω) ⟨rfl, by simp; omega, h3⟩
      have h' : ioCopy (Writer.ops N raises kind) B fuel r.body ({ Writer.init w false with next := w2, status := r.code } : WState ω) = _ := h
      simp only [Writer.init] at h' ⊢
      rw [h']
      rcases ioCopy (N.through kind) B fuel r.body w2 with ⟨b, w3, a⟩
      rcases a with ⟨k, err⟩ | p | _
      · dsimp only
        rcases B.close b with ⟨b', q⟩
        cases q <;> rfl
      · rfl
      · rfl

theorem record_through (N : RW ω) (kind : WKind) : N.record.through kind = (N.through kind).record := rfl

theorem countsOk_record (N : RW ω) (hN : CountsOk N) : CountsOk N.record := by
  refine ⟨?_, fun w => ?_⟩
  · intro w d n e h
    exact hN.write w.inner d n e (by simpa [RW.record] using h)
  · have : ∀ (t : RF ω) (l : List WEv), RFCounts t → RFCounts (t.record l) := by
      intro t
      induction t with
      | done w n err => exact fun l h => h
      | read w k cont ih => exact fun l h d e => ih d e _ (h d e)
      | drain w cont ih => exact fun l h n e => ih n e _ (h n e)
      | panic w p => exact fun l h => trivial
      | hang w => exact fun l h => trivial
    exact this _ _ (hN.readFrom w.inner)

theorem through_honest (N : RW ω) (hN : HonestWriter N) (kind : WKind) : HonestWriter (N.through kind) := ⟨hN.write, hN.readFrom⟩

/-- **C50**, with C34 and C38: a Response whose Body represents the bytes `C`, served through a new Writer to a ResponseWriter
that keeps to its contract.  The client is handed a beginning of `C`, all of it if the outcome is nil; the Writer's `Status` is
the code of the Response unless a push failed, and `BytesWritten` is what the client accepted. -/
theorem C50_content (N : RW ω) (hN : CountsOk N) (hH : HonestWriter N) (raises : Bool) (B : BodyOps β)
    {P : β → List Byte → Prop} (hB : IsSource B P) (fuel : Nat) (r : Resp β) (C : List Byte) (hP : P r.body C)
    (h1 : 100 ≤ r.code) (h2 : r.code ≤ 999) (h3 : r.code ≠ 204) (w : ω) :
    let x := serve (Writer.ops N.record raises (Writer.kindFor N)) B fuel r (Writer.init ⟨w, []⟩ false)
    handed x.2.1.next.log <+: C ∧ (x.2.2 = .ret none → handed x.2.1.next.log = C) ∧
    (x.2.1.status = r.code ∨ PushFailed x.2.1.next.log) ∧ x.2.1.bytes = accepted x.2.1.next.log := by
  have e := C50_transparent N.record (countsOk_record N hN) raises B fuel r h1 h2 h3 ⟨w, []⟩
  have ek : Writer.kindFor N.record = Writer.kindFor N := rfl
  rw [ek, record_through] at e
  obtain ⟨c1, c2⟩ := C34_content (N.through (Writer.kindFor N)) (through_honest N hH _) B hB fuel r C hP w
  rw [← e] at c1 c2
  obtain ⟨i1, i2, -⟩ := writer_serve N raises (Writer.kindFor N) B fuel r _ (winvariant_init w false)
  exact ⟨c1, c2, i2 h1 h2 rfl, i1.bytes⟩

/-! ## Suppressed bodies -/

/-- The Body has been read to its end: its `WriteTo` returned without error, or its `Read` reported the end of file. -/
def Spec.Consumed (body : List BEv) : Prop :=
  (∃ n, body.getLast? = some (.writeToDone n none)) ∨ (∃ k d, body.getLast? = some (.read k (.ret (d, some .eof))))

/-- A Writer whose status has been sent, and which suppresses the body. -/
structure Mute (s : WState ω) : Prop where
  mute : s.isHEAD = true ∨ s.status = 204
  sent : s.status ≠ 0

theorem mute_write (N : RW ω) (s : WState ω) (hs : Mute s) (d : List Byte) :
    Writer.write N s d = (s, .ret (d.length, none)) := by
  simp only [Writer.write, passing_maybe N s hs.sent]
  rw [if_pos (by simpa using hs.mute)]

/-- What copying a Body into a mute Writer does: the log of the Body is extended by `bm`. -/
structure MuteCopy (s : WState ω) (m : List BEv) (x : Logged BEv β × WState ω × WAns) (bm : List BEv) (counted : Bool) : Prop where
  log : x.1.log = m ++ bm
  state : x.2.1 = s
  closes : bodyCloses bm = []
  ret : ∀ n err, x.2.2 = .ret (n, err) → (err = none ↔ Consumed bm) ∧ bm ≠ [] ∧ (counted = true → n = (bodyGave bm).length)

theorem mute_runWT (N : RW ω) (t : WT β) (s : WState ω) (hs : Mute s) (m : List BEv) :
    ∃ bm, MuteCopy s m (runWT (Writer.write N) (t.record m) s) bm false := by
  induction t generalizing m with
  | done b n err =>
    refine ⟨[.writeToDone n err], rfl, rfl, rfl, ?_⟩
    intro n' err' h
    simp [WT.record, runWT] at h
    obtain ⟨rfl, rfl⟩ := h
    simp [Consumed]
  | write b d cont ih =>
    obtain ⟨bm, h1, h2, h3, h4⟩ := ih d.length none (m ++ [.gave d d.length none])
    have e : runWT (Writer.write N) ((WT.write b d cont).record m) s =
        runWT (Writer.write N) ((cont d.length none).record (m ++ [.gave d d.length none])) s := by
      simp only [WT.record, runWT, mute_write N s hs]
    rw [e]
    refine ⟨.gave d d.length none :: bm, by simp [h1], h2, by simpa [bodyCloses] using h3, ?_⟩
    intro n err h
    obtain ⟨g1, g2, -⟩ := h4 n err h
    refine ⟨?_, by simp, by simp⟩
    rw [g1]
    obtain ⟨x, hx⟩ := Option.isSome_iff_exists.1 (List.getLast?_isSome.2 g2)
    simp [Consumed, List.getLast?_cons, hx]
  | panic b p => exact ⟨[], by simp [WT.record, runWT], rfl, rfl, by simp [WT.record, runWT]⟩
  | hang b => exact ⟨[], by simp [WT.record, runWT], rfl, rfl, by simp [WT.record, runWT]⟩

theorem consumed_read (k : Nat) (d : List Byte) (e : Err) :
    (if e = .eof then none else some e) = none ↔ Consumed [.read k (.ret (d, some e))] := by
  by_cases h : e = .eof <;> simp [Consumed, h]

theorem consumed_cons {a : BEv} {bm : List BEv} (h : bm ≠ []) : Consumed (a :: bm) ↔ Consumed bm := by
  obtain ⟨x, hx⟩ := Option.isSome_iff_exists.1 (List.getLast?_isSome.2 h)
  simp [Consumed, List.getLast?_cons, hx]

theorem discardLoop_consumes (B : BodyOps β) (fuel : Nat) (b : β) (n : Int) (m : List BEv) :
    ∃ bm, (discardLoop B.record fuel ⟨b, m⟩ n).1.log = m ++ bm ∧ bodyCloses bm = [] ∧
      ∀ n' err, (discardLoop B.record fuel ⟨b, m⟩ n).2 = .ret (n', err) →
        (err = none ↔ Consumed bm) ∧ bm ≠ [] ∧ n' = n + (bodyGave bm).length := by
  induction fuel generalizing b n m with
  | zero => exact ⟨[], by simp [discardLoop], rfl, by simp [discardLoop]⟩
  | succ fuel ih =>
    rcases hr : B.read b 8192 with ⟨b1, r⟩
    rcases r with ⟨d, _ | e⟩ | p | _
    · obtain ⟨bm, h1, h2, h3⟩ := ih b1 (n + d.length) (m ++ [.read 8192 (.ret (d, none))])
      have e : discardLoop B.record (fuel + 1) ⟨b, m⟩ n =
          discardLoop B.record fuel ⟨b1, m ++ [.read 8192 (.ret (d, none))]⟩ (n + d.length) := by
        simp [discardLoop, BodyOps.record, hr]
      rw [e]
      refine ⟨.read 8192 (.ret (d, none)) :: bm, by simp [h1], by simpa [bodyCloses] using h2, ?_⟩
      intro n' err h
      obtain ⟨g1, g2, g3⟩ := h3 n' err h
      refine ⟨by rw [consumed_cons g2]; exact g1, by simp, ?_⟩
      rw [g3]; simp [bodyGave]; omega
    · refine ⟨[.read 8192 (.ret (d, some e))], by simp [discardLoop, BodyOps.record, hr], rfl, ?_⟩
      intro n' err h
      simp [discardLoop, BodyOps.record, hr] at h
      obtain ⟨rfl, rfl⟩ := h
      exact ⟨consumed_read _ _ _, by simp, by simp [bodyGave]⟩
    · exact ⟨[.read 8192 (.panic p)], by simp [discardLoop, BodyOps.record, hr], rfl, by simp [discardLoop, BodyOps.record, hr]⟩
    · exact ⟨[.read 8192 .hang], by simp [discardLoop, BodyOps.record, hr], rfl, by simp [discardLoop, BodyOps.record, hr]⟩

theorem mute_copyLoop (N : RW ω) (raises : Bool) (kind : WKind) (B : BodyOps β) (fuel : Nat) (b : β) (s : WState ω) (hs : Mute s)
    (n : Int) (m : List BEv) :
    ∃ bm, (copyLoop (Writer.ops N raises kind) B.record fuel ⟨b, m⟩ s n).1.log = m ++ bm ∧
      (copyLoop (Writer.ops N raises kind) B.record fuel ⟨b, m⟩ s n).2.1 = s ∧ bodyCloses bm = [] ∧
      ∀ n' err, (copyLoop (Writer.ops N raises kind) B.record fuel ⟨b, m⟩ s n).2.2 = .ret (n', err) →
        (err = none ↔ Consumed bm) ∧ bm ≠ [] ∧ n' = n + (bodyGave bm).length := by
  have hw : ∀ d, (Writer.ops N raises kind).write s d = (s, .ret (d.length, none)) := mute_write N s hs
  induction fuel generalizing b n m with
  | zero => exact ⟨[], by simp [copyLoop], rfl, rfl, by simp [copyLoop]⟩
  | succ fuel ih =>
    rcases hr : B.read b 32768 with ⟨b1, r⟩
    rcases r with ⟨d, er⟩ | p | _
    · by_cases hd : d.length > 0 ∧ d.length > 32768
      · refine ⟨[.read 32768 (.ret (d, er))], by simp [copyLoop, BodyOps.record, hr, hd], by simp [copyLoop, BodyOps.record, hr, hd], rfl,
          by simp [copyLoop, BodyOps.record, hr, hd]⟩
      · have hbad : ¬ ((d.length : Int) < 0) := by omega
        have he : copyLoop (Writer.ops N raises kind) B.record (fuel + 1) ⟨b, m⟩ s n =
            match er with
            | some e => (⟨b1, m ++ [.read 32768 (.ret (d, er))]⟩, s, .ret (n + d.length, if e = .eof then none else some e))
            | none => copyLoop (Writer.ops N raises kind) B.record fuel ⟨b1, m ++ [.read 32768 (.ret (d, er))]⟩ s (n + d.length) := by
          by_cases h0 : d.length > 0
          · have h2 : ¬ d.length > 32768 := fun h => hd ⟨h0, h⟩
            cases er <;> simp [copyLoop, BodyOps.record, hr, h0, h2, hw, hbad]
          · have : d.length = 0 := by omega
            cases er <;> simp [copyLoop, BodyOps.record, hr, this]
        rw [he]
        cases er with
        | some e =>
          refine ⟨[.read 32768 (.ret (d, some e))], rfl, rfl, rfl, ?_⟩
          intro n' err h
          simp at h
          obtain ⟨rfl, rfl⟩ := h
          exact ⟨consumed_read _ _ _, by simp, by simp [bodyGave]⟩
        | none =>
          obtain ⟨bm, h1, h2, h3, h4⟩ := ih b1 (n + d.length) (m ++ [.read 32768 (.ret (d, none))])
          refine ⟨.read 32768 (.ret (d, none)) :: bm, by simp [h1], h2, by simpa [bodyCloses] using h3, ?_⟩
          intro n' err h
          obtain ⟨g1, g2, g3⟩ := h4 n' err h
          refine ⟨by rw [consumed_cons g2]; exact g1, by simp, ?_⟩
          rw [g3]; simp [bodyGave]; omega
    · exact ⟨[.read 32768 (.panic p)], by simp [copyLoop, BodyOps.record, hr], by simp [copyLoop, BodyOps.record, hr], rfl,
        by simp [copyLoop, BodyOps.record, hr]⟩
    · exact ⟨[.read 32768 .hang], by simp [copyLoop, BodyOps.record, hr], by simp [copyLoop, BodyOps.record, hr], rfl,
        by simp [copyLoop, BodyOps.record, hr]⟩

theorem mute_ioCopy (N : RW ω) (raises : Bool) (kind : WKind) (B : BodyOps β) (fuel : Nat) (b : β) (s : WState ω) (hs : Mute s)
    (m : List BEv) :
    ∃ bm, MuteCopy s m (ioCopy (Writer.ops N raises kind) B.record fuel ⟨b, m⟩ s) bm (!B.isWriterTo) := by
  unfold ioCopy
  by_cases h : B.isWriterTo = true
  · have h' : B.record.isWriterTo = true := h
    rw [if_pos h', h]
    exact mute_runWT N _ s hs m
  · have h' : ¬ B.record.isWriterTo = true := h
    rw [if_neg h']
    split
    · have e : (Writer.ops N raises kind).readFrom s = .drain s fun n err => .done s n err := by
        show Writer.readFrom N s = _
        simp only [Writer.readFrom, passing_maybe N s hs.sent]
        rw [if_pos (by simpa using hs.mute)]
      rw [e]
      simp only [runRF, discardAll]
      rw [if_neg h']
      obtain ⟨bm, h1, h2, h3⟩ := discardLoop_consumes B fuel b 0 m
      rcases hd : discardLoop B.record fuel ⟨b, m⟩ 0 with ⟨b', r⟩
      rw [hd] at h1 h3
      rcases r with ⟨n, err⟩ | p | _
      · refine ⟨bm, h1, rfl, h2, ?_⟩
        intro n' err' h
        simp [runRF] at h
        obtain ⟨rfl, rfl⟩ := h
        obtain ⟨g1, g2, g3⟩ := h3 n err rfl
        exact ⟨g1, g2, fun _ => by omega⟩
      · exact ⟨bm, h1, rfl, h2, by simp⟩
      · exact ⟨bm, h1, rfl, h2, by simp⟩
    · obtain ⟨bm, h1, h2, h3, h4⟩ := mute_copyLoop N raises kind B fuel b s hs 0 m
      refine ⟨bm, h1, h2, h3, ?_⟩
      intro n err h
      obtain ⟨g1, g2, g3⟩ := h4 n err h
      exact ⟨g1, g2, fun _ => by omega⟩

/-- A Writer that has sent the status and nothing else. -/
def sentState (w : ω) (l : List WEv) (isHEAD : Bool) (code : Int) : WState (Logged WEv ω) :=
  { next := ⟨w, l⟩, isHEAD := isHEAD, status := code }

/-- **C50.** If the request is HEAD or the status 204: serving through a new Writer sends, unless a push fails, the pushes, the
headers other than Push and the status, and nothing else; no body byte is counted.  When it returns, the Body has been closed
once, and the outcome is nil iff the Body had been read to its end and `Close` returned nil. -/
theorem C50_suppressed (N : RW ω) (raises : Bool) (kind : WKind) (B : BodyOps β) (fuel : Nat) (r : Resp β) (isHEAD : Bool)
    (h1 : 100 ≤ r.code) (h2 : r.code ≤ 999) (h3 : isHEAD = true ∨ r.code = 204) (w : ω) :
    let x := serve (Writer.ops N.record raises kind) B.record fuel { code := r.code, hdrs := r.hdrs, body := ⟨r.body, []⟩, err := r.err }
      (Writer.init ⟨w, []⟩ isHEAD)
    ¬ PushFailed x.2.1.next.log →
    (∃ P, x.2.1.next.log = P ++ headerEvents r.hdrs ++ [.status r.code] ∧ PushesOk P) ∧ x.2.1.bytes = 0 ∧ x.2.1.status = r.code ∧
    ∀ e, x.2.2 = .ret e → ∃ bm err, x.1.log = bm ++ [.close (.ret err)] ∧ bodyCloses bm = [] ∧
      (e = none ↔ Consumed bm ∧ err = none) := by
  dsimp only
  intro hp
  generalize hx : serve (Writer.ops N.record raises kind) B.record fuel
    { code := r.code, hdrs := r.hdrs, body := ⟨r.body, []⟩, err := r.err } (Writer.init ⟨w, []⟩ isHEAD) = x at hp ⊢
  unfold serve at hx
  have : (Writer.ops N.record raises kind).isPusher = true := rfl
  rw [if_pos this, through_pushAll] at hx
  have hpush : (∃ w' Q, (if N.record.isPusher then pushAll N.record (hdrGet r.hdrs headerPush) ⟨w, []⟩ else (⟨w, []⟩, none)) =
        (⟨w', Q⟩, none) ∧ PushesOk Q) ∨
      (∃ w' Q u q, (if N.record.isPusher then pushAll N.record (hdrGet r.hdrs headerPush) ⟨w, []⟩ else (⟨w, []⟩, none)) =
        (⟨w', Q ++ [.push u q]⟩, some q) ∧ PushesOk Q ∧ q ≠ .ret none ∧ q ≠ .ret (some .notSupported)) := by
    by_cases hp : N.record.isPusher = true
    · rw [if_pos hp]
      rcases pushAll_record N (hdrGet r.hdrs headerPush) w [] with ⟨w', Q, h1, h2, h3⟩ | ⟨w', Q, u, q, rest, h1, h2, h3, h4, h5⟩
      · exact .inl ⟨w', Q, by simpa using h1, h3⟩
      · exact .inr ⟨w', Q, u, q, by simpa using h1, h3, h4, h5⟩
    · rw [if_neg hp]
      exact .inl ⟨w, [], rfl, by simp [PushesOk]⟩
  rcases hpush with ⟨w1, Q, e1, e2⟩ | ⟨w1, Q, u, q, e1, e2, e3, e4⟩
  · simp only [Writer.init] at hx
    rw [e1] at hx
    have es : setAll N.record r.hdrs ⟨w1, Q⟩ = ⟨setAll N r.hdrs w1, Q ++ sets r.hdrs⟩ := setAll_record N r.hdrs w1 Q
    simp only [through_setAll, es] at hx
    have e3 : (Writer.ops N.record raises kind).writeHeader
          ({ next := ⟨setAll N r.hdrs w1, Q ++ sets r.hdrs⟩, isHEAD := isHEAD } : WState (Logged WEv ω)) r.code =
        (sentState (N.writeHeader (setAll N r.hdrs w1) r.code).1 (Q ++ sets r.hdrs ++ [.status r.code]) isHEAD r.code, (N.writeHeader (setAll N r.hdrs w1) r.code).2) := by
      show Writer.writeHeader N.record raises _ r.code = _
      simp only [Writer.writeHeader, Writer.writeHeaderImpl]
      rw [if_neg (by omega), if_neg (by omega), if_neg (by simp)]
      rfl
    rw [e3] at hx
    have fin : ∀ b o, x = (b, (sentState (N.writeHeader (setAll N r.hdrs w1) r.code).1 (Q ++ sets r.hdrs ++ [.status r.code]) isHEAD r.code), o) → (∀ e, o = .ret e → ∃ bm err, b.log = bm ++ [.close (.ret err)] ∧ bodyCloses bm = [] ∧
            (e = none ↔ Consumed bm ∧ err = none)) →
        (∃ P, x.2.1.next.log = P ++ headerEvents r.hdrs ++ [.status r.code] ∧ PushesOk P) ∧ x.2.1.bytes = 0 ∧ x.2.1.status = r.code ∧
        ∀ e, x.2.2 = .ret e → ∃ bm err, x.1.log = bm ++ [.close (.ret err)] ∧ bodyCloses bm = [] ∧
          (e = none ↔ Consumed bm ∧ err = none) := by
      rintro b o rfl ho
      exact ⟨⟨Q, rfl, e2⟩, rfl, rfl, ho⟩
    rcases hq : (N.writeHeader (setAll N r.hdrs w1) r.code).2 with u | p | _
    · rw [hq] at hx
      dsimp only at hx
      obtain ⟨bm, c1, c2, c3, c4⟩ := mute_ioCopy N.record raises kind B fuel r.body
        (sentState (N.writeHeader (setAll N r.hdrs w1) r.code).1 (Q ++ sets r.hdrs ++ [.status r.code]) isHEAD r.code) ⟨h3, by simp [sentState]; omega⟩ []
      rcases hc : ioCopy (Writer.ops N.record raises kind) B.record fuel ⟨r.body, []⟩
        (sentState (N.writeHeader (setAll N r.hdrs w1) r.code).1 (Q ++ sets r.hdrs ++ [.status r.code]) isHEAD r.code) with ⟨b3, s3, ans⟩
      rw [hc] at hx c1 c2 c4
      dsimp only at c1 c2 c4
      subst c2
      rcases ans with ⟨n, err⟩ | p | _
      · obtain ⟨g1, g2, -⟩ := c4 n err rfl
        dsimp only at hx
        obtain ⟨b3i, b3l⟩ := b3
        rcases hcl : B.close b3i with ⟨b4, q⟩
        have ecl : B.record.close ⟨b3i, b3l⟩ = (⟨b4, b3l ++ [.close q]⟩, q) := by simp [BodyOps.record, hcl]
        rw [ecl] at hx
        have c1 : b3l = bm := by simpa using c1
        subst c1
        rcases q with err2 | p | _
        · refine fin _ _ hx.symm ?_
          intro e he
          refine ⟨b3l, err2, rfl, c3, ?_⟩
          simp at he
          rw [← g1, ← he]
          cases err <;> simp
        · exact fin _ _ hx.symm (by simp)
        · exact fin _ _ hx.symm (by simp)
      · exact fin _ _ hx.symm (by simp)
      · exact fin _ _ hx.symm (by simp)
    · rw [hq] at hx
      exact fin _ _ hx.symm (by simp)
    · rw [hq] at hx
      exact fin _ _ hx.symm (by simp)
  · exfalso
    simp only [Writer.init] at hx
    rw [e1] at hx
    apply hp
    rw [← hx]
    exact ⟨u, q, by simp, e3, e4⟩

/-! ## Examples: `exRW` has all optional interfaces, `plainRW` none -/

theorem exRW_counts : CountsOk exRW := by
  refine ⟨?_, fun w => ?_⟩
  · intro w d n e h
    simp [exRW] at h
    omega
  · intro d e
    show (0 : Int) ≤ d.length
    omega

theorem plainRW_counts : CountsOk plainRW := by
  refine ⟨?_, fun w => trivial⟩
  intro w d n e h
  simp [plainRW] at h
  omega

/-- A Body which gives two bytes and then fails. -/
def failing : BodyOps Nat where
  read s _ := (s + 1, .ret (if s = 0 then ([104, 105], none) else ([], some (.ext 9))))
  close s := (s, .ret none)
  remaining _ := -1
  isWriterTo := false
  writeTo s := .panic s .nilDeref

example : HonestWriter plainRW ∧ CountsOk plainRW ∧ CountsOk exRW ∧ Writer.kindFor exRW = .fancy ∧ Writer.kindFor plainRW = .basic :=
  ⟨plainRW_honest, plainRW_counts, exRW_counts, rfl, rfl⟩

-- GET
example : (let x := serve (Writer.ops exRW.record false .fancy) (BodyOps.ofFam MemFam.step false 0) 5 exResp (Writer.init ⟨(), []⟩ false)
    (x.2.1.next.log, x.2.1.bytes, x.2.2)) =
    ([.push (lit "/p") (.ret none), .set (lit "A") [lit "x"], .set (lit "B") [], .status 404, .readFrom, .took [104, 105],
      .readFromDone 2 none], 2, .ret none) := by decide +kernel
-- HEAD
example : (let x := serve (Writer.ops exRW.record false .fancy) (BodyOps.ofFam MemFam.step false 0) 5 exResp (Writer.init ⟨(), []⟩ true)
    (x.2.1.next.log, x.2.1.bytes, x.2.2)) =
    ([.push (lit "/p") (.ret none), .set (lit "A") [lit "x"], .set (lit "B") [], .status 404], 0, .ret none) := by decide +kernel
/-- Serving to a new Writer: the log of the Body, of the wrapped ResponseWriter, and the outcome. -/
def servedThrough (N : RW ω) (kind : WKind) (B : BodyOps β) (code : Int) (b : β) (w : ω) (isHEAD : Bool) :
    List BEv × List WEv × Res (Option Err) :=
  let x := serve (Writer.ops N.record false kind) B.record 5 { code := code, hdrs := [], body := ⟨b, []⟩ } (Writer.init ⟨w, []⟩ isHEAD)
  (x.1.log, x.2.1.next.log, x.2.2)

-- HEAD, with a Body that fails
example : servedThrough exRW .fancy failing 200 0 () true =
    ([.read 8192 (.ret ([104, 105], none)), .read 8192 (.ret ([], some (.ext 9))), .close (.ret none)], [.status 200],
      .ret (some (.ext 9))) := by decide +kernel
-- status 204, without `ReadFrom`
example : servedThrough plainRW .basic failing 204 0 () false =
    ([.read 32768 (.ret ([104, 105], none)), .read 32768 (.ret ([], some (.ext 9))), .close (.ret none)], [.status 204],
      .ret (some (.ext 9))) := by decide +kernel

/-- **C50**: the hypothesis on counts is needed.  A ResponseWriter whose `Write` returns a negative count makes the Writer panic,
where serving to it directly would return an error. -/
theorem C50_negative_count :
    let N : RW Unit := { plainRW with write := fun w _ => (w, .ret (-1, none)) }
    let r : Resp MemFam := { code := 200, hdrs := [], body := fromBytes [104, 105] }
    (serve (Writer.ops N false .basic) (BodyOps.ofFam MemFam.step false 0) 5 r (Writer.init () false)).2.2 = .panic .badWriter ∧
    (serve N (BodyOps.ofFam MemFam.step false 0) 5 r ()).2.2 = .ret (some .invalidWrite) := by decide +kernel

/-! ## The count returned by `io.Copy` -/

/-- Whatever the writer answers, the count is between 0 and the number of bytes handed to it (C34). -/
theorem C34_copy_count (D : RW ω) (B : BodyOps β) (fuel : Nat) (b : β) (w : ω) (hB : B.isWriterTo = false)
    (hD : D.isReaderFrom = false) (n : Int) (err : Option Err) (h : (ioCopy D.record B fuel b ⟨w, []⟩).2.2 = .ret (n, err)) :
    0 ≤ n ∧ n ≤ (handed (ioCopy D.record B fuel b ⟨w, []⟩).2.1.log).length := by
  have key : ∀ fuel b w l (n0 : Int), 0 ≤ n0 → n0 ≤ (handed l).length → (copyLoop D.record B fuel b ⟨w, l⟩ n0).2.2 = .ret (n, err) →
      0 ≤ n ∧ n ≤ (handed (copyLoop D.record B fuel b ⟨w, l⟩ n0).2.1.log).length := by
    intro fuel
    induction fuel with
    | zero => intro b w l n0 _ _ h; simp [copyLoop] at h
    | succ fuel ih =>
      intro b w l n0 h0 h1
      simp only [copyLoop]
      rcases B.read b 32768 with ⟨b', r⟩
      rcases r with ⟨d, er⟩ | p | _
      · rcases hw : D.write w d with ⟨w', q⟩
        have hew : D.record.write ⟨w, l⟩ d = (⟨w', l ++ [.write d q]⟩, q) := by simp [RW.record, hw]
        have hl : (handed (l ++ [.write d q])).length = (handed l).length + d.length := by simp [handed_append, handed]
        have skip : ∀ x : Option Err, ((.ret (n0, x) : WAns) = .ret (n, err) → 0 ≤ n ∧ n ≤ (handed l).length) := by
          intro x hx; simp at hx; omega
        dsimp only
        rw [hew]
        clear hew
        rcases q with ⟨nw, ew⟩ | p | _
        · have hb : 0 ≤ n0 + (if decide (nw < 0 ∨ (d.length : Int) < nw) = true then 0 else nw) ∧
              n0 + (if decide (nw < 0 ∨ (d.length : Int) < nw) = true then 0 else nw) ≤
                (handed (l ++ [.write d (.ret (nw, ew))])).length := by
            rw [hl]
            split
            · omega
            · rename_i hx; simp at hx; omega
          dsimp only
          generalize (if decide (nw < 0 ∨ (d.length : Int) < nw) = true then (0 : Int) else nw) = nn at hb
          have go : ∀ x : Option Err, ((.ret (n0 + nn, x) : WAns) = .ret (n, err) →
              0 ≤ n ∧ n ≤ (handed (l ++ [.write d (.ret (nw, ew))])).length) := by
            intro x hx; simp at hx; omega
          repeat' (first | exact skip _ | exact go _ | exact ih _ _ _ _ h0 h1 | exact ih _ _ _ _ hb.1 hb.2 | (simp; done) | split)
        · dsimp only
          repeat' (first | exact skip _ | exact ih _ _ _ _ h0 h1 | (simp; done) | split)
        · dsimp only
          repeat' (first | exact skip _ | exact ih _ _ _ _ h0 h1 | (simp; done) | split)
      · simp
      · simp
  have e : ioCopy D.record B fuel b ⟨w, []⟩ = copyLoop D.record B fuel b ⟨w, []⟩ 0 := by
    simp [ioCopy, hB, RW.record, hD]
  rw [e] at h ⊢
  exact key fuel b w [] 0 (by omega) (by omega) h

example : (ioCopy { plainRW with write := fun w _ => (w, .ret (-1, none)) } failing 5 0 ()).2.2 = .ret (0, some .invalidWrite) := by
  decide +kernel
example : (ioCopy { plainRW with write := fun w _ => (w, .ret (1, none)) } failing 5 0 ()).2.2 = .ret (1, some .shortWrite) := by
  decide +kernel

end Verif
