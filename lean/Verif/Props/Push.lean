import Verif.Proofs.Push
import Verif.Proofs.MachineWriter
import Verif.Props.NetHttp

/-!
# C85: pushes over HTTP/2

`C85_sent`: if no push fails, the response is the one that is sent without pushes, and what was accepted is promised.  `C85_refused`: otherwise the
client gets an empty 500.  `C85_iff`: so a Response arrives intact exactly if it has room (C64) and no push fails.  `C85_targets`: what may be pushed.
-/

set_option autoImplicit false

namespace Verif
open Spec
variable {β : Type}

/-- A GET or HEAD request answered by the Adaptor over HTTP/2. -/
def overH2 (E : H2) (raises isHEAD : Bool) (B : BodyOps β) (fuel : Nat) (assertErr : Bool) (onPanic : PanicArg → Res Unit) (h : Handled β) :
    H2W × List MEv × Res Unit :=
  serveHTTP raises isHEAD (.plain (h2RW E)) B fuel assertErr onPanic h { net := { isHEAD := isHEAD } }

namespace PushP

/-- Push `k` does not fail. -/
def Ok (E : H2) (k : Nat) (t : GoStr) : Prop := E.check t = none ∧ (E.answer k = none ∨ E.answer k = some .notSupported)

/-- Push `k` fails. -/
def Fails (E : H2) (k : Nat) (t : GoStr) (e : Err) : Prop :=
  E.check t = some e ∨ (E.check t = none ∧ E.answer k = some e ∧ e ≠ .notSupported)

def AllOk (E : H2) : Nat → List GoStr → Prop
  | _, [] => True
  | k, t :: l => Ok E k t ∧ AllOk E (k + 1) l

theorem check_error (E : H2) (t : GoStr) (e : Err) (h : E.check t = some e) : e ≠ .notSupported := by
  rintro rfl
  unfold H2.check at h
  repeat' split at h
  all_goals (cases h; done)

theorem pushAll_ok (E : H2) (urls : List GoStr) : ∀ w : H2W, AllOk E w.asked urls →
    pushAll (h2RW E) urls w = ({ w with asked := w.asked + urls.length, promised := w.promised ++ Push.accepted E w.asked urls }, none) := by
  induction urls with
  | nil => intro w _; simp [pushAll, Push.accepted]
  | cons t l ih =>
    intro w ⟨⟨h1, h2⟩, h3⟩
    have e : (h2RW E).push w t = H2W.push E w t := rfl
    simp only [pushAll, e, H2W.push, h1]
    rcases h2 with h2 | h2
    · rw [h2]
      dsimp only
      rw [if_pos rfl, ih _ h3]
      simp [Push.accepted, h2, Nat.add_assoc, Nat.add_comm 1]
    · rw [h2]
      dsimp only
      rw [if_neg (by simp), if_neg (by simp), ih _ h3]
      simp [Push.accepted, h2, Nat.add_assoc, Nat.add_comm 1]

theorem pushAll_fails (E : H2) (urls : List GoStr) : ∀ w : H2W, ¬ AllOk E w.asked urls →
    ∃ pre t post e a, urls = pre ++ t :: post ∧ AllOk E w.asked pre ∧ Fails E (w.asked + pre.length) t e ∧
      pushAll (h2RW E) urls w = ({ w with asked := a, promised := w.promised ++ Push.accepted E w.asked pre }, some (.ret (some e))) := by
  induction urls with
  | nil => intro w h; exact absurd trivial h
  | cons t l ih =>
    intro w h
    have e : (h2RW E).push w t = H2W.push E w t := rfl
    simp only [pushAll, e, H2W.push]
    cases hc : E.check t with
    | some x =>
      refine ⟨[], t, l, x, w.asked, rfl, trivial, .inl hc, ?_⟩
      dsimp only
      rw [if_pos (check_error E t x hc)]
      simp [Push.accepted]
    | none =>
      dsimp only
      by_cases ho : E.answer w.asked = none ∨ E.answer w.asked = some .notSupported
      · have hr : ¬ AllOk E (w.asked + 1) l := fun hl => h ⟨⟨hc, ho⟩, hl⟩
        rcases ho with h2 | h2
        · rw [h2]
          dsimp only
          rw [if_pos rfl]
          obtain ⟨pre, t', post, x, a, g1, g2, g3, g4⟩ := ih { w with asked := w.asked + 1, promised := w.promised ++ [t] } hr
          refine ⟨t :: pre, t', post, x, a, by rw [g1]; rfl, ⟨⟨hc, .inl h2⟩, g2⟩, ?_, ?_⟩
          · rw [show w.asked + (t :: pre).length = w.asked + 1 + pre.length by simp; omega]; exact g3
          · rw [g4]; simp [Push.accepted, h2]
        · rw [h2]
          dsimp only
          rw [if_neg (by simp), if_neg (by simp)]
          obtain ⟨pre, t', post, x, a, g1, g2, g3, g4⟩ := ih { w with asked := w.asked + 1 } hr
          refine ⟨t :: pre, t', post, x, a, by rw [g1]; rfl, ⟨⟨hc, .inr h2⟩, g2⟩, ?_, ?_⟩
          · rw [show w.asked + (t :: pre).length = w.asked + 1 + pre.length by simp; omega]; exact g3
          · rw [g4]; simp [Push.accepted, h2]
      · simp only [not_or] at ho
        cases ha : E.answer w.asked with
        | none => exact absurd ha ho.1
        | some x =>
          have hx : x ≠ .notSupported := by rintro rfl; exact ho.2 ha
          refine ⟨[], t, l, x, w.asked + 1, rfl, trivial, .inr ⟨hc, ha, hx⟩, ?_⟩
          dsimp only
          rw [if_pos hx, if_neg (by simp)]
          simp [Push.accepted]

theorem allOk_iff (E : H2) (urls : List GoStr) : ∀ k, AllOk E k urls ↔
    (∀ t ∈ urls, E.check t = none) ∧ ∀ i < urls.length, E.answer (k + i) = none ∨ E.answer (k + i) = some .notSupported := by
  induction urls with
  | nil => intro k; simp [AllOk]
  | cons t l ih =>
    intro k
    simp only [AllOk, Ok, ih, List.mem_cons, forall_eq_or_imp, List.length_cons]
    constructor
    · rintro ⟨⟨a, b⟩, c, d⟩
      refine ⟨⟨a, c⟩, fun i hi => ?_⟩
      cases i with
      | zero => exact b
      | succ i => rw [show k + (i + 1) = k + 1 + i by omega]; exact d i (by omega)
    · rintro ⟨⟨a, c⟩, d⟩
      refine ⟨⟨a, d 0 (by omega)⟩, c, fun i hi => ?_⟩
      rw [show k + 1 + i = k + (i + 1) by omega]
      exact d (i + 1) (by omega)

theorem goWell_iff (E : H2) (hs : E.scheme = lit "http" ∨ E.scheme = lit "https") (urls : List GoStr) : Push.GoWell E urls ↔ AllOk E 0 urls := by
  rw [allOk_iff]
  simp only [check_iff E hs, Nat.zero_add, Push.GoWell]
  constructor
  · rintro ⟨a, b, c⟩
    exact ⟨fun t ht => ⟨a (List.ne_nil_of_mem ht), b t ht⟩, c⟩
  · rintro ⟨a, c⟩
    refine ⟨fun h => ?_, fun t ht => (a t ht).2, c⟩
    obtain ⟨t, ht⟩ := List.exists_mem_of_ne_nil _ h
    exact (a t ht).1

/-! ## What is not a push -/

/-- The state of a Writer over HTTP/2 when so many targets were asked about and these promised. -/
def emb (a : Nat) (p : List GoStr) (s : WState NetW) : WState H2W :=
  { next := { net := s.next, asked := a, promised := p }, bytes := s.bytes, status := s.status, isHEAD := s.isHEAD, sawError := s.sawError }

theorem maybe_emb (E : H2) (n a : Nat) (p : List GoStr) (s : WState NetW) (c : Int) :
    Writer.maybeWriteHeader (h2RW E) (emb a p s) c =
      (emb a p (Writer.maybeWriteHeader (netRW false n) s c).1, (Writer.maybeWriteHeader (netRW false n) s c).2) := by
  simp only [Writer.maybeWriteHeader]
  rw [show (emb a p s).status = s.status from rfl]
  split
  · rfl
  · split
    · rfl
    · split <;> rfl

theorem header_emb (E : H2) (n a : Nat) (p : List GoStr) (raises : Bool) (s : WState NetW) (c : Int) :
    Writer.writeHeader (h2RW E) raises (emb a p s) c =
      (emb a p (Writer.writeHeader (netRW false n) raises s c).1, (Writer.writeHeader (netRW false n) raises s c).2) := by
  simp only [Writer.writeHeader]
  rw [show (emb a p s).status = s.status from rfl]
  split
  · rfl
  · split
    · rfl
    · split <;> rfl

theorem write_emb (E : H2) (n a : Nat) (p : List GoStr) (s : WState NetW) (d : List Byte) :
    Writer.write (h2RW E) (emb a p s) d = (emb a p (Writer.write (netRW false n) s d).1, (Writer.write (netRW false n) s d).2) := by
  simp only [Writer.write, maybe_emb E n]
  rcases Writer.maybeWriteHeader (netRW false n) s 200 with ⟨s', _ | q | _⟩
  · dsimp only
    rw [show (emb a p s').isHEAD = s'.isHEAD from rfl, show (emb a p s').status = s'.status from rfl]
    split
    · rfl
    · have e : (h2RW E).write (emb a p s').next d = ({ net := ((netRW false n).write s'.next d).1, asked := a, promised := p }, ((netRW false n).write s'.next d).2) := rfl
      rw [e]
      rcases (netRW false n).write s'.next d with ⟨w, ⟨k, e⟩ | q | _⟩
      · dsimp only
        by_cases hn : ¬ k ≥ 0
        · rw [if_pos hn, if_pos hn]; rfl
        · rw [if_neg hn, if_neg hn]
          by_cases he : e ≠ none
          · rw [if_pos he, if_pos he]; rfl
          · rw [if_neg he, if_neg he]; rfl
      · rfl
      · rfl
  · rfl
  · rfl

theorem readFrom_emb (E : H2) (n a : Nat) (p : List GoStr) (s : WState NetW) :
    Writer.readFrom (h2RW E) (emb a p s) = MachineP.mapRF (emb a p) (Writer.readFrom (netRW false n) s) := by
  simp only [Writer.readFrom, maybe_emb E n]
  rcases Writer.maybeWriteHeader (netRW false n) s 200 with ⟨s', _ | q | _⟩
  · dsimp only
    rw [show (emb a p s').isHEAD = s'.isHEAD from rfl, show (emb a p s').status = s'.status from rfl]
    split <;> rfl
  · rfl
  · rfl

theorem copies_emb (E : H2) (n a : Nat) (p : List GoStr) (raises : Bool) (kind : WKind) :
    MachineP.Copies (emb a p) (Writer.ops (netRW false n) raises kind) (Writer.ops (h2RW E) raises kind) where
  write := write_emb E n a p
  readFrom := readFrom_emb E n a p
  isReaderFrom := rfl

theorem setAll_h2 (E : H2) (n : Nat) (hdrs : List (GoStr × List GoStr)) : ∀ w : H2W,
    setAll (h2RW E) hdrs w = { w with net := setAll (netRW false n) hdrs w.net } := by
  induction hdrs with
  | nil => intro w; rfl
  | cons e hdrs ih =>
    intro w
    simp only [setAll, List.foldl_cons] at ih ⊢
    by_cases h : e.1 ≠ headerPush
    · simp only [if_pos h]; rw [ih]; rfl
    · simp only [if_neg h]; rw [ih]

theorem setAll_emb (E : H2) (n a : Nat) (p : List GoStr) (raises : Bool) (kind : WKind) (hdrs : List (GoStr × List GoStr)) (s : WState NetW) :
    setAll (Writer.ops (h2RW E) raises kind) hdrs (emb a p s) = emb a p (setAll (Writer.ops (netRW false n) raises kind) hdrs s) := by
  rw [through_setAll, through_setAll, setAll_h2 E n]
  rfl

/-- `Serve` through a Writer when no push fails. -/
theorem serve_ok (E : H2) (n : Nat) (raises : Bool) (kind : WKind) (B : BodyOps β) (fuel : Nat) (r : Resp β) (s : WState NetW)
    (h : AllOk E 0 (hdrGet r.hdrs headerPush)) :
    let x := serve (Writer.ops (netRW false n) raises kind) B fuel r s
    serve (Writer.ops (h2RW E) raises kind) B fuel r (emb 0 [] s) =
      (x.1, emb (hdrGet r.hdrs headerPush).length (Push.accepted E 0 (hdrGet r.hdrs headerPush)) x.2.1, x.2.2) := by
  generalize hu : hdrGet r.hdrs headerPush = urls at h
  have e1 : pushAll (Writer.ops (h2RW E) raises kind) urls (emb 0 [] s) = (emb urls.length (Push.accepted E 0 urls) s, none) := by
    rw [through_pushAll]
    have : (h2RW E).isPusher = true := rfl
    rw [if_pos this, pushAll_ok E urls _ h]
    simp [emb]
  have e2 : pushAll (Writer.ops (netRW false n) raises kind) urls s = (s, none) := by
    rw [through_pushAll, net_pushAll]
    simp
  dsimp only
  unfold serve
  have p1 : (Writer.ops (h2RW E) raises kind).isPusher = true := rfl
  have p2 : (Writer.ops (netRW false n) raises kind).isPusher = true := rfl
  rw [if_pos p1, if_pos p2, hu, e1, e2]
  dsimp only
  rw [setAll_emb E n]
  have e3 : ∀ s c, (Writer.ops (h2RW E) raises kind).writeHeader (emb urls.length (Push.accepted E 0 urls) s) c = 
      (emb urls.length (Push.accepted E 0 urls) ((Writer.ops (netRW false n) raises kind).writeHeader s c).1,
        ((Writer.ops (netRW false n) raises kind).writeHeader s c).2) := fun s c => header_emb E n _ _ raises s c
  rw [e3]
  rcases (Writer.ops (netRW false n) raises kind).writeHeader (setAll (Writer.ops (netRW false n) raises kind) r.hdrs s) r.code with ⟨w1, _ | q | _⟩
  · dsimp only
    rw [MachineP.ioCopy_map (copies_emb E n _ _ raises kind)]
    rcases ioCopy (Writer.ops (netRW false n) raises kind) B fuel r.body w1 with ⟨b, w2, ⟨k, e⟩ | q | _⟩
    · dsimp only
      rcases B.close b with ⟨b', e2 | q | _⟩ <;> rfl
    · rfl
    · rfl
  · rfl
  · rfl

theorem deferred_emb (E : H2) (n a : Nat) (p : List GoStr) (raises : Bool) (kind : WKind) (assertErr : Bool) (onPanic : PanicArg → Res Unit)
    (pv : Option Panic) (s : WState NetW) :
    deferred (Writer.wr (h2RW E) raises kind) assertErr onPanic pv (emb a p s) =
      (emb a p (deferred (Writer.wr (netRW false n) raises kind) assertErr onPanic pv s).1,
        (deferred (Writer.wr (netRW false n) raises kind) assertErr onPanic pv s).2) := by
  unfold deferred
  have e1 : (Writer.wr (h2RW E) raises kind).maybeWriteHeader (emb a p s) 500 =
      (emb a p ((Writer.wr (netRW false n) raises kind).maybeWriteHeader s 500).1, ((Writer.wr (netRW false n) raises kind).maybeWriteHeader s 500).2) :=
    maybe_emb E n a p s 500
  have e2 : (Writer.wr (h2RW E) raises kind).status (emb a p s) = (Writer.wr (netRW false n) raises kind).status s := rfl
  have e3 : (Writer.wr (h2RW E) raises kind).bytesWritten (emb a p s) = (Writer.wr (netRW false n) raises kind).bytesWritten s := rfl
  rw [e1, e2, e3]
  rcases (Writer.wr (netRW false n) raises kind).maybeWriteHeader s 500 with ⟨s', _ | q | _⟩
  · dsimp only
    split
    · rfl
    · cases pv <;> rfl
  · rfl
  · rfl

theorem adaptor_ok (E : H2) (n : Nat) (raises : Bool) (kind : WKind) (B : BodyOps β) (fuel : Nat) (assertErr : Bool) (onPanic : PanicArg → Res Unit)
    (r : Resp β) (s : WState NetW) (h : AllOk E 0 (hdrGet r.hdrs headerPush)) :
    let x := adaptor (Writer.wr (netRW false n) raises kind) B fuel assertErr onPanic (.resp r) s
    adaptor (Writer.wr (h2RW E) raises kind) B fuel assertErr onPanic (.resp r) (emb 0 [] s) =
      (emb (hdrGet r.hdrs headerPush).length (Push.accepted E 0 (hdrGet r.hdrs headerPush)) x.1, x.2) := by
  have hs := serve_ok E n raises kind B fuel r s h
  dsimp only at hs ⊢
  have hh : handle (Writer.wr (h2RW E) raises kind) B fuel (.resp r) (emb 0 [] s) =
      (emb (hdrGet r.hdrs headerPush).length (Push.accepted E 0 (hdrGet r.hdrs headerPush)) (handle (Writer.wr (netRW false n) raises kind) B fuel (.resp r) s).1,
        (handle (Writer.wr (netRW false n) raises kind) B fuel (.resp r) s).2) := by
    have t1 : (Writer.wr (h2RW E) raises kind).toRW = Writer.ops (h2RW E) raises kind := rfl
    have t2 : (Writer.wr (netRW false n) raises kind).toRW = Writer.ops (netRW false n) raises kind := rfl
    simp only [handle, t1, t2, hs]
    rcases serve (Writer.ops (netRW false n) raises kind) B fuel r s with ⟨b, w, (_ | e) | q | _⟩ <;> rfl
  unfold adaptor
  rw [hh]
  rcases handle (Writer.wr (netRW false n) raises kind) B fuel (.resp r) s with ⟨w, _ | q | _⟩
  · dsimp only
    rw [deferred_emb E n]
  · dsimp only
    rw [deferred_emb E n]
  · rfl

end PushP

open PushP

/-- **C85.** Over HTTP/2, if no push fails, then the client gets what it gets without pushes (so C64 applies), metrics and outcome are the same, and exactly
the targets that the connection has accepted are promised, in their order.  For every Response and Body. -/
theorem C85_sent (E : H2) (hs : E.scheme = lit "http" ∨ E.scheme = lit "https") (n : Nat) (raises isHEAD : Bool) (B : BodyOps β) (fuel : Nat)
    (assertErr : Bool) (onPanic : PanicArg → Res Unit) (r : Resp β) (h : Push.GoWell E (hdrGet r.hdrs (lit "Push"))) :
    let x := overH2 E raises isHEAD B fuel assertErr onPanic (.resp r)
    (x.1.net, x.2) = overNet false n raises isHEAD B fuel assertErr onPanic (.resp r) ∧ x.1.promised = Push.accepted E 0 (hdrGet r.hdrs (lit "Push")) := by
  have := adaptor_ok E n raises .flush B fuel assertErr onPanic r (Writer.init { isHEAD := isHEAD } isHEAD) ((goWell_iff E hs _).1 h)
  dsimp only at this ⊢
  have e : overH2 E raises isHEAD B fuel assertErr onPanic (.resp r) =
      (let x := adaptor (Writer.wr (h2RW E) raises .flush) B fuel assertErr onPanic (.resp r) (emb 0 [] (Writer.init { isHEAD := isHEAD } isHEAD)); (x.1.next, x.2)) := rfl
  rw [e, this]
  exact ⟨rfl, rfl⟩

/-- What a push fails with: the request is itself a pushed one, or the target may not be pushed, or it is the answer of the connection. -/
def Spec.Push.Reason (E : H2) (k : Nat) (t : GoStr) (e : Err) : Prop :=
  e ≠ .notSupported ∧
  ((E.isPushed = true ∧ e = errRecursivePush) ∨
   (E.isPushed = false ∧ ¬ Push.Pushable E.scheme E.authority t ∧ e ∈ [errParse, errNotAbsolute, errPushScheme, errNoHost]) ∨
   (E.isPushed = false ∧ Push.Pushable E.scheme E.authority t ∧ E.answer k = some e))

theorem fails_reason (E : H2) (hs : E.scheme = lit "http" ∨ E.scheme = lit "https") {k : Nat} {t : GoStr} {e : Err} (h : Fails E k t e) :
    Push.Reason E k t e := by
  rcases h with h | ⟨h1, h2, h3⟩
  · refine ⟨check_error E t e h, ?_⟩
    cases hp : E.isPushed with
    | true =>
      unfold H2.check at h
      rw [if_pos hp] at h
      exact .inl ⟨rfl, (Option.some.inj h).symm⟩
    | false =>
      refine .inr (.inl ⟨rfl, fun hx => ?_, ?_⟩)
      · rw [(check_iff E hs t).2 ⟨hp, hx⟩] at h; cases h
      · unfold H2.check at h
        rw [if_neg (by simp [hp])] at h
        repeat' split at h
        all_goals first
          | (have := Option.some.inj h; subst this; simp; done)
          | (cases h; done)
  · obtain ⟨a, b⟩ := (check_iff E hs t).1 h1
    exact ⟨h3, .inr (.inr ⟨a, b, h2⟩)⟩

/-- **C85.** If a push fails, then nothing of the Response is sent: the client gets an empty 500 without headers, the error of the first push that failed is
counted and reported as a panic, with the status "0" in the metrics; only what was accepted before is promised; and the Body is neither read nor closed. -/
theorem C85_refused (E : H2) (hs : E.scheme = lit "http" ∨ E.scheme = lit "https") (raises isHEAD : Bool) (B : BodyOps β) (fuel : Nat)
    (assertErr : Bool) (onPanic : PanicArg → Res Unit) (r : Resp β) (h : ¬ Push.GoWell E (hdrGet r.hdrs (lit "Push"))) :
    ∃ pre t post e, hdrGet r.hdrs (lit "Push") = pre ++ t :: post ∧ Push.GoWell E pre ∧ Push.Reason E pre.length t e ∧
      (let x := overH2 E raises isHEAD B fuel assertErr onPanic (.resp r)
       x.1.net = { isHEAD := isHEAD, status := 500 } ∧ x.1.promised = Push.accepted E 0 pre ∧
       x.2.1 = metricsOf (lit "0") 0 (some (.error e)) assertErr ∧ x.2.2 = onPanic (.itself (.error e))) ∧
      (serve (Writer.ops (h2RW E) raises .flush) B.record fuel { code := r.code, hdrs := r.hdrs, body := ⟨r.body, []⟩, err := r.err }
        (Writer.init { net := { isHEAD := isHEAD } } isHEAD)).1.log = [] := by
  obtain ⟨pre, t, post, e, a, g1, g2, g3, g4⟩ := pushAll_fails E (hdrGet r.hdrs headerPush) { net := { isHEAD := isHEAD } }
    (fun hx => h ((goWell_iff E hs _).2 hx))
  rw [Nat.zero_add] at g3
  have e0 : (h2RW E).isPusher = true := rfl
  have e1 : pushAll (Writer.ops (h2RW E) raises .flush) (hdrGet r.hdrs headerPush) (Writer.init { net := { isHEAD := isHEAD } } isHEAD) =
      (Writer.init { net := { isHEAD := isHEAD }, asked := a, promised := Push.accepted E 0 pre } isHEAD, some (.ret (some e))) := by
    rw [through_pushAll, if_pos e0]
    have : (Writer.init ({ net := { isHEAD := isHEAD } } : H2W) isHEAD).next = { net := { isHEAD := isHEAD } } := rfl
    rw [this, g4]
    simp [Writer.init]
  have e2 : ∀ {γ : Type} (B : BodyOps γ) (r' : Resp γ), r'.hdrs = r.hdrs → serve (Writer.ops (h2RW E) raises .flush) B fuel r' (Writer.init { net := { isHEAD := isHEAD } } isHEAD) =
      (r'.body, Writer.init { net := { isHEAD := isHEAD }, asked := a, promised := Push.accepted E 0 pre } isHEAD, .ret (some e)) := by
    intro γ B r' hr
    unfold serve
    have p1 : (Writer.ops (h2RW E) raises .flush).isPusher = true := rfl
    rw [if_pos p1, hr, e1]
  refine ⟨pre, t, post, e, g1, (goWell_iff E hs _).2 g2, fails_reason E hs g3, ?_, ?_⟩
  · have e3 : overH2 E raises isHEAD B fuel assertErr onPanic (.resp r) =
        (let x := adaptor (Writer.wr (h2RW E) raises .flush) B fuel assertErr onPanic (.resp r) (Writer.init { net := { isHEAD := isHEAD } } isHEAD); (x.1.next, x.2)) := rfl
    have e4 : handle (Writer.wr (h2RW E) raises .flush) B fuel (.resp r) (Writer.init { net := { isHEAD := isHEAD } } isHEAD) =
        (Writer.init { net := { isHEAD := isHEAD }, asked := a, promised := Push.accepted E 0 pre } isHEAD, .panic (.error e)) := by
      have t1 : (Writer.wr (h2RW E) raises .flush).toRW = Writer.ops (h2RW E) raises .flush := rfl
      simp only [handle, t1, e2 B r rfl]
    rw [e3]
    unfold adaptor
    rw [e4]
    refine ⟨rfl, rfl, ?_, ?_⟩ <;> rfl
  · rw [e2 B.record { code := r.code, hdrs := r.hdrs, body := ⟨r.body, []⟩, err := r.err } rfl]

/-- **C85.** Over HTTP/2 a Response arrives intact exactly if it has room (as over HTTP/1.1, C64) and no push fails. -/
theorem C85_iff (E : H2) (hs : E.scheme = lit "http" ∨ E.scheme = lit "https") {C : List Byte} {K : Nat} (hK : 32768 ≤ K) {B : BodyOps β}
    {P : β → List Byte → Prop} (hB : Lively B P K) (hQ : Quits B P) (raises isHEAD : Bool) (fuel : Nat) (hf : C.length < fuel) (assertErr : Bool)
    (onPanic : PanicArg → Res Unit) (r : Resp β) (hP : P r.body C) (h1 : 200 ≤ r.code) (h2 : r.code ≤ 999) (hnd : (r.hdrs.map Prod.fst).Nodup) :
    let x := overH2 E raises isHEAD B fuel assertErr onPanic (.resp r)
    Intact (x.1.net, x.2) isHEAD r.code C ↔ HasRoom isHEAD r.code (declaredLength r.hdrs) C ∧ Push.GoWell E (hdrGet r.hdrs (lit "Push")) := by
  dsimp only
  by_cases h : Push.GoWell E (hdrGet r.hdrs (lit "Push"))
  · rw [(C85_sent E hs (C.length + 1) raises isHEAD B fuel assertErr onPanic r h).1,
      C64_iff hK hB hQ false (C.length + 1) (Nat.lt_succ_self _) raises isHEAD fuel hf assertErr onPanic r hP h1 h2 hnd]
    exact ⟨fun g => ⟨g, h⟩, fun g => g.1⟩
  · refine ⟨fun g => ?_, fun g => absurd g.2 h⟩
    obtain ⟨pre, t, post, e, -, -, -, ⟨-, -, hm, -⟩, -⟩ := C85_refused E hs raises isHEAD B fuel assertErr onPanic r h
    have := g.calm
    dsimp only at this
    rw [hm, (metricsOf_facts _ _ _ _).2.2.2.1] at this
    simp at this

/-- **C85.** `Push` asks the connection about exactly the targets that may be pushed, unless the request is itself a pushed one; other targets are
refused whether or not the client wants pushes. -/
theorem C85_targets (E : H2) (hs : E.scheme = lit "http" ∨ E.scheme = lit "https") (w : H2W) (t : GoStr) :
    (E.isPushed = false ∧ Push.Pushable E.scheme E.authority t → (w.push E t).2 = .ret (E.answer w.asked) ∧ (w.push E t).1.asked = w.asked + 1) ∧
    (¬ (E.isPushed = false ∧ Push.Pushable E.scheme E.authority t) → (w.push E t).1 = w ∧ ∃ e, (w.push E t).2 = .ret (some e) ∧ e ≠ .notSupported) := by
  refine ⟨fun h => ?_, fun h => ?_⟩
  · have := (check_iff E hs t).2 h
    simp [H2W.push, this]
  · cases hc : E.check t with
    | none => exact absurd ((check_iff E hs t).1 hc) h
    | some e => exact ⟨by simp [H2W.push, hc], e, by simp [H2W.push, hc], check_error E t e hc⟩

/-- **C85.** A relative path may not be pushed. -/
theorem C85_relative (scheme : GoStr) (authority : GoStr → Option GoStr) (t : GoStr) (h1 : t.head? ≠ some 47) (h2 : 58 ∉ t) :
    ¬ Push.Pushable scheme authority t := by
  rintro ⟨place, query, frag, rfl, -, -, hp, -⟩
  have hh : place.head? = some 47 → False := by
    intro h
    apply h1
    cases place with
    | nil => simp at h
    | cons c p => simpa using h
  rcases hp with hp | ⟨auth, path, rfl, -⟩ | ⟨sch, auth, path, host, rfl, -⟩
  · exact hh hp.absolute
  · exact hh rfl
  · apply h2
    have : (58 : Byte) ∈ lit "://" := by decide
    simp only [List.mem_append]
    exact .inl (.inl (.inl (.inr this)))

/-- **C85.** A Response that pushes, served for a request that is itself a pushed one, is never sent. -/
theorem C85_recursive (E : H2) (hp : E.isPushed = true) (urls : List GoStr) (h : urls ≠ []) : ¬ Push.GoWell E urls := by
  rintro ⟨h1, -⟩
  rw [h1 h] at hp
  cases hp

/-! ## Examples -/

/-- A client of HTTPS that takes two pushes and no more. -/
def exH2 : H2 where
  isPushed := false
  scheme := lit "https"
  authority a := some a
  answer k := if k < 2 then none else some (.ext 40)

/-- A client that wants no pushes. -/
def exNoPush : H2 where
  isPushed := false
  scheme := lit "https"
  authority a := some a
  answer _ := some .notSupported

def exPushing (urls : List GoStr) : Resp MemFam := { code := 200, hdrs := [(lit "Push", urls)], body := fromBytes (lit "hello") }

example : (overH2 exH2 true false (BodyOps.ofFam MemFam.step true 0) 10 true (fun _ => .ret ())
    (.resp (exPushing [lit "/a.css?v=1", lit "HTTPS://example/b%20c.js"]))) =
    ({ net := { isHEAD := false, status := 200, written := 5, body := lit "hello" }, asked := 2, promised := [lit "/a.css?v=1", lit "HTTPS://example/b%20c.js"] },
      metricsOf (lit "200") 5 none true, .ret ()) := by decide +kernel

/-- Three are too many: nothing is sent but what was promised. -/
example : (overH2 exH2 true false (BodyOps.ofFam MemFam.step true 0) 10 true (fun _ => .ret ()) (.resp (exPushing [lit "/a", lit "/b", lit "/c"]))) =
    ({ net := { isHEAD := false, status := 500 }, asked := 3, promised := [lit "/a", lit "/b"] }, metricsOf (lit "0") 0 (some (.error (.ext 40))) true,
      .ret ()) := by decide +kernel

/-- The same Response with a relative path, to a client of HTTP/2 that wants no pushes, and over HTTP/1.1. -/
example : (overH2 exNoPush true false (BodyOps.ofFam MemFam.step true 0) 10 true (fun _ => .ret ()) (.resp (exPushing [lit "a.css"]))).1.net =
    { isHEAD := false, status := 500 } := by decide +kernel
example : (overNet true 10 true false (BodyOps.ofFam MemFam.step true 0) 10 true (fun _ => .ret ()) (.resp (exPushing [lit "a.css"]))).1 =
    { isHEAD := false, status := 200, written := 5, body := lit "hello" } := by decide +kernel

example : Push.Pushable (lit "https") some (lit "/a.css?v=1") := ((check_iff exH2 (.inr rfl) _).1 (by decide +kernel)).2
example : Push.Pushable (lit "https") some (lit "HTTPS://example/b%20c.js#top") := ((check_iff exH2 (.inr rfl) _).1 (by decide +kernel)).2
/-- `//host/path` is pushed, too. -/
example : Push.Pushable (lit "https") some (lit "//elsewhere/c") := ((check_iff exH2 (.inr rfl) _).1 (by decide +kernel)).2
example : ¬ Push.Pushable (lit "https") some (lit "http://example/c") := fun h => by
  have := (check_iff exH2 (.inr rfl) (lit "http://example/c")).2 ⟨rfl, h⟩
  cases (show exH2.check (lit "http://example/c") = some errPushScheme by decide +kernel) ▸ this
example : exH2.check (lit "/a%2") = some errParse ∧ exH2.check (lit "https:///a") = some errNoHost ∧ exH2.check (lit "a:b") = some errPushScheme ∧
    exH2.check (lit ":b") = some errParse ∧ exH2.check (lit "1:b") = some errParse ∧ exH2.check (lit "*") = some errNotAbsolute ∧
    exH2.check (lit "///a") = none := by refine ⟨?_, ?_, ?_, ?_, ?_, ?_, ?_⟩ <;> decide +kernel
/-- Which error: another scheme, or none. -/
example : exH2.check (lit "aAzZ09+-.:b") = some errPushScheme ∧ exH2.check (lit "a_:b") = some errParse := by constructor <;> decide +kernel
/-- HTTP/2 has neither `ReadFrom` nor `Hijack`. -/
example : (h2RW exH2).isReaderFrom = false ∧ (h2RW exH2).isHijacker = false ∧ (h2RW exH2).isFlusher = true ∧ (h2RW exH2).isPusher = true := ⟨rfl, rfl, rfl, rfl⟩
example : Push.GoWell exH2 [lit "/a", lit "/b"] ∧ ¬ Push.GoWell exH2 [lit "/a", lit "/b", lit "/c"] := by
  rw [goWell_iff _ (.inr rfl), goWell_iff _ (.inr rfl)]
  refine ⟨⟨⟨by decide +kernel, .inl rfl⟩, ⟨by decide +kernel, .inl rfl⟩, trivial⟩, ?_⟩
  rintro ⟨-, -, ⟨-, h | h⟩, -⟩ <;> simp [exH2] at h
example : ¬ Push.GoWell { exH2 with isPushed := true } [lit "/a"] := C85_recursive _ rfl _ (by simp)

end Verif
