import Verif.Proofs.Adaptor
import Verif.Spec.Metrics
import Verif.Props.Writer
import Verif.Props.Serve

/-!
# Properties of the Adaptor: C41 (one status, counted once), C42 (panics), C43 (labels)

The client's ResponseWriter `N`, the Body `B`, what the handler does (`h`) and `OnPanic` are arbitrary; `N.record` is `N`
keeping a log.
-/

set_option autoImplicit false

namespace Verif
open Spec
variable {β ω : Type}

/-- How the handling without the deferred function ended: `none`: returned (or `panic(nil)`, which `recover` does not see). -/
def handleRecovered (W : Wr ω) (B : BodyOps β) (fuel : Nat) (h : Handled β) (w : ω) : Option Panic :=
  match (handle W B fuel h w).2 with
  | .panic p => p.recovered
  | _ => none

theorem handle_inv (N : RW ω) (raises : Bool) (kind : WKind) (B : BodyOps β) (fuel : Nat) (h : Handled β)
    (s : WState (Logged WEv ω)) (hs : WInvariant s) : WInvariant (handle (Writer.wr N.record raises kind) B fuel h s).1 := by
  cases h with
  | panic p => exact hs
  | hang => exact hs
  | resp r =>
    have := (writer_serve N raises kind B fuel r s hs).1
    have e : (Writer.wr N.record raises kind).toRW = Writer.ops N.record raises kind := rfl
    simp only [handle, e]
    rcases hq : serve (Writer.ops N.record raises kind) B fuel r s with ⟨b, s', o⟩
    rw [hq] at this
    rcases o with o | p | _
    · cases o <;> exact this
    · exact this
    · exact this

/-- The metrics of one request. -/
def metricsOf (code : GoStr) (n : Int) (pv : Option Panic) (assertErr : Bool) : List MEv :=
  (if pv ≠ none then [.panicsTotal] else []) ++
    [.requestsTotal code, .latencyTotal code, .recvBytesTotal code 0, .sendBytesTotal code n, .latencyHist, .recvBytesHist 0,
      .sendBytesHist n] ++
    (match pv with
      | none => []
      | some p => [.onPanic (if p.isErr assertErr then .itself p else .panicError p)])

theorem accepted_nonneg (l : List WEv) : 0 ≤ accepted l := by
  induction l with
  | nil => simp [accepted]
  | cons e l ih =>
    cases e with
    | write d r =>
      cases r with
      | ret a =>
        obtain ⟨n, e⟩ := a
        simp only [accepted]
        split <;> omega
      | panic p => simpa [accepted] using ih
      | hang => simpa [accepted] using ih
    | readFromDone n e =>
      simp only [accepted]
      split <;> omega
    | _ => simpa [accepted] using ih

/-- Everything about a call of the Adaptor with a Writer of this package. -/
theorem adaptor_spec (N : RW ω) (raises : Bool) (kind : WKind) (B : BodyOps β) (fuel : Nat) (assertErr : Bool)
    (onPanic : PanicArg → Res Unit) (h : Handled β) (s : WState (Logged WEv ω)) (hs : WInvariant s) :
    let x := adaptor (Writer.wr N.record raises kind) B fuel assertErr onPanic h s
    let y := handle (Writer.wr N.record raises kind) B fuel h s
    let pv := handleRecovered (Writer.wr N.record raises kind) B fuel h s
    WInvariant x.1 ∧
    ((x.2.1 = [] ∧ x.2.2 ≠ .ret () ∧ (y.2 = .hang ∧ x.2.2 = .hang ∨ ∃ w, (N.writeHeader w 500).2 = x.2.2)) ∨
     (x.1.status = (if y.1.status = 0 then 500 else y.1.status) ∧ x.1.status ≠ 0 ∧ y.2 ≠ .hang ∧
      x.2.1 = metricsOf (itoa y.1.status) (accepted x.1.next.log) pv assertErr ∧
      (∃ ext, x.1.next.log = y.1.next.log ++ ext ∧ (ext = [] ∨ ext = [.status 500])) ∧
      x.2.2 = match pv with
        | none => if y.2 = .panic .goexit then .panic .goexit else .ret ()
        | some p => onPanic (if p.isErr assertErr then .itself p else .panicError p))) := by
  have hi := handle_inv N raises kind B fuel h s hs
  simp only [adaptor, handleRecovered]
  rcases hq : handle (Writer.wr N.record raises kind) B fuel h s with ⟨s', o⟩
  rw [hq] at hi
  dsimp only at hi
  have main : ∀ pv : Option Panic, let x := deferred (Writer.wr N.record raises kind) assertErr onPanic pv s'
    WInvariant x.1 ∧
    ((x.2.1 = [] ∧ x.2.2 ≠ .ret () ∧ ∃ w, (N.writeHeader w 500).2 = x.2.2) ∨
     (x.1.status = (if s'.status = 0 then 500 else s'.status) ∧ x.1.status ≠ 0 ∧
      x.2.1 = metricsOf (itoa s'.status) (accepted x.1.next.log) pv assertErr ∧
      (∃ ext, x.1.next.log = s'.next.log ++ ext ∧ (ext = [] ∨ ext = [.status 500])) ∧
      x.2.2 = match pv with
        | none => .ret ()
        | some p => onPanic (if p.isErr assertErr then .itself p else .panicError p))) := by
    intro pv
    obtain ⟨m1, m2, m3, m4, ⟨ext, m5, m6⟩, m7⟩ := maybe_spec N s' hi 500
    have m8 : (Writer.maybeWriteHeader N.record s' 500).2 ≠ .ret () →
        ∃ w, (N.writeHeader w 500).2 = (Writer.maybeWriteHeader N.record s' 500).2 := by
      unfold Writer.maybeWriteHeader
      simp only [ge_iff_le, Int.reduceLE, not_true_eq_false, if_false]
      split
      · simp
      · intro _
        exact ⟨s'.next.inner, rfl⟩
    simp only [deferred]
    have e : (Writer.wr N.record raises kind).maybeWriteHeader s' 500 = Writer.maybeWriteHeader N.record s' 500 := rfl
    have eb : (Writer.wr N.record raises kind).bytesWritten s' = s'.bytes := rfl
    have es : (Writer.wr N.record raises kind).status s' = s'.status := rfl
    rw [e, eb, es]
    rcases hm : Writer.maybeWriteHeader N.record s' 500 with ⟨s2, r⟩
    rw [hm] at m1 m2 m3 m4 m5 m7 m8
    dsimp only at m1 m2 m3 m4 m5 m7 m8
    cases r with
    | panic p => exact ⟨m1, .inl ⟨rfl, by simp, m8 (by simp)⟩⟩
    | hang => exact ⟨m1, .inl ⟨rfl, by simp, m8 (by simp)⟩⟩
    | ret u =>
      have hb : s'.bytes = accepted s2.next.log := by rw [← m4, m1.bytes]
      have hn : ¬ s'.bytes < 0 := by rw [hb]; have := accepted_nonneg s2.next.log; omega
      simp only
      rw [if_neg hn]
      obtain ⟨m71, m72⟩ := m7 rfl
      cases pv with
      | none => exact ⟨m1, .inr ⟨m72, m71, by simp [metricsOf, hb], ⟨ext, m5, m6⟩, rfl⟩⟩
      | some p => exact ⟨m1, .inr ⟨m72, m71, by simp [metricsOf, hb], ⟨ext, m5, m6⟩, rfl⟩⟩
  cases o with
  | hang => exact ⟨hi, .inl ⟨rfl, by simp, .inl ⟨rfl, rfl⟩⟩⟩
  | ret u =>
    obtain ⟨a1, a2⟩ := main none
    refine ⟨a1, ?_⟩
    rcases a2 with ⟨b1, b2, b3⟩ | ⟨b1, b2, b3⟩
    · exact .inl ⟨b1, b2, .inr b3⟩
    · exact .inr ⟨b1, b2, by simp, by simpa using b3⟩
  | panic p =>
    obtain ⟨a1, a2⟩ := main p.recovered
    refine ⟨a1, ?_⟩
    rcases a2 with ⟨b1, b2, b3⟩ | ⟨b1, b2, b3, b4, b5⟩
    · have e : (if p = .goexit then exiting (deferred (Writer.wr N.record raises kind) assertErr onPanic p.recovered s').2.2
          else (deferred (Writer.wr N.record raises kind) assertErr onPanic p.recovered s').2.2) =
          (deferred (Writer.wr N.record raises kind) assertErr onPanic p.recovered s').2.2 := by
        split
        · revert b2; generalize (deferred (Writer.wr N.record raises kind) assertErr onPanic p.recovered s').2.2 = o
          rcases o with ⟨⟩ | _ | _
          · intro h; exact absurd rfl h
          · exact fun _ => rfl
          · exact fun _ => rfl
        · rfl
      dsimp only
      rw [e]
      exact .inl ⟨b1, b2, .inr b3⟩
    · refine .inr ⟨b1, b2, by simp, b3, b4, ?_⟩
      dsimp only
      rw [b5]
      cases p <;> simp [Panic.recovered, exiting]

theorem exiting_ne (o : Res Unit) : exiting o ≠ .ret () := by
  rcases o with ⟨⟩ | _ | _ <;> simp [exiting]

/-- If the Adaptor returns, nothing ended the goroutine. -/
theorem adaptor_ret {W : Wr ω} {B : BodyOps β} {fuel : Nat} {assertErr : Bool} {onPanic : PanicArg → Res Unit} {h : Handled β} {w : ω}
    (hr : (adaptor W B fuel assertErr onPanic h w).2.2 = .ret ()) : (handle W B fuel h w).2 ≠ .panic .goexit := by
  intro e
  unfold adaptor at hr
  rcases hq : handle W B fuel h w with ⟨w', o⟩
  rw [hq] at e hr
  dsimp only at e
  subst e
  exact exiting_ne _ (by simpa using hr)

theorem metricsOf_facts (code : GoStr) (n : Int) (pv : Option Panic) (a : Bool) :
    requestsCounted (metricsOf code n pv a) = [code] ∧ sendCounted (metricsOf code n pv a) = [(code, n)] ∧
    sendObserved (metricsOf code n pv a) = [n] ∧ panicsCounted (metricsOf code n pv a) = (if pv = none then 0 else 1) ∧
    panicsReported (metricsOf code n pv a) = (match pv with
      | none => []
      | some p => [if p.isErr a then .itself p else .panicError p]) ∧
    (∀ l ∈ labels (metricsOf code n pv a), l = code) ∧ labels (metricsOf code n pv a) ≠ [] := by
  cases pv with
  | none => simp [metricsOf, requestsCounted, sendCounted, sendObserved, panicsCounted, panicsReported, labels]
  | some p => simp [metricsOf, requestsCounted, sendCounted, sendObserved, panicsCounted, panicsReported, labels]

/-- A request handled by the Adaptor: the log of the client's ResponseWriter, the metrics, and how the call ended. -/
def request (N : RW ω) (raises isHEAD : Bool) (B : BodyOps β) (fuel : Nat) (assertErr : Bool) (onPanic : PanicArg → Res Unit)
    (h : Handled β) (w : ω) : List WEv × List MEv × Res Unit :=
  let x := serveHTTP raises isHEAD (.plain N.record) B fuel assertErr onPanic h ⟨w, []⟩
  (x.1.log, x.2)

theorem request_eq (N : RW ω) (raises isHEAD : Bool) (B : BodyOps β) (fuel : Nat) (assertErr : Bool)
    (onPanic : PanicArg → Res Unit) (h : Handled β) (w : ω) :
    request N raises isHEAD B fuel assertErr onPanic h w =
      let x := adaptor (Writer.wr N.record raises (Writer.kindFor N.record)) B fuel assertErr onPanic h (Writer.init ⟨w, []⟩ isHEAD)
      (x.1.next.log, x.2) := rfl

/-! ## C41 -/

/-- **C41.** If `OnPanic` and the client's `WriteHeader(500)` return, then `ServeHTTP` returns normally, whatever the handler,
the Body and the rest of the ResponseWriter do — unless they do not come to an end, or end the goroutine (`C73`). -/
theorem C41_returns (N : RW ω) (raises isHEAD : Bool) (B : BodyOps β) (fuel : Nat) (assertErr : Bool)
    (onPanic : PanicArg → Res Unit) (h : Handled β) (w : ω) (hN : ∀ w, (N.writeHeader w 500).2 = .ret ())
    (hO : ∀ a, onPanic a = .ret ()) (hh : (request N raises isHEAD B fuel assertErr onPanic h w).2.2 ≠ .hang)
    (hg : (request N raises isHEAD B fuel assertErr onPanic h w).2.2 ≠ .panic .goexit) :
    (request N raises isHEAD B fuel assertErr onPanic h w).2.2 = .ret () := by
  rw [request_eq] at hh hg ⊢
  obtain ⟨-, h1 | h1⟩ := adaptor_spec N raises (Writer.kindFor N.record) B fuel assertErr onPanic h _ (winvariant_init w isHEAD)
  · obtain ⟨-, h2, h3 | ⟨w', h3⟩⟩ := h1
    · exact absurd h3.2 hh
    · rw [hN] at h3; exact absurd h3.symm h2
  · obtain ⟨-, -, -, -, -, h2⟩ := h1
    dsimp only at hg ⊢
    rw [h2] at hg ⊢
    split
    · rename_i e
      rw [e] at hg
      dsimp only at hg
      split
      · rename_i e'; rw [if_pos e'] at hg; exact absurd rfl hg
      · rfl
    · exact hO _

/-- **C41.** When `ServeHTTP` returns, the client has received exactly one status, before anything else was sent. -/
theorem C41_one_status (N : RW ω) (raises isHEAD : Bool) (B : BodyOps β) (fuel : Nat) (assertErr : Bool)
    (onPanic : PanicArg → Res Unit) (h : Handled β) (w : ω)
    (hr : (request N raises isHEAD B fuel assertErr onPanic h w).2.2 = .ret ()) :
    StatusFirst (request N raises isHEAD B fuel assertErr onPanic h w).1 ∧
    ∃ c, statuses (request N raises isHEAD B fuel assertErr onPanic h w).1 = [c] ∧ 100 ≤ c ∧ c ≤ 999 := by
  rw [request_eq] at hr ⊢
  obtain ⟨h0, h1 | h1⟩ := adaptor_spec N raises (Writer.kindFor N.record) B fuel assertErr onPanic h _ (winvariant_init w isHEAD)
  · exact absurd hr h1.2.1
  · rcases h0.status with h | h
    · exact absurd h.1 h1.2.1
    · exact ⟨h0.first, _, h.2.2, h.1, h.2.1⟩

/-- **C41.** When `ServeHTTP` returns, the request has been counted exactly once, and the send-bytes metrics have grown by
exactly the number of bytes the client's ResponseWriter said it accepted. -/
theorem C41_counted_once (N : RW ω) (raises isHEAD : Bool) (B : BodyOps β) (fuel : Nat) (assertErr : Bool)
    (onPanic : PanicArg → Res Unit) (h : Handled β) (w : ω)
    (hr : (request N raises isHEAD B fuel assertErr onPanic h w).2.2 = .ret ()) :
    ∃ code, requestsCounted (request N raises isHEAD B fuel assertErr onPanic h w).2.1 = [code] ∧
      sendCounted (request N raises isHEAD B fuel assertErr onPanic h w).2.1 =
        [(code, accepted (request N raises isHEAD B fuel assertErr onPanic h w).1)] ∧
      sendObserved (request N raises isHEAD B fuel assertErr onPanic h w).2.1 =
        [accepted (request N raises isHEAD B fuel assertErr onPanic h w).1] := by
  rw [request_eq] at hr ⊢
  obtain ⟨h0, h1 | h1⟩ := adaptor_spec N raises (Writer.kindFor N.record) B fuel assertErr onPanic h _ (winvariant_init w isHEAD)
  · exact absurd hr h1.2.1
  · obtain ⟨-, -, -, h2, -⟩ := h1
    dsimp only
    rw [h2]
    obtain ⟨f1, f2, f3, -⟩ := metricsOf_facts (itoa (handle (Writer.wr N.record raises (Writer.kindFor N.record)) B fuel h
      (Writer.init ⟨w, []⟩ isHEAD)).1.status) (accepted (adaptor (Writer.wr N.record raises (Writer.kindFor N.record)) B fuel
      assertErr onPanic h (Writer.init ⟨w, []⟩ isHEAD)).1.next.log) (handleRecovered (Writer.wr N.record raises
      (Writer.kindFor N.record)) B fuel h (Writer.init ⟨w, []⟩ isHEAD)) assertErr
    exact ⟨_, f1, f2, f3⟩

/-- **C41**, for an Adaptor that is given a Writer which some other handler has already used (`ops`): when it returns, the
client has received exactly one status in all, and this request has been counted once, with all bytes written so far. -/
theorem C41_nested (N : RW ω) (raises isHEAD raises' isHEAD' : Bool) (kind : WKind) (B : BodyOps β) (fuel : Nat) (assertErr : Bool)
    (onPanic : PanicArg → Res Unit) (h : Handled β) (w : ω) (ops : List WOp) :
    let x := serveHTTP raises' isHEAD' (.writer (Writer.wr N.record raises kind)) B fuel assertErr onPanic h
      (Writer.after N raises kind fuel w isHEAD ops)
    x.2.2 = .ret () → (∃ c, statuses x.1.next.log = [c]) ∧
      ∃ code, requestsCounted x.2.1 = [code] ∧ sendCounted x.2.1 = [(code, accepted x.1.next.log)] := by
  intro x hr
  have e : x = adaptor (Writer.wr N.record raises kind) B fuel assertErr onPanic h
      (Writer.after N raises kind fuel w isHEAD ops) := rfl
  obtain ⟨h0, h1 | h1⟩ := adaptor_spec N raises kind B fuel assertErr onPanic h _ (writer_after_inv N raises kind fuel w isHEAD ops)
  · rw [e] at hr; exact absurd hr h1.2.1
  · obtain ⟨-, hne, -, h2, -⟩ := h1
    rw [← e] at h0 hne h2
    refine ⟨?_, ?_⟩
    · rcases h0.status with h | h
      · exact absurd h.1 hne
      · exact ⟨_, h.2.2⟩
    · rw [h2]
      exact ⟨_, (metricsOf_facts _ _ _ _).1, (metricsOf_facts _ _ _ _).2.1⟩

example : request exRW false false (BodyOps.ofFam MemFam.step true 0) 5 true (fun _ => .ret ()) (.resp exResp) () =
    ([.push (lit "/p") (.ret none), .set (lit "A") [lit "x"], .set (lit "B") [], .status 404, .write [104, 105] (.ret (2, none))],
     [.requestsTotal (lit "404"), .latencyTotal (lit "404"), .recvBytesTotal (lit "404") 0, .sendBytesTotal (lit "404") 2,
      .latencyHist, .recvBytesHist 0, .sendBytesHist 2], .ret ()) := by decide +kernel
example : ∀ w, (exRW.writeHeader w 500).2 = .ret () := fun _ => rfl

/-! ## C42 -/

theorem isErr_iff (a : Bool) (p : Panic) : p.isErr a = true ↔ IsErrorValue a p := by
  constructor
  · intro h
    cases p <;> simp only [Panic.isErr] at h <;> first | cases h; done | (constructor; exact h) | constructor
  · intro h
    cases h <;> first | rfl | assumption

theorem reportedAs (a : Bool) (p : Panic) : ReportedAs a p (if p.isErr a then .itself p else .panicError p) := by
  by_cases h : p.isErr a = true
  · exact .inl ⟨(isErr_iff a p).1 h, by simp [h]⟩
  · exact .inr ⟨fun h' => h ((isErr_iff a p).2 h'), by simp [h]⟩

example : IsErrorValue false .bounds ∧ IsErrorValue false .nilDeref ∧ ¬ IsErrorValue true (.value 3) ∧ IsErrorValue true .badArg ∧
    ¬ IsErrorValue false .badArg :=
  ⟨.bounds, .nilDeref, by rintro ⟨⟩, .badArg rfl, by rintro ⟨⟩; contradiction⟩

/-- **C42.** A handler that panics with a non-nil value is counted once and reported once: with the value itself if it is an
error, otherwise wrapped in a PanicError. -/
theorem C42_handler_panics (N : RW ω) (raises isHEAD : Bool) (B : BodyOps β) (fuel : Nat) (assertErr : Bool)
    (onPanic : PanicArg → Res Unit) (p : Panic) (hp : p ≠ .nilValue) (w : ω)
    (hr : (request N raises isHEAD B fuel assertErr onPanic (.panic p) w).2.2 = .ret ()) :
    panicsCounted (request N raises isHEAD B fuel assertErr onPanic (.panic p) w).2.1 = 1 ∧
    ∃ a, ReportedAs assertErr p a ∧ panicsReported (request N raises isHEAD B fuel assertErr onPanic (.panic p) w).2.1 = [a] := by
  rw [request_eq] at hr ⊢
  obtain ⟨h0, h1 | h1⟩ := adaptor_spec N raises (Writer.kindFor N.record) B fuel assertErr onPanic (.panic p) _ (winvariant_init w isHEAD)
  · exact absurd hr h1.2.1
  · obtain ⟨-, -, -, h2, -⟩ := h1
    dsimp only
    rw [h2]
    have e : handleRecovered (Writer.wr N.record raises (Writer.kindFor N.record)) B fuel (.panic p) (Writer.init ⟨w, []⟩ isHEAD) =
        some p := by
      have hg := adaptor_ret hr
      cases p <;> simp [handleRecovered, handle, Panic.recovered] at hp hg ⊢
    rw [e]
    obtain ⟨-, -, -, f4, f5, -⟩ := metricsOf_facts (itoa (handle (Writer.wr N.record raises (Writer.kindFor N.record)) B fuel (.panic p)
      (Writer.init ⟨w, []⟩ isHEAD)).1.status) (accepted (adaptor (Writer.wr N.record raises (Writer.kindFor N.record)) B fuel
      assertErr onPanic (.panic p) (Writer.init ⟨w, []⟩ isHEAD)).1.next.log) (some p) assertErr
    exact ⟨by simpa using f4, _, reportedAs assertErr p, f5⟩

/-- **C42.** For a handler that returns a Response: the request is counted as a panic, and reported, iff serving the Response
(by `Serve` on the Writer) fails: with the error it returned, or with the (non-nil) panic value. -/
theorem C42_response (N : RW ω) (raises isHEAD : Bool) (B : BodyOps β) (fuel : Nat) (assertErr : Bool)
    (onPanic : PanicArg → Res Unit) (r : Resp β) (w : ω)
    (hr : (request N raises isHEAD B fuel assertErr onPanic (.resp r) w).2.2 = .ret ()) :
    let outcome := (serve (Writer.ops N.record raises (Writer.kindFor N.record)) B fuel r (Writer.init ⟨w, []⟩ isHEAD)).2.2
    let ev := (request N raises isHEAD B fuel assertErr onPanic (.resp r) w).2.1
    ((outcome = .ret none ∨ outcome = .panic .nilValue) ∧ panicsCounted ev = 0 ∧ panicsReported ev = []) ∨
    (∃ e, outcome = .ret (some e) ∧ panicsCounted ev = 1 ∧ panicsReported ev = [.itself (.error e)]) ∨
    (∃ p a, outcome = .panic p ∧ p ≠ .nilValue ∧ panicsCounted ev = 1 ∧ ReportedAs assertErr p a ∧ panicsReported ev = [a]) := by
  rw [request_eq] at hr ⊢
  obtain ⟨h0, h1 | h1⟩ := adaptor_spec N raises (Writer.kindFor N.record) B fuel assertErr onPanic (.resp r) _ (winvariant_init w isHEAD)
  · exact absurd hr h1.2.1
  · obtain ⟨-, -, hh, h2, -⟩ := h1
    dsimp only at h2 hh ⊢
    rw [h2]
    generalize itoa _ = code
    generalize accepted _ = n
    have et : (Writer.wr N.record raises (Writer.kindFor N.record)).toRW =
      Writer.ops N.record raises (Writer.kindFor N.record) := rfl
    simp only [handleRecovered, handle, et] at hh ⊢
    rcases hq : serve (Writer.ops N.record raises (Writer.kindFor N.record)) B fuel r (Writer.init ⟨w, []⟩ isHEAD) with ⟨b, s', o⟩
    rw [hq] at hh
    rcases o with o | p | _
    · cases o with
      | none =>
        left
        exact ⟨.inl rfl, (metricsOf_facts code n none assertErr).2.2.2.1, (metricsOf_facts code n none assertErr).2.2.2.2.1⟩
      | some e =>
        right; left
        refine ⟨e, rfl, ?_, ?_⟩
        · simpa [Panic.recovered] using (metricsOf_facts code n (some (.error e)) assertErr).2.2.2.1
        · exact (metricsOf_facts code n (some (.error e)) assertErr).2.2.2.2.1
    · by_cases hp : p = .nilValue
      · subst hp
        left
        exact ⟨.inr rfl, (metricsOf_facts code n none assertErr).2.2.2.1, (metricsOf_facts code n none assertErr).2.2.2.2.1⟩
      · right; right
        have hg := adaptor_ret hr
        simp only [handle, et, hq] at hg
        have e : p.recovered = some p := by cases p <;> simp [Panic.recovered] at hp hg ⊢
        refine ⟨p, _, rfl, hp, ?_, reportedAs assertErr p, ?_⟩
        · simpa [e] using (metricsOf_facts code n (some p) assertErr).2.2.2.1
        · simp only [e]
          exact (metricsOf_facts code n (some p) assertErr).2.2.2.2.1
    · simp at hh

/-- **C42.** `panic(nil)` in the handler is not counted and not reported (and the client gets 500). -/
theorem C42_panic_nil (N : RW ω) (raises isHEAD : Bool) (B : BodyOps β) (fuel : Nat) (assertErr : Bool)
    (onPanic : PanicArg → Res Unit) (w : ω)
    (hr : (request N raises isHEAD B fuel assertErr onPanic (.panic .nilValue) w).2.2 = .ret ()) :
    panicsCounted (request N raises isHEAD B fuel assertErr onPanic (.panic .nilValue) w).2.1 = 0 ∧
    panicsReported (request N raises isHEAD B fuel assertErr onPanic (.panic .nilValue) w).2.1 = [] ∧
    statuses (request N raises isHEAD B fuel assertErr onPanic (.panic .nilValue) w).1 = [500] := by
  rw [request_eq] at hr ⊢
  obtain ⟨h0, h1 | h1⟩ := adaptor_spec N raises (Writer.kindFor N.record) B fuel assertErr onPanic (.panic .nilValue) _ (winvariant_init w isHEAD)
  · exact absurd hr h1.2.1
  · obtain ⟨hs, hn, -, h2, -⟩ := h1
    dsimp only
    rw [h2]
    have e : handleRecovered (Writer.wr N.record raises (Writer.kindFor N.record)) B fuel (.panic .nilValue) (Writer.init ⟨w, []⟩ isHEAD) =
        none := rfl
    rw [e]
    generalize itoa _ = code
    refine ⟨(metricsOf_facts code _ none assertErr).2.2.2.1, (metricsOf_facts code _ none assertErr).2.2.2.2.1, ?_⟩
    rcases h0.status with h | h
    · exact absurd h.1 hn
    · rw [h.2.2, hs]; rfl

/-- **C42**, a consequence of C08: every Response with an empty Body (and a legal code, and no Push header) is counted and
reported as a panic with `io.EOF`, however well the client's ResponseWriter behaves. -/
theorem C42_empty_body_counts_as_panic (N : RW ω) (hN : ∀ w c, (N.writeHeader w c).2 = .ret ()) (raises isHEAD : Bool)
    (fuel : Nat) (assertErr : Bool) (onPanic : PanicArg → Res Unit) (hO : ∀ a, onPanic a = .ret ()) (code : Int)
    (h1 : 100 ≤ code) (h2 : code ≤ 999) (hdrs : List (GoStr × List GoStr)) (hp : hdrGet hdrs headerPush = []) (w : ω) :
    let x := request N raises isHEAD (BodyOps.ofFam MemFam.step true 0) fuel assertErr onPanic
      (.resp { code := code, hdrs := hdrs, body := fromBytes [] }) w
    x.2.2 = .ret () ∧ panicsCounted x.2.1 = 1 ∧ panicsReported x.2.1 = [.itself (.error .eof)] := by
  intro x
  have hs : (serve (Writer.ops N.record raises (Writer.kindFor N.record)) (BodyOps.ofFam MemFam.step true 0) fuel
      { code := code, hdrs := hdrs, body := fromBytes [] } (Writer.init ⟨w, []⟩ isHEAD)).2.2 = .ret (some .eof) := by
    have e : (if (Writer.ops N.record raises (Writer.kindFor N.record)).isPusher then
        pushAll (Writer.ops N.record raises (Writer.kindFor N.record)) (hdrGet hdrs headerPush) (Writer.init ⟨w, []⟩ isHEAD)
        else (Writer.init ⟨w, []⟩ isHEAD, none)) = (Writer.init ⟨w, []⟩ isHEAD, none) := by
      rw [hp]; simp [pushAll]
    simp only [serve, e]
    have j := setAll_pres (Writer.ops N.record raises (Writer.kindFor N.record)) (fun s => s.status = 0)
      (fun s k v h => h) hdrs (Writer.init ⟨w, []⟩ isHEAD) rfl
    generalize setAll (Writer.ops N.record raises (Writer.kindFor N.record)) hdrs (Writer.init ⟨w, []⟩ isHEAD) = s2 at j
    have hw : ((Writer.ops N.record raises (Writer.kindFor N.record)).writeHeader s2 code).2 = .ret () := by
      simp only [Writer.ops, Writer.writeHeader]
      rw [if_neg (by omega), if_neg (by omega), if_neg (by simp [j])]
      simp only [Writer.writeHeaderImpl, RW.record]
      exact hN _ _
    rcases hq : (Writer.ops N.record raises (Writer.kindFor N.record)).writeHeader s2 code with ⟨s3, r⟩
    rw [hq] at hw
    dsimp only at hw
    subst hw
    simp only [C08_copy_empty_fails]
    simp [BodyOps.ofFam, fromBytes, emptyFam, MemFam.step, EmptyBody.step, EmptyBody.close, Op.h]
  have hnh : x.2.2 = .ret () := by
    show (request N raises isHEAD (BodyOps.ofFam MemFam.step true 0) fuel assertErr onPanic
      (.resp { code := code, hdrs := hdrs, body := fromBytes [] }) w).2.2 = .ret ()
    have hy : (handle (Writer.wr N.record raises (Writer.kindFor N.record)) (BodyOps.ofFam MemFam.step true 0) fuel
        (.resp { code := code, hdrs := hdrs, body := fromBytes [] }) (Writer.init ⟨w, []⟩ isHEAD)).2 = .panic (.error .eof) := by
      have et : (Writer.wr N.record raises (Writer.kindFor N.record)).toRW =
        Writer.ops N.record raises (Writer.kindFor N.record) := rfl
      simp only [handle, et]
      rcases hq : serve (Writer.ops N.record raises (Writer.kindFor N.record)) (BodyOps.ofFam MemFam.step true 0) fuel
        { code := code, hdrs := hdrs, body := fromBytes [] } (Writer.init ⟨w, []⟩ isHEAD) with ⟨b, s', o⟩
      rw [hq] at hs
      dsimp only at hs
      subst hs
      rfl
    rw [request_eq]
    obtain ⟨-, h1 | h1⟩ := adaptor_spec N raises (Writer.kindFor N.record) (BodyOps.ofFam MemFam.step true 0) fuel assertErr onPanic
      (.resp { code := code, hdrs := hdrs, body := fromBytes [] }) _ (winvariant_init w isHEAD)
    · obtain ⟨-, -, h3 | ⟨w', h3⟩⟩ := h1
      · rw [hy] at h3; simp at h3
      · dsimp only; rw [← h3, hN]
    · dsimp only
      rw [h1.2.2.2.2.2]
      simp only [handleRecovered, hy, Panic.recovered]
      exact hO _
  refine ⟨hnh, ?_⟩
  rcases C42_response N raises isHEAD (BodyOps.ofFam MemFam.step true 0) fuel assertErr onPanic
    { code := code, hdrs := hdrs, body := fromBytes [] } w hnh with ⟨h, -⟩ | ⟨e, h, h3, h4⟩ | ⟨p, -, h, -⟩
  · rw [hs] at h; simp at h
  · rw [hs] at h
    simp at h
    subst h
    exact ⟨h3, h4⟩
  · rw [hs] at h; simp at h

example : ∀ w c, (exRW.writeHeader w c).2 = .ret () := fun _ _ => rfl
example : (request exRW false false BodyOps.nil 5 true (fun _ => .ret ()) (.panic (.value 3)) ()).2 =
    ([.panicsTotal, .requestsTotal (lit "0"), .latencyTotal (lit "0"), .recvBytesTotal (lit "0") 0, .sendBytesTotal (lit "0") 0,
      .latencyHist, .recvBytesHist 0, .sendBytesHist 0, .onPanic (.panicError (.value 3))], .ret ()) := by decide +kernel
/-- a Response without a Body but with a code (none can be made): the status is out before `io.Copy` finds that there is no Body; the
type assertion to `io.WriterTo` fails, so that `ReadFrom` is called first -/
example : (request exRW false false BodyOps.nil 5 true (fun _ => .ret ()) (.resp { code := 200, hdrs := [], body := () }) ()).1 =
    [.status 200, .readFrom] := by decide +kernel
/-- the zero Response: its code is refused -/
example : (request exRW false false BodyOps.nil 5 true (fun _ => .ret ()) (.resp { code := 0, hdrs := [], body := () }) ()) =
    ([.status 500], [.panicsTotal, .requestsTotal (lit "0"), .latencyTotal (lit "0"), .recvBytesTotal (lit "0") 0,
      .sendBytesTotal (lit "0") 0, .latencyHist, .recvBytesHist 0, .sendBytesHist 0, .onPanic (.itself .badArg)], .ret ()) := by
  decide +kernel

/-! ## C43 -/

/-- **C43, partial.** Full statement: every label is the numeral of the status the client received.  Proved: if the handler
returns a Response with a legal code and no push fails.  Missing: if the handler panics, or the code is illegal, or a push
fails, then the label is 0 though the client received 500 (`C43_panic_counted_under_zero`). -/
theorem C43_label_partial (N : RW ω) (raises isHEAD : Bool) (B : BodyOps β) (fuel : Nat) (assertErr : Bool)
    (onPanic : PanicArg → Res Unit) (r : Resp β) (w : ω) (h1 : 100 ≤ r.code) (h2 : r.code ≤ 999)
    (hp : ¬ PushFailed (request N raises isHEAD B fuel assertErr onPanic (.resp r) w).1)
    (hr : (request N raises isHEAD B fuel assertErr onPanic (.resp r) w).2.2 = .ret ()) :
    statuses (request N raises isHEAD B fuel assertErr onPanic (.resp r) w).1 = [r.code] ∧
    labels (request N raises isHEAD B fuel assertErr onPanic (.resp r) w).2.1 ≠ [] ∧
    ∀ l ∈ labels (request N raises isHEAD B fuel assertErr onPanic (.resp r) w).2.1, decimal l = some r.code := by
  rw [request_eq] at hr hp ⊢
  obtain ⟨h0, h4 | h4⟩ := adaptor_spec N raises (Writer.kindFor N.record) B fuel assertErr onPanic (.resp r) _ (winvariant_init w isHEAD)
  · exact absurd hr h4.2.1
  · obtain ⟨hs, hn, hh, hev, ⟨ext, hl, hext⟩, -⟩ := h4
    dsimp only at hs hn hh hev hl hp ⊢
    have hst : (handle (Writer.wr N.record raises (Writer.kindFor N.record)) B fuel (.resp r)
        (Writer.init ⟨w, []⟩ isHEAD)).1.status = r.code := by
      obtain ⟨-, k, -⟩ := writer_serve N raises (Writer.kindFor N.record) B fuel r (Writer.init ⟨w, []⟩ isHEAD) (winvariant_init w isHEAD)
      have et : (Writer.wr N.record raises (Writer.kindFor N.record)).toRW =
        Writer.ops N.record raises (Writer.kindFor N.record) := rfl
      have eh : (handle (Writer.wr N.record raises (Writer.kindFor N.record)) B fuel (.resp r)
          (Writer.init ⟨w, []⟩ isHEAD)).1 = (serve (Writer.ops N.record raises (Writer.kindFor N.record)) B fuel r
          (Writer.init ⟨w, []⟩ isHEAD)).2.1 := by
        simp only [handle, et]
        rcases serve (Writer.ops N.record raises (Writer.kindFor N.record)) B fuel r (Writer.init ⟨w, []⟩ isHEAD) with ⟨b, s', o⟩
        rcases o with o | p | _
        · cases o <;> rfl
        · rfl
        · rfl
      rw [eh] at hl ⊢
      rcases k h1 h2 rfl with k | ⟨u, q, k1, k2⟩
      · exact k
      · exact absurd ⟨u, q, by rw [hl]; simp [k1], k2⟩ hp
    rw [hst] at hs hev
    rw [if_neg (by omega)] at hs
    refine ⟨?_, ?_, ?_⟩
    · rcases h0.status with h | h
      · exact absurd h.1 hn
      · rw [h.2.2, hs]
    · rw [hev]; exact (metricsOf_facts _ _ _ _).2.2.2.2.2.2
    · rw [hev]
      intro l hl
      rw [(metricsOf_facts _ _ _ _).2.2.2.2.2.1 l hl]
      exact decimal_itoa _

/-- **C43.** In general, the label is the numeral of the status received, except that it is 0 when the client received the 500
that the Adaptor sends because nothing had been sent. -/
theorem C43_label_or_zero (N : RW ω) (raises isHEAD : Bool) (B : BodyOps β) (fuel : Nat) (assertErr : Bool)
    (onPanic : PanicArg → Res Unit) (h : Handled β) (w : ω)
    (hr : (request N raises isHEAD B fuel assertErr onPanic h w).2.2 = .ret ()) :
    ∃ c, statuses (request N raises isHEAD B fuel assertErr onPanic h w).1 = [c] ∧
      ((∀ l ∈ labels (request N raises isHEAD B fuel assertErr onPanic h w).2.1, decimal l = some c) ∨
       (c = 500 ∧ (request N raises isHEAD B fuel assertErr onPanic h w).1.getLast? = some (.status 500) ∧
        ∀ l ∈ labels (request N raises isHEAD B fuel assertErr onPanic h w).2.1, decimal l = some 0)) := by
  rw [request_eq] at hr ⊢
  obtain ⟨h0, h4 | h4⟩ := adaptor_spec N raises (Writer.kindFor N.record) B fuel assertErr onPanic h _ (winvariant_init w isHEAD)
  · exact absurd hr h4.2.1
  · obtain ⟨hs, hn, hh, hev, ⟨ext, hl, hext⟩, -⟩ := h4
    dsimp only at hs hn hh hev hl ⊢
    have hst : statuses (adaptor (Writer.wr N.record raises (Writer.kindFor N.record)) B fuel assertErr onPanic h
        (Writer.init ⟨w, []⟩ isHEAD)).1.next.log = [(adaptor (Writer.wr N.record raises (Writer.kindFor N.record)) B fuel assertErr
          onPanic h (Writer.init ⟨w, []⟩ isHEAD)).1.status] := by
      rcases h0.status with h | h
      · exact absurd h.1 hn
      · exact h.2.2
    refine ⟨_, hst, ?_⟩
    have hlab := (metricsOf_facts (itoa (handle (Writer.wr N.record raises (Writer.kindFor N.record)) B fuel h
      (Writer.init ⟨w, []⟩ isHEAD)).1.status) (accepted (adaptor (Writer.wr N.record raises (Writer.kindFor N.record)) B fuel
      assertErr onPanic h (Writer.init ⟨w, []⟩ isHEAD)).1.next.log) (handleRecovered (Writer.wr N.record raises
      (Writer.kindFor N.record)) B fuel h (Writer.init ⟨w, []⟩ isHEAD)) assertErr).2.2.2.2.2.1
    rw [← hev] at hlab
    have hi := handle_inv N raises (Writer.kindFor N.record) B fuel h _ (winvariant_init w isHEAD)
    by_cases hz : (handle (Writer.wr N.record raises (Writer.kindFor N.record)) B fuel h (Writer.init ⟨w, []⟩ isHEAD)).1.status = 0
    · right
      rw [hz] at hs hlab
      rw [hs] at hst ⊢
      refine ⟨rfl, ?_, fun l h => by rw [hlab l h]; exact decimal_itoa 0⟩
      have hz' : statuses (handle (Writer.wr N.record raises (Writer.kindFor N.record)) B fuel h
          (Writer.init ⟨w, []⟩ isHEAD)).1.next.log = [] := by
        rcases hi.status with h | h
        · exact h.2
        · omega
      rcases hext with rfl | rfl
      · rw [hl, List.append_nil, hz'] at hst; simp at hst
      · rw [hl]; simp
    · left
      rw [if_neg hz] at hs
      intro l h
      rw [hlab l h, decimal_itoa, hs]

/-- **C43 is false of the code**: whenever the handler panics, the client receives 500 and the request is counted under the
label "0", for every ResponseWriter. -/
theorem C43_panic_counted_under_zero (N : RW ω) (raises isHEAD : Bool) (B : BodyOps β) (fuel : Nat) (assertErr : Bool)
    (onPanic : PanicArg → Res Unit) (p : Panic) (w : ω)
    (hr : (request N raises isHEAD B fuel assertErr onPanic (.panic p) w).2.2 = .ret ()) :
    statuses (request N raises isHEAD B fuel assertErr onPanic (.panic p) w).1 = [500] ∧
    requestsCounted (request N raises isHEAD B fuel assertErr onPanic (.panic p) w).2.1 = [lit "0"] := by
  rw [request_eq] at hr ⊢
  obtain ⟨h0, h4 | h4⟩ := adaptor_spec N raises (Writer.kindFor N.record) B fuel assertErr onPanic (.panic p) _ (winvariant_init w isHEAD)
  · exact absurd hr h4.2.1
  · obtain ⟨hs, hn, hh, hev, -⟩ := h4
    dsimp only at hs hn hev ⊢
    refine ⟨?_, ?_⟩
    · rcases h0.status with h | h
      · exact absurd h.1 hn
      · rw [h.2.2, hs]; rfl
    · rw [hev]; exact (metricsOf_facts _ _ _ _).1

example : (request exRW false true BodyOps.nil 5 true (fun _ => .ret ()) (.panic .nilDeref) ()).2.2 = .ret () := by decide +kernel
example : ¬ PushFailed (request exRW false false (BodyOps.ofFam MemFam.step true 0) 5 true (fun _ => .ret ()) (.resp exResp) ()).1 := by
  rw [show (request exRW false false (BodyOps.ofFam MemFam.step true 0) 5 true (fun _ => .ret ()) (.resp exResp) ()).1 =
    [.push (lit "/p") (.ret none), .set (lit "A") [lit "x"], .set (lit "B") [], .status 404, .write [104, 105] (.ret (2, none))]
    from by decide +kernel]
  rintro ⟨u, q, h, h1, h2⟩
  simp at h
  exact h1 h.2

end Verif
