import Verif.Props.NetHttp
import Verif.Spec.Failing

/-!
# How a handler may end: C73 (`runtime.Goexit`) and C74 (aborting the response)

`Handled.panic .goexit` is a handler that ends its goroutine.  Readers, Bodies and ResponseWriters may do so too: in the model these
answer `.panic .goexit`, and everything said about panics there holds of it as well.
-/

set_option autoImplicit false

namespace Verif
open Spec
variable {β ω : Type}

/-- What `Inner.Handle` and `Serve` did, up to the deferred function of the Adaptor: `p` came out of them. -/
def Threw (N : RW ω) (raises isHEAD : Bool) (B : BodyOps β) (fuel : Nat) (w : ω) (p : Panic) : Handled β → Prop
  | .panic q => q = p
  | .hang => False
  | .resp r =>
    (serve (Writer.ops N.record raises (Writer.kindFor N.record)) B fuel r (Writer.init ⟨w, []⟩ isHEAD)).2.2 = .panic p ∨
    ∃ e, (serve (Writer.ops N.record raises (Writer.kindFor N.record)) B fuel r (Writer.init ⟨w, []⟩ isHEAD)).2.2 = .ret (some e) ∧
      p = .error e

theorem threw_iff (N : RW ω) (raises isHEAD : Bool) (B : BodyOps β) (fuel : Nat) (w : ω) (p : Panic) (h : Handled β) :
    Threw N raises isHEAD B fuel w p h ↔
      (handle (Writer.wr N.record raises (Writer.kindFor N.record)) B fuel h (Writer.init ⟨w, []⟩ isHEAD)).2 = .panic p := by
  cases h with
  | panic q => simp [Threw, handle]
  | hang => simp [Threw, handle]
  | resp r =>
    have et : (Writer.wr N.record raises (Writer.kindFor N.record)).toRW = Writer.ops N.record raises (Writer.kindFor N.record) := rfl
    simp only [Threw, handle, et]
    rcases serve (Writer.ops N.record raises (Writer.kindFor N.record)) B fuel r (Writer.init ⟨w, []⟩ isHEAD) with ⟨b, s, o⟩
    rcases o with o | q | _
    · cases o with
      | none => simp
      | some e => simp [eq_comm]
    · simp
    · simp

/-! ## C73 -/

/-- **C73.** If the handler, the Body or the client's ResponseWriter ends the goroutine while a request is handled, then the client has been
sent exactly one status, before anything else; the request has been counted once, with the bytes that the client accepted, and not as a
panic; `OnPanic` has not been called; and the goroutine goes on ending. -/
theorem C73_exit (N : RW ω) (raises isHEAD : Bool) (B : BodyOps β) (fuel : Nat) (assertErr : Bool) (onPanic : PanicArg → Res Unit)
    (h : Handled β) (w : ω) (hN : ∀ w, (N.writeHeader w 500).2 = .ret ()) (hx : Threw N raises isHEAD B fuel w .goexit h) :
    let x := request N raises isHEAD B fuel assertErr onPanic h w
    x.2.2 = .panic .goexit ∧
    StatusFirst x.1 ∧ (∃ c, statuses x.1 = [c] ∧ 100 ≤ c ∧ c ≤ 999) ∧
    (∃ code, requestsCounted x.2.1 = [code] ∧ sendCounted x.2.1 = [(code, accepted x.1)] ∧ sendObserved x.2.1 = [accepted x.1]) ∧
    panicsCounted x.2.1 = 0 ∧ panicsReported x.2.1 = [] := by
  rw [threw_iff] at hx
  dsimp only
  rw [request_eq]
  obtain ⟨h0, h1 | h1⟩ := adaptor_spec N raises (Writer.kindFor N.record) B fuel assertErr onPanic h _ (winvariant_init w isHEAD)
  · obtain ⟨-, h2, h3 | ⟨w', h3⟩⟩ := h1
    · rw [hx] at h3; simp at h3
    · rw [hN] at h3; exact absurd h3.symm h2
  · obtain ⟨-, hn, -, h2, -, h3⟩ := h1
    dsimp only
    have e : handleRecovered (Writer.wr N.record raises (Writer.kindFor N.record)) B fuel h (Writer.init ⟨w, []⟩ isHEAD) = none := by
      simp only [handleRecovered, hx, Panic.recovered]
    rw [e] at h2 h3
    refine ⟨?_, h0.first, ?_, ?_⟩
    · rw [h3]; simp only [hx, if_true]
    · rcases h0.status with h | h
      · exact absurd h.1 hn
      · exact ⟨_, h.2.2, h.1, h.2.1⟩
    · rw [h2]
      obtain ⟨f1, f2, f3, f4, f5, -⟩ := metricsOf_facts (itoa (handle (Writer.wr N.record raises (Writer.kindFor N.record)) B fuel h
        (Writer.init ⟨w, []⟩ isHEAD)).1.status) (accepted (adaptor (Writer.wr N.record raises (Writer.kindFor N.record)) B fuel
        assertErr onPanic h (Writer.init ⟨w, []⟩ isHEAD)).1.next.log) none assertErr
      exact ⟨⟨_, f1, f2, f3⟩, f4, f5⟩

/-- **C73.** If nothing had been sent when the handler ended the goroutine, the client gets 500. -/
theorem C73_handler (N : RW ω) (raises isHEAD : Bool) (B : BodyOps β) (fuel : Nat) (assertErr : Bool) (onPanic : PanicArg → Res Unit)
    (w : ω) (hN : ∀ w, (N.writeHeader w 500).2 = .ret ()) :
    (request N raises isHEAD B fuel assertErr onPanic (.panic .goexit) w).1 = [.status 500] := by
  rw [request_eq]
  have hw := hN w
  simp only [adaptor, handle, deferred, Writer.wr, Writer.init, Writer.maybeWriteHeader, Writer.writeHeaderImpl, RW.record,
    Panic.recovered]
  simp [hw]

/-- A Body whose reader ends the goroutine. -/
def exitingBody : BodyOps Unit := { BodyOps.nil with read := fun b _ => (b, .panic .goexit) }

/-- It happens after the status was sent: that is the status counted.  With a HEAD request the Body is read, too. -/
example : request exRW false false exitingBody 5 true (fun _ => .ret ()) (.resp { code := 203, hdrs := [], body := () }) () =
    ([.status 203, .readFrom], [.requestsTotal (lit "203"), .latencyTotal (lit "203"), .recvBytesTotal (lit "203") 0, .sendBytesTotal (lit "203") 0,
      .latencyHist, .recvBytesHist 0, .sendBytesHist 0], .panic .goexit) := by decide +kernel
example : Threw exRW false true exitingBody 5 () .goexit (.resp { code := 203, hdrs := [], body := () }) := .inl (by decide +kernel)
example : ∀ w, (exRW.writeHeader w 500).2 = .ret () := fun _ => rfl

/-- **C73, the converse.** Only the handler, the Body, the ResponseWriter and `OnPanic` can end the goroutine: a `ServeHTTP` that ends so
has been made to. -/
theorem C73_only (N : RW ω) (raises isHEAD : Bool) (B : BodyOps β) (fuel : Nat) (assertErr : Bool) (onPanic : PanicArg → Res Unit)
    (h : Handled β) (w : ω) (hx : (request N raises isHEAD B fuel assertErr onPanic h w).2.2 = .panic .goexit) :
    Threw N raises isHEAD B fuel w .goexit h ∨ (∃ w, (N.writeHeader w 500).2 = .panic .goexit) ∨ ∃ a, onPanic a = .panic .goexit := by
  rw [threw_iff]
  rw [request_eq] at hx
  obtain ⟨h0, h1 | h1⟩ := adaptor_spec N raises (Writer.kindFor N.record) B fuel assertErr onPanic h _ (winvariant_init w isHEAD)
  · obtain ⟨-, h2, h3 | ⟨w', h3⟩⟩ := h1
    · dsimp only at hx; rw [h3.2] at hx; cases hx
    · exact .inr (.inl ⟨w', h3.trans hx⟩)
  · obtain ⟨-, -, -, -, -, h3⟩ := h1
    dsimp only at hx
    rw [hx] at h3
    revert h3
    generalize handleRecovered _ _ _ _ _ = pv
    intro h3
    cases pv with
    | none =>
      dsimp only at h3
      split at h3
      · exact .inl (by assumption)
      · cases h3
    | some p => exact .inr (.inr ⟨_, h3.symm⟩)

/-- **C73, over `net/http`.** The client can tell: the connection is cut. -/
theorem C73_net (http1 : Bool) (n : Nat) (raises isHEAD : Bool) (B : BodyOps β) (fuel : Nat) (assertErr : Bool)
    (onPanic : PanicArg → Res Unit) :
    let x := overNet http1 n raises isHEAD B fuel assertErr onPanic (.panic .goexit)
    x.1 = { isHEAD := isHEAD, status := 500 } ∧ x.2.2 = .panic .goexit ∧ ¬ SeemsWhole x := by
  have e : overNet http1 n raises isHEAD B fuel assertErr onPanic (.panic .goexit) =
      ({ isHEAD := isHEAD, status := 500 }, metricsOf (lit "0") 0 none assertErr, .panic .goexit) := by
    cases http1 <;> rfl
  rw [e]
  exact ⟨rfl, rfl, fun h => by cases h.2⟩

/-! ## C74 -/

/-- **C74, swallowed.** Whatever comes out of the handler or of `Serve` as a panic with a value, `http.ErrAbortHandler` included: if `OnPanic`
returns, so does `ServeHTTP`; and if `OnPanic` panics, that is what `net/http` sees.  So the response is aborted exactly if `OnPanic` does
not return. -/
theorem C74_iff (N : RW ω) (raises isHEAD : Bool) (B : BodyOps β) (fuel : Nat) (assertErr : Bool) (onPanic : PanicArg → Res Unit)
    (h : Handled β) (w : ω) (hN : ∀ w, (N.writeHeader w 500).2 = .ret ()) (p : Panic) (h1 : p ≠ .nilValue) (h2 : p ≠ .goexit)
    (hx : Threw N raises isHEAD B fuel w p h) :
    ∃ a, ReportedAs assertErr p a ∧ (request N raises isHEAD B fuel assertErr onPanic h w).2.2 = onPanic a := by
  rw [threw_iff] at hx
  rw [request_eq]
  obtain ⟨h0, h4 | h4⟩ := adaptor_spec N raises (Writer.kindFor N.record) B fuel assertErr onPanic h _ (winvariant_init w isHEAD)
  · obtain ⟨-, h2, h3 | ⟨w', h3⟩⟩ := h4
    · rw [hx] at h3; simp at h3
    · rw [hN] at h3; exact absurd h3.symm h2
  · obtain ⟨-, -, -, -, -, h3⟩ := h4
    have e : handleRecovered (Writer.wr N.record raises (Writer.kindFor N.record)) B fuel h (Writer.init ⟨w, []⟩ isHEAD) = some p := by
      simp only [handleRecovered, hx]
      cases p <;> first | rfl | exact absurd rfl h1 | exact absurd rfl h2
    rw [e] at h3
    exact ⟨_, reportedAs assertErr p, h3⟩

/-- **C74 is false of the code**, over `net/http`: a handler that panics in order to abort the response gets a whole response sent, if
`OnPanic` returns (as the default one does). -/
theorem C74_whole (http1 : Bool) (n : Nat) (raises isHEAD : Bool) (B : BodyOps β) (fuel : Nat) (assertErr : Bool)
    (onPanic : PanicArg → Res Unit) (hO : ∀ a, onPanic a = .ret ()) (p : Panic) (hp : p ≠ .goexit) :
    let x := overNet http1 n raises isHEAD B fuel assertErr onPanic (.panic p)
    x.1 = { isHEAD := isHEAD, status := 500 } ∧ SeemsWhole x := by
  have e : overNet http1 n raises isHEAD B fuel assertErr onPanic (.panic p) =
      ({ isHEAD := isHEAD, status := 500 }, metricsOf (lit "0") 0 p.recovered assertErr, .ret ()) := by
    have : onPanic = fun _ => .ret () := funext hO
    subst this
    cases http1 <;> cases p <;> first | rfl | exact absurd rfl hp
  rw [e]
  refine ⟨rfl, ?_, rfl⟩
  unfold Framed
  split
  · rfl
  · intro n h; cases h

/-- **C74, partial.** Full statement: a handler that panics with `http.ErrAbortHandler` aborts the response, so that the client can tell.
Proved: if `OnPanic` panics, whatever with. -/
theorem C74_abort_partial (http1 : Bool) (n : Nat) (raises isHEAD : Bool) (B : BodyOps β) (fuel : Nat) (assertErr : Bool)
    (onPanic : PanicArg → Res Unit) (p : Panic) (h1 : p ≠ .nilValue) (h2 : p ≠ .goexit) (hO : ∀ a, ReportedAs assertErr p a → onPanic a ≠ .ret ()) :
    ¬ SeemsWhole (overNet http1 n raises isHEAD B fuel assertErr onPanic (.panic p)) := by
  rintro ⟨-, h⟩
  have e : (overNet http1 n raises isHEAD B fuel assertErr onPanic (.panic p)).2.2 =
      onPanic (if p.isErr assertErr then .itself p else .panicError p) := by
    cases http1 <;> cases p <;> first | rfl | exact absurd rfl h1 | exact absurd rfl h2
  exact hO _ (reportedAs assertErr p) (e ▸ h)

/-- `http.ErrAbortHandler`, with an `OnPanic` that passes it on, and one that does not. -/
example : (overNet true 5 false false BodyOps.nil 5 true (fun | .itself p | .panicError p => .panic p) (.panic (.error (.ext 7)))).2.2 =
      .panic (.error (.ext 7)) ∧
    (overNet true 5 false false BodyOps.nil 5 true (fun _ => .ret ()) (.panic (.error (.ext 7)))).2.2 = .ret () := by decide +kernel
example : Threw exRW false true exitingBody 5 () .badArg (.resp { code := 20, hdrs := [], body := () }) := .inl (by decide +kernel)

end Verif
