import Verif.Proofs.MachineWriter
import Verif.Props.Adaptor

/-!
# C71: the counters of the Writers

The code's `int64` counter is the number of bytes modulo 2^64, whatever is done with a Writer; so `BytesWritten`, and the metrics, are right up to 2^63 - 1 bytes.
-/

set_option autoImplicit false

namespace Verif
open Spec MachineP
variable {β ω : Type}

/-- **C71.** Whatever the calls, and whatever the wrapped ResponseWriter does: the caller and the wrapped ResponseWriter see the same as with unbounded integers, and
`BytesWritten` is the number of bytes accepted, modulo 2^64. -/
theorem C71_writer (N : RW ω) (raises : Bool) (kind : WKind) (fuel : Nat) (w : ω) (isHEAD : Bool) (ops : List WOp) :
    let x := run (Writer.stepM N.record raises kind fuel) (Writer.init ⟨w, []⟩ isHEAD) ops
    let y := run (Writer.step N.record raises kind fuel) (Writer.init ⟨w, []⟩ isHEAD) ops
    x.2 = y.2 ∧ x.1.next = y.1.next ∧ x.1.status = y.1.status ∧ x.1.sawError = y.1.sawError ∧ x.1.bytes = i64 (accepted x.1.next.log) := by
  have h := run_map N.record raises kind fuel ops (Writer.init ⟨w, []⟩ isHEAD)
  have hb := C38_bytes_written N raises kind fuel w isHEAD ops
  have e : (Writer.after N raises kind fuel w isHEAD ops) = (run (Writer.step N.record raises kind fuel) (Writer.init ⟨w, []⟩ isHEAD) ops).1 := rfl
  rw [e] at hb
  dsimp only
  rw [show (wrap (Writer.init (⟨w, []⟩ : Logged WEv ω) isHEAD)) = Writer.init ⟨w, []⟩ isHEAD from rfl] at h
  rw [h]
  exact ⟨rfl, rfl, rfl, rfl, by show i64 _ = _; rw [hb]; rfl⟩

/-- **C71.** So it is right as long as fewer than 2^63 bytes were accepted. -/
theorem C71_writer_exact (N : RW ω) (raises : Bool) (kind : WKind) (fuel : Nat) (w : ω) (isHEAD : Bool) (ops : List WOp)
    (h : accepted (run (Writer.stepM N.record raises kind fuel) (Writer.init ⟨w, []⟩ isHEAD) ops).1.next.log < 2 ^ 63) :
    run (Writer.stepM N.record raises kind fuel) (Writer.init ⟨w, []⟩ isHEAD) ops = run (Writer.step N.record raises kind fuel) (Writer.init ⟨w, []⟩ isHEAD) ops := by
  obtain ⟨h1, h2, h3, h4, h5⟩ := C71_writer N raises kind fuel w isHEAD ops
  have hm := run_map N.record raises kind fuel ops (Writer.init ⟨w, []⟩ isHEAD)
  rw [show (wrap (Writer.init (⟨w, []⟩ : Logged WEv ω) isHEAD)) = Writer.init ⟨w, []⟩ isHEAD from rfl] at hm
  have hb := C38_bytes_written N raises kind fuel w isHEAD ops
  rw [show (Writer.after N raises kind fuel w isHEAD ops) = (run (Writer.step N.record raises kind fuel) (Writer.init ⟨w, []⟩ isHEAD) ops).1 from rfl] at hb
  rw [h2, ← hb] at h
  have h0 := accepted_nonneg (run (Writer.step N.record raises kind fuel) (Writer.init ⟨w, []⟩ isHEAD) ops).1.next.log
  rw [← hb] at h0
  rw [hm]
  generalize run (Writer.step N.record raises kind fuel) (Writer.init ⟨w, []⟩ isHEAD) ops = y at h h0
  have : wrap y.1 = y.1 := by
    unfold wrap
    rw [i64_of_isI64 ⟨by omega, h⟩]
  rw [this]

theorem maybe_bytes (N : RW ω) (s : WState ω) (c : Int) : (Writer.maybeWriteHeader N s c).1.bytes = s.bytes := by
  unfold Writer.maybeWriteHeader Writer.writeHeaderImpl
  split
  · rfl
  · split
    · rfl
    · split <;> rfl

theorem deferred_bytes (N : RW ω) (raises : Bool) (kind : WKind) (assertErr : Bool) (onPanic : PanicArg → Res Unit) (pv : Option Panic) (s : WState ω) :
    (deferred (Writer.wr N raises kind) assertErr onPanic pv s).1.bytes = s.bytes := by
  have h := maybe_bytes N s 500
  simp only [deferred]
  rw [show (Writer.wr N raises kind).maybeWriteHeader s 500 = Writer.maybeWriteHeader N s 500 from rfl]
  generalize Writer.maybeWriteHeader N s 500 = m at h ⊢
  rcases m with ⟨s', _ | p | _⟩
  · dsimp only at h ⊢
    split
    · exact h
    · cases pv <;> exact h
  · exact h
  · exact h

theorem adaptor_bytes (N : RW ω) (raises : Bool) (kind : WKind) (B : BodyOps β) (fuel : Nat) (assertErr : Bool) (onPanic : PanicArg → Res Unit) (h : Handled β) (s : WState ω) :
    (adaptor (Writer.wr N raises kind) B fuel assertErr onPanic h s).1.bytes = (handle (Writer.wr N raises kind) B fuel h s).1.bytes := by
  simp only [adaptor]
  rcases handle (Writer.wr N raises kind) B fuel h s with ⟨s', _ | p | _⟩
  · exact deferred_bytes _ _ _ _ _ _ _
  · exact deferred_bytes _ _ _ _ _ _ _
  · rfl

theorem deferred_small (N : RW ω) (raises : Bool) (kind : WKind) (assertErr : Bool) (onPanic : PanicArg → Res Unit) (pv : Option Panic) (s : WState ω)
    (hs : i64 s.bytes = s.bytes) :
    deferred (Writer.wrM N raises kind) assertErr onPanic pv (wrap s) = deferred (Writer.wr N raises kind) assertErr onPanic pv s := by
  have : wrap s = s := by unfold wrap; rw [hs]
  rw [this]
  rfl

/-- **C71.** The Adaptor: the client, the metrics and `OnPanic` see the same as with unbounded integers, if fewer than 2^63 bytes were accepted. -/
theorem C71_adaptor (raises isHEAD : Bool) (N : RW ω) (B : BodyOps β) (fuel : Nat) (assertErr : Bool) (onPanic : PanicArg → Res Unit) (h : Handled β) (w : ω)
    (hlt : accepted (serveHTTP raises isHEAD (.plain N.record) B fuel assertErr onPanic h ⟨w, []⟩).1.log < 2 ^ 63) :
    serveHTTPM raises isHEAD N.record B fuel assertErr onPanic h ⟨w, []⟩ = serveHTTP raises isHEAD (.plain N.record) B fuel assertErr onPanic h ⟨w, []⟩ := by
  have hk : Writer.kindFor N.record = Writer.kindFor N := rfl
  have hi := (adaptor_spec N raises (Writer.kindFor N) B fuel assertErr onPanic h (Writer.init ⟨w, []⟩ isHEAD) (winvariant_init w isHEAD)).1
  have hb := adaptor_bytes N.record raises (Writer.kindFor N) B fuel assertErr onPanic h (Writer.init ⟨w, []⟩ isHEAD)
  have hlt' : accepted (adaptor (Writer.wr N.record raises (Writer.kindFor N)) B fuel assertErr onPanic h (Writer.init ⟨w, []⟩ isHEAD)).1.next.log < 2 ^ 63 := hlt
  rw [← hi.bytes, hb] at hlt'
  have h0 := accepted_nonneg (adaptor (Writer.wr N.record raises (Writer.kindFor N)) B fuel assertErr onPanic h (Writer.init ⟨w, []⟩ isHEAD)).1.next.log
  rw [← hi.bytes, hb] at h0
  have key : adaptor (Writer.wrM N.record raises (Writer.kindFor N)) B fuel assertErr onPanic h (Writer.init ⟨w, []⟩ isHEAD) =
      adaptor (Writer.wr N.record raises (Writer.kindFor N)) B fuel assertErr onPanic h (Writer.init ⟨w, []⟩ isHEAD) := by
    have hm := handle_map (W := Writer.wr N.record raises (Writer.kindFor N)) (W' := Writer.wrM N.record raises (Writer.kindFor N))
      (ops_map N.record raises (Writer.kindFor N)) B fuel h (Writer.init ⟨w, []⟩ isHEAD)
    rw [show (wrap (Writer.init (⟨w, []⟩ : Logged WEv ω) isHEAD)) = Writer.init ⟨w, []⟩ isHEAD from rfl] at hm
    simp only [adaptor, hm]
    generalize handle (Writer.wr N.record raises (Writer.kindFor N)) B fuel h (Writer.init ⟨w, []⟩ isHEAD) = m at hlt' h0 ⊢
    rcases m with ⟨s', o⟩
    dsimp only at hlt' h0 ⊢
    have he : i64 s'.bytes = s'.bytes := i64_of_isI64 ⟨by omega, hlt'⟩
    rcases o with _ | p | _
    · exact deferred_small _ _ _ _ _ _ _ he
    · dsimp only
      rw [deferred_small _ _ _ _ _ _ _ he]
    · dsimp only
      have : wrap s' = s' := by unfold wrap; rw [he]
      rw [this]
  show (let r := adaptor (Writer.wrM N.record raises (Writer.kindFor N)) B fuel assertErr onPanic h (Writer.init ⟨w, []⟩ isHEAD); (r.1.next, r.2)) = _
  rw [key]
  rfl

/-! ## The bound is needed -/

/-- A ResponseWriter that accepts one byte, and then claims to have accepted 2^63 - 1. -/
def Spec.boaster : RW Bool where
  setHeader w _ _ := w
  writeHeader w _ := (w, .ret ())
  write w _ := (true, .ret (if w then 2 ^ 63 - 1 else 1, none))
  flush w := (w, .ret ())
  push w _ := (w, .ret none)
  readFrom w := .panic w .nilDeref
  isPusher := false
  isReaderFrom := false
  isFlusher := false
  isCloseNotifier := false
  isHijacker := false

/-- A Response of two bytes, which the Body delivers one by one. -/
def Spec.twoBytes : Resp Script := { code := 200, hdrs := [], body := [.ret ([1], none), .ret ([2], none)] }

/-- **C71.** The count becomes negative, so that the metrics package panics: the request is not in all metrics, and `OnPanic` is not told that `io.Copy` failed. -/
theorem C71_boaster :
    (run (Writer.stepM boaster.record false .basic 5) (Writer.init ⟨false, []⟩ false) [.write [1], .write [2]]).1.bytes = -(2 ^ 63) ∧
    (serveHTTPM false false boaster.record scriptOps 5 true (fun _ => .ret ()) (.resp twoBytes) ⟨false, []⟩).2 =
      ([.panicsTotal, .requestsTotal (lit "200"), .latencyTotal (lit "200"), .recvBytesTotal (lit "200") 0], .panic (.error (.ext 0))) ∧
    panicsReported (serveHTTPM false false boaster.record scriptOps 5 true (fun _ => .ret ()) (.resp twoBytes) ⟨false, []⟩).2.1 = [] := by
  decide +kernel

/-- With an honest ResponseWriter `C71_adaptor` applies. -/
example : serveHTTPM false false exRW.record scriptOps 5 true (fun _ => .ret ()) (.resp twoBytes) ⟨(), []⟩ =
    serveHTTP false false (.plain exRW.record) scriptOps 5 true (fun _ => .ret ()) (.resp twoBytes) ⟨(), []⟩ :=
  C71_adaptor false false exRW scriptOps 5 true _ _ () (by decide +kernel)

/-- And `C71_writer_exact`. -/
example : (run (Writer.stepM exRW.record false .fancy 5) (Writer.init ⟨(), []⟩ false) [.write [1, 2], .readFrom [.ret ([3, 4, 5], some .eof)]]).1.bytes = 5 := by
  rw [C71_writer_exact exRW false .fancy 5 () false _ (by decide +kernel)]
  decide +kernel

end Verif
