import Verif.Proofs.FailingBody
import Verif.Props.NetHttp

/-!
# C66: a response whose source fails, over `net/http`

`C66_request`: what is on the wire, in the metrics and reported.  `C66_whole_iff`: when the client cannot tell that the response is not whole.
-/

set_option autoImplicit false

namespace Verif
open Spec
variable {β ω σ : Type}

/-- **C66.** A handler returns a Response whose Body delivers `C` and then fails with `e`.  The status and the headers are on the wire.  If the body is
suppressed (HEAD, 204) or `C` is no longer than the status and the Content-Length header allow, then exactly `C` (or nothing) is on the wire and in the
metrics, and `e` itself is counted and reported as a panic.  Otherwise a part of `C` within the limit is on the wire, and the error of `net/http` is
counted and reported. -/
theorem C66_request {C : List Byte} {K : Nat} (hK : 32768 ≤ K) {B : BodyOps β} {P : β → List Byte → Prop} {e : Err} (hB : Failing B P K e)
    (http1 : Bool) (n : Nat) (hn : C.length < n) (raises isHEAD : Bool) (fuel : Nat) (hf : C.length < fuel) (assertErr : Bool)
    (onPanic : PanicArg → Res Unit) (r : Resp β) (hP : P r.body C) (h1 : 200 ≤ r.code) (h2 : r.code ≤ 999) (hnd : (r.hdrs.map Prod.fst).Nodup) :
    let x := overNet http1 n raises isHEAD B fuel assertErr onPanic (.resp r)
    x.1.isHEAD = isHEAD ∧ x.1.status = r.code ∧ x.1.declared = declaredLength r.hdrs ∧ x.1.hdrs = (r.hdrs.filter fun e => e.1 ≠ lit "Push") ∧
    ((isHEAD = true ∨ r.code = 204 ∨ C.length ≤ room r.code (declaredLength r.hdrs) C) →
      x.1.body = sentBody isHEAD r.code C ∧ x.2.1 = metricsOf (itoa r.code) (sentBody isHEAD r.code C).length (some (.error e)) assertErr ∧
      x.2.2 = onPanic (.itself (.error e))) ∧
    (¬ (isHEAD = true ∨ r.code = 204) → room r.code (declaredLength r.hdrs) C < C.length →
      x.1.body <+: C ∧ x.1.body.length ≤ room r.code (declaredLength r.hdrs) C ∧
      x.2.1 = metricsOf (itoa r.code) x.1.body.length (some (.error (roomError r.code))) assertErr ∧
      x.2.2 = onPanic (.itself (.error (roomError r.code)))) := by
  let N := netRW http1 n
  let kind := Writer.kindFor N
  have hk : kind = .fancy → N.isReaderFrom = true := by
    show Writer.kindFor N = _ → _
    unfold Writer.kindFor
    split
    · rename_i h; simp only [Bool.and_eq_true] at h; exact fun _ => h.2
    · split <;> simp
  let w₀ : NetW := { isHEAD := isHEAD }
  let s₀ : WState NetW := Writer.init w₀ isHEAD
  have a1 : (if (Writer.ops N raises kind).isPusher then pushAll (Writer.ops N raises kind) (hdrGet r.hdrs headerPush) s₀ else (s₀, none)) = (s₀, none) := by
    have : (Writer.ops N raises kind).isPusher = true := rfl
    rw [if_pos this, through_pushAll]
    have e : pushAll N (hdrGet r.hdrs headerPush) s₀.next = (s₀.next, none) := net_pushAll _ _ _ _
    simp only [e, ite_self]
  let H := r.hdrs.filter fun e => e.1 ≠ headerPush
  let w₂ : NetW := { isHEAD := isHEAD, hdrs := H, status := r.code, declared := declaredLength r.hdrs }
  let s₂ : WState NetW := { s₀ with next := w₂, status := r.code }
  have hwh : (Writer.ops N raises kind).writeHeader (setAll (Writer.ops N raises kind) r.hdrs s₀) r.code = (s₂, .ret ()) := by
    rw [through_setAll]
    have e : setAll N r.hdrs s₀.next = { w₀ with hdrs := H } := net_setAll http1 n r.hdrs w₀ hnd
    rw [e]
    show Writer.writeHeader N raises _ r.code = _
    simp only [Writer.writeHeader, Writer.writeHeaderImpl]
    rw [if_neg (by omega), if_neg (by omega), if_neg (by simp [Writer.init, s₀])]
    have e2 : N.writeHeader { w₀ with hdrs := H } r.code = (w₂, .ret ()) := by
      have e3 : N.writeHeader = NetW.writeHeader := rfl
      rw [e3]
      unfold NetW.writeHeader
      rw [if_neg (by simp [w₀]), if_neg (by omega)]
      show (({ w₀ with hdrs := H, status := r.code, declared := declaredLength H } : NetW), (Res.ret () : Res Unit)) = _
      rw [show declaredLength H = declaredLength r.hdrs from declared_filter r.hdrs]
    simp only [e2]
    rfl
  have hs0 : s₂.status ≠ 0 := by show r.code ≠ 0; omega
  have final : ∀ b s' o, serve (Writer.ops N raises kind) B fuel r s₀ = (b, s', .ret o) → s'.status = r.code → 0 ≤ s'.bytes →
      overNet http1 n raises isHEAD B fuel assertErr onPanic (.resp r) =
        (s'.next, metricsOf (itoa r.code) s'.bytes (o.map .error) assertErr, ended onPanic o) := by
    intro b s' o hs hst hb
    have := adaptor_served assertErr onPanic hs (by rw [hst]; omega) hb
    rw [hst] at this
    show (let x := adaptor (Writer.wr N raises kind) B fuel assertErr onPanic (.resp r) s₀; (x.1.next, x.2)) = _
    rw [this]
  dsimp only
  by_cases hm : isHEAD = true ∨ r.code = 204
  · obtain ⟨b1, -⟩ := serve_broken (B := B) (fuel := fuel) (C := C) a1 hwh
      (broken_ioCopy (e := roomError r.code) hB hK (passes_mute N C K raises kind s₂ ⟨hm, hs0⟩ (fun _ _ => True)) fuel _ _ hP rfl hf)
    obtain ⟨b1, b2⟩ := b1 (Nat.le_refl _)
    rcases hq : serve (Writer.ops N raises kind) B fuel r s₀ with ⟨b, s', o⟩
    rw [hq] at b1 b2
    dsimp only at b1 b2
    subst b1 b2
    rw [final b s₂ _ hq rfl (by show (0 : Int) ≤ 0; omega)]
    refine ⟨rfl, rfl, rfl, rfl, fun _ => ?_, fun h => absurd hm h⟩
    simp only [sentBody, if_pos hm]
    exact ⟨rfl, rfl, rfl⟩
  · have hh : isHEAD = false := by cases isHEAD <;> simp at hm ⊢
    have hp : Passing s₂ := ⟨hh, hs0, fun h => hm (.inr h)⟩
    have hok : WLim (NetOk r.code (declaredLength r.hdrs) H (room r.code (declaredLength r.hdrs) C)) s₂ s₂ [] :=
      ⟨rfl, rfl, rfl, ⟨hh, rfl, rfl, rfl, rfl, rfl, Nat.zero_le _⟩⟩
    obtain ⟨b1, b2⟩ := serve_broken (B := B) (fuel := fuel) (C := C) a1 hwh
      (broken_ioCopy hB hK (passes_writer (passes_net hB.real h1 hK http1 n hn) raises kind hk s₂ hp) fuel _ _ hP hok hf)
    rcases hq : serve (Writer.ops N raises kind) B fuel r s₀ with ⟨b, s', o⟩
    rw [hq] at b1 b2
    dsimp only at b1 b2
    by_cases hl : C.length ≤ room r.code (declaredLength r.hdrs) C
    · obtain ⟨rfl, c1, c2, c3, c4⟩ := b1 hl
      rw [final b s' _ hq c1 (by rw [c3]; omega), c3]
      refine ⟨by rw [c4.head, hh], c4.status, c4.declared, c4.hdrs, fun _ => ?_, fun _ h => by omega⟩
      simp only [sentBody, if_neg hm]
      exact ⟨c4.body, rfl, rfl⟩
    · obtain ⟨rfl, l, d1, d2, c1, c2, c3, c4⟩ := b2 (by omega)
      rw [final b s' _ hq c1 (by rw [c3]; omega), c3]
      refine ⟨by rw [c4.head, hh], c4.status, c4.declared, c4.hdrs, fun h => ?_, fun _ _ => ?_⟩
      · rcases h with h | h | h
        · exact absurd (.inl h) hm
        · exact absurd (.inr h) hm
        · exact absurd h hl
      · dsimp only
        rw [c4.body]
        exact ⟨d1, d2, rfl, rfl⟩

/-- **C66.** The failure is always counted and reported exactly once. -/
theorem C66_reported {C : List Byte} {K : Nat} (hK : 32768 ≤ K) {B : BodyOps β} {P : β → List Byte → Prop} {e : Err} (hB : Failing B P K e)
    (http1 : Bool) (n : Nat) (hn : C.length < n) (raises isHEAD : Bool) (fuel : Nat) (hf : C.length < fuel) (assertErr : Bool)
    (onPanic : PanicArg → Res Unit) (r : Resp β) (hP : P r.body C) (h1 : 200 ≤ r.code) (h2 : r.code ≤ 999) (hnd : (r.hdrs.map Prod.fst).Nodup) :
    let x := overNet http1 n raises isHEAD B fuel assertErr onPanic (.resp r)
    ∃ e', (e' = e ∨ e' = roomError r.code) ∧ panicsCounted x.2.1 = 1 ∧ panicsReported x.2.1 = [.itself (.error e')] ∧
      x.2.2 = onPanic (.itself (.error e')) := by
  obtain ⟨-, -, -, -, a5, a6⟩ := C66_request hK hB http1 n hn raises isHEAD fuel hf assertErr onPanic r hP h1 h2 hnd
  dsimp only at a5 a6 ⊢
  generalize overNet http1 n raises isHEAD B fuel assertErr onPanic (.resp r) = x at a5 a6 ⊢
  by_cases hc : isHEAD = true ∨ r.code = 204 ∨ C.length ≤ room r.code (declaredLength r.hdrs) C
  · obtain ⟨-, b2, b3⟩ := a5 hc
    have f := metricsOf_facts (itoa r.code) (sentBody isHEAD r.code C).length (some (.error e)) assertErr
    exact ⟨e, .inl rfl, by rw [b2, f.2.2.2.1]; simp, by rw [b2, f.2.2.2.2.1]; simp [Panic.isErr], b3⟩
  · obtain ⟨-, -, b2, b3⟩ := a6 (fun h => hc (h.elim .inl fun h => .inr (.inl h))) (Nat.lt_of_not_le fun h => hc (.inr (.inr h)))
    have f := metricsOf_facts (itoa r.code) x.1.body.length (some (.error (roomError r.code))) assertErr
    exact ⟨_, .inr rfl, by rw [b2, f.2.2.2.1]; simp, by rw [b2, f.2.2.2.2.1]; simp [Panic.isErr], b3⟩

/-- **C66** (the part that is true of the code).  If a Content-Length header promises more than there was before the failure, the client can tell: the
message ends too early.  The full statement would be the same without `hk` and `hC`; that is false, see `C66_undeclared` and `C66_fails`. -/
theorem C66_declared_partial {C : List Byte} {K : Nat} (hK : 32768 ≤ K) {B : BodyOps β} {P : β → List Byte → Prop} {e : Err} (hB : Failing B P K e)
    (http1 : Bool) (n : Nat) (hn : C.length < n) (raises : Bool) (fuel : Nat) (hf : C.length < fuel) (assertErr : Bool)
    (onPanic : PanicArg → Res Unit) (r : Resp β) (hP : P r.body C) (h1 : 200 ≤ r.code) (h2 : r.code ≤ 999) (h3 : r.code ≠ 204) (h4 : r.code ≠ 304)
    (hnd : (r.hdrs.map Prod.fst).Nodup) (k : Nat) (hk : declaredLength r.hdrs = some k) (hC : C.length < k) :
    let x := overNet http1 n raises false B fuel assertErr onPanic (.resp r)
    x.1.body = C ∧ ¬ SeemsWhole x := by
  obtain ⟨a1, a2, a3, a4, a5, a6⟩ := C66_request hK hB http1 n hn raises false fuel hf assertErr onPanic r hP h1 h2 hnd
  dsimp only at a1 a2 a3 a4 a5 a6 ⊢
  generalize overNet http1 n raises false B fuel assertErr onPanic (.resp r) = x at a1 a2 a3 a4 a5 a6 ⊢
  obtain ⟨b1, b2, b3⟩ := a5 (.inr (.inr (by simp [room, h3, h4, hk]; omega)))
  have hc : sentBody false r.code C = C := by simp [sentBody, h3]
  rw [hc] at b1
  refine ⟨b1, fun hS => ?_⟩
  have hF := hS.1
  unfold Framed at hF
  rw [if_neg (by simp [a1, a2, h3, h4]), a3, b1] at hF
  have := hF k hk
  omega

/-- **C66.** Without a Content-Length header it depends on `OnPanic` alone: if it returns (the default does), the response that was cut off looks whole. -/
theorem C66_undeclared {C : List Byte} {K : Nat} (hK : 32768 ≤ K) {B : BodyOps β} {P : β → List Byte → Prop} {e : Err} (hB : Failing B P K e)
    (http1 : Bool) (n : Nat) (hn : C.length < n) (raises : Bool) (fuel : Nat) (hf : C.length < fuel) (assertErr : Bool)
    (onPanic : PanicArg → Res Unit) (r : Resp β) (hP : P r.body C) (h1 : 200 ≤ r.code) (h2 : r.code ≤ 999) (h3 : r.code ≠ 204) (h4 : r.code ≠ 304)
    (hnd : (r.hdrs.map Prod.fst).Nodup) (hk : declaredLength r.hdrs = none) :
    let x := overNet http1 n raises false B fuel assertErr onPanic (.resp r)
    x.1.body = C ∧ x.1.status = r.code ∧ (SeemsWhole x ↔ onPanic (.itself (.error e)) = .ret ()) := by
  obtain ⟨a1, a2, a3, a4, a5, a6⟩ := C66_request hK hB http1 n hn raises false fuel hf assertErr onPanic r hP h1 h2 hnd
  dsimp only at a1 a2 a3 a4 a5 a6 ⊢
  generalize overNet http1 n raises false B fuel assertErr onPanic (.resp r) = x at a1 a2 a3 a4 a5 a6 ⊢
  obtain ⟨b1, b2, b3⟩ := a5 (.inr (.inr (by simp [room, h3, h4, hk])))
  have hc : sentBody false r.code C = C := by simp [sentBody, h3]
  rw [hc] at b1
  have hF : Framed x.1 := by
    unfold Framed
    rw [if_neg (by simp [a1, a2, h3, h4]), a3, hk]
    simp
  refine ⟨b1, a2, fun h => by rw [← b3]; exact h.2, fun h => ⟨hF, by rw [b3, h]⟩⟩

/-- **C66.** In all cases: the client cannot tell exactly if `OnPanic` returns and the number of bytes sent is the declared one (or none is declared, or
there is no body anyway). -/
theorem C66_whole_iff {C : List Byte} {K : Nat} (hK : 32768 ≤ K) {B : BodyOps β} {P : β → List Byte → Prop} {e : Err} (hB : Failing B P K e)
    (http1 : Bool) (n : Nat) (hn : C.length < n) (raises isHEAD : Bool) (fuel : Nat) (hf : C.length < fuel) (assertErr : Bool)
    (onPanic : PanicArg → Res Unit) (r : Resp β) (hP : P r.body C) (h1 : 200 ≤ r.code) (h2 : r.code ≤ 999) (hnd : (r.hdrs.map Prod.fst).Nodup)
    (hroom : isHEAD = true ∨ r.code = 204 ∨ C.length ≤ room r.code (declaredLength r.hdrs) C) :
    SeemsWhole (overNet http1 n raises isHEAD B fuel assertErr onPanic (.resp r)) ↔
      onPanic (.itself (.error e)) = .ret () ∧ HasRoom isHEAD r.code (declaredLength r.hdrs) C := by
  obtain ⟨a1, a2, a3, a4, a5, -⟩ := C66_request hK hB http1 n hn raises isHEAD fuel hf assertErr onPanic r hP h1 h2 hnd
  generalize overNet http1 n raises isHEAD B fuel assertErr onPanic (.resp r) = x at a1 a2 a3 a4 a5 ⊢
  obtain ⟨b1, -, b3⟩ := a5 hroom
  unfold SeemsWhole
  rw [b3]
  rw [and_comm]
  refine and_congr Iff.rfl ?_
  unfold Framed HasRoom
  rw [a1, a2, a3, b1]
  by_cases hm : isHEAD = true ∨ r.code = 204
  · have : sentBody isHEAD r.code C = [] := by simp [sentBody, hm]
    rw [if_pos (by rcases hm with h | h <;> simp [h]), this]
    refine ⟨fun _ => ?_, fun _ => rfl⟩
    rcases hm with h | h <;> simp [h]
  · have hs : sentBody isHEAD r.code C = C := by simp [sentBody, hm]
    rw [hs]
    by_cases h3 : r.code = 304
    · rw [if_pos (by simp [h3])]
      exact ⟨fun h => .inr (.inr (.inl ⟨h3, h⟩)), fun h => by
        rcases h with h | h | h | h
        · exact absurd (.inl h) hm
        · exact absurd (.inr h) hm
        · exact h.2
        · exact absurd h3 h.1⟩
    · rw [if_neg (by rintro (h | h | h) <;> simp_all)]
      exact ⟨fun h => .inr (.inr (.inr ⟨h3, fun n hn => (h n hn).symm⟩)), fun h => by
        rcases h with h | h | h | h
        · exact absurd (.inl h) hm
        · exact absurd (.inr h) hm
        · exact absurd h.1 h3
        · exact fun n hn => (h.2 n hn).symm⟩


/-! ## The Bodies of this repository -/

/-- **C66.** A Body over a plain `io.Reader` that fails with `e` after `T`. -/
theorem C66_stream {R : Rdr σ} [R.CloseOk] {e : Err} (he : e ≠ .eof) {Inv : σ → List Byte → Prop} (hS : IsStream R e Inv) {b : Nat} {idle : σ → Nat}
    (hE : Eager R b idle) {st : σ} {T : List Byte} (hi : Inv st T) (L : Int) (hL : L < 0 ∨ (T.length : Int) < L) (loops : Nat)
    (hl : 98304 * (b + 1) + b < loops) (http1 : Bool) (n : Nat) (hn : T.length < n) (raises isHEAD : Bool) (fuel : Nat) (hf : T.length < fuel)
    (assertErr : Bool) (onPanic : PanicArg → Res Unit) (code : Int) (h1 : 200 ≤ code) (h2 : code ≤ 999) (hdrs : List (GoStr × List GoStr))
    (hnd : (hdrs.map Prod.fst).Nodup) (err : Option Err) (hroom : isHEAD = true ∨ code = 204 ∨ T.length ≤ room code (declaredLength hdrs) T) :
    let x := overNet http1 n raises isHEAD (BodyOps.ofFam (streamStep R loops) false 0) fuel assertErr onPanic
      (.resp { code, hdrs, body := streamInit st L, err })
    x.1.body = sentBody isHEAD code T ∧ x.2.1 = metricsOf (itoa code) (sentBody isHEAD code T).length (some (.error e)) assertErr ∧
    (SeemsWhole x ↔ onPanic (.itself (.error e)) = .ret () ∧ HasRoom isHEAD code (declaredLength hdrs) T) := by
  have hB := stream_failing he hS hE T L hL 32768 (by omega) loops (by omega) 0
  have hP : SrcRel (StreamRel R e Inv T L) 0 (streamInit st L) T := by
    refine ⟨_, _, streamRel_init st T hi L, rfl, rfl, ?_⟩
    simp only [Cursor.rest, cut, Bool.false_eq_true, if_false, List.drop_zero]
    split
    · rw [List.take_of_length_le (by omega)]
    · rfl
  obtain ⟨-, -, -, -, a5, -⟩ := C66_request (Nat.le_refl 32768) hB http1 n hn raises isHEAD fuel hf assertErr onPanic
    { code, hdrs, body := streamInit st L, err } hP h1 h2 hnd
  exact ⟨(a5 hroom).1, (a5 hroom).2.1, C66_whole_iff (Nat.le_refl 32768) hB http1 n hn raises isHEAD fuel hf assertErr onPanic
    { code, hdrs, body := streamInit st L, err } hP h1 h2 hnd hroom⟩

/-- **C66.** A Body of length `m` over an `io.ReaderAt` that fails with `e` beyond `F`. -/
theorem C66_readerAt {R : Rdr σ} {F : List Byte} {e : Err} (he : e ≠ .eof) {Inv : σ → Prop} (hR : BreaksAt R F e Inv) {st : σ} (hi : Inv st)
    (m : Nat) (hm : F.length < m) (hm63 : m < 2 ^ 63) (http1 : Bool) (n : Nat) (hn : F.length < n) (raises isHEAD : Bool) (fuel : Nat) (hf : F.length < fuel)
    (assertErr : Bool) (onPanic : PanicArg → Res Unit) (code : Int) (h1 : 200 ≤ code) (h2 : code ≤ 999) (hdrs : List (GoStr × List GoStr))
    (hnd : (hdrs.map Prod.fst).Nodup) (err : Option Err) (hroom : isHEAD = true ∨ code = 204 ∨ F.length ≤ room code (declaredLength hdrs) F) :
    let x := overNet http1 n raises isHEAD (BodyOps.ofFam (ReaderAtBody.step R) false 0) fuel assertErr onPanic
      (.resp { code, hdrs, body := ReaderAtBody.init st m, err })
    x.1.body = sentBody isHEAD code F ∧ x.2.1 = metricsOf (itoa code) (sentBody isHEAD code F).length (some (.error e)) assertErr ∧
    (SeemsWhole x ↔ onPanic (.itself (.error e)) = .ret () ∧ HasRoom isHEAD code (declaredLength hdrs) F) := by
  have hB := readerAt_failing he hR 0 32768
  have hP := doomed_init F e hi m hm hm63
  obtain ⟨-, -, -, -, a5, -⟩ := C66_request (Nat.le_refl 32768) hB http1 n hn raises isHEAD fuel hf assertErr onPanic
    { code, hdrs, body := ReaderAtBody.init st m, err } hP h1 h2 hnd
  exact ⟨(a5 hroom).1, (a5 hroom).2.1, C66_whole_iff (Nat.le_refl 32768) hB http1 n hn raises isHEAD fuel hf assertErr onPanic
    { code, hdrs, body := ReaderAtBody.init st m, err } hP h1 h2 hnd hroom⟩

/-- **C66.** A Body of length `m` over an `io.ReadSeeker` that fails with `e` beyond `F`. -/
theorem C66_seeker {R : Rdr σ} {F : List Byte} {e : Err} (he : e ≠ .eof) {At : σ → Nat → Prop} (hR : BreaksSeeking R F e At) {st : σ} {p : Nat} (hi : At st p)
    (m : Nat) (hm : F.length < m) (hm63 : m < 2 ^ 63) (http1 : Bool) (n : Nat) (hn : F.length < n) (raises isHEAD : Bool) (fuel : Nat) (hf : F.length < fuel)
    (assertErr : Bool) (onPanic : PanicArg → Res Unit) (code : Int) (h1 : 200 ≤ code) (h2 : code ≤ 999) (hdrs : List (GoStr × List GoStr))
    (hnd : (hdrs.map Prod.fst).Nodup) (err : Option Err) (hroom : isHEAD = true ∨ code = 204 ∨ F.length ≤ room code (declaredLength hdrs) F) :
    let x := overNet http1 n raises isHEAD (BodyOps.ofFam (SeekerBody.step R) false 0) fuel assertErr onPanic
      (.resp { code, hdrs, body := SeekerBody.init st m, err })
    x.1.body = sentBody isHEAD code F ∧ x.2.1 = metricsOf (itoa code) (sentBody isHEAD code F).length (some (.error e)) assertErr ∧
    (SeemsWhole x ↔ onPanic (.itself (.error e)) = .ret () ∧ HasRoom isHEAD code (declaredLength hdrs) F) := by
  have hB := seeker_failing he hR 0 32768
  have hP : Doomed F e (fun st => ∃ p, At st p) 0 (SeekerBody.init st m) F := doomed_init F e (Inv := fun st => ∃ p, At st p) ⟨p, hi⟩ m hm hm63
  obtain ⟨-, -, -, -, a5, -⟩ := C66_request (Nat.le_refl 32768) hB http1 n hn raises isHEAD fuel hf assertErr onPanic
    { code, hdrs, body := SeekerBody.init st m, err } hP h1 h2 hnd
  exact ⟨(a5 hroom).1, (a5 hroom).2.1, C66_whole_iff (Nat.le_refl 32768) hB http1 n hn raises isHEAD fuel hf assertErr onPanic
    { code, hdrs, body := SeekerBody.init st m, err } hP h1 h2 hnd hroom⟩

/-! ## From the Builder -/

variable {X : Type}

/-- **C66.** A Response made by a Builder that has no Content-Length header of its own.  With a Body that knows its length `m`, and fails before it, the
client can tell.  With a Body that does not know its length, it cannot, unless `OnPanic` panics. -/
theorem C66_built {E : BEnv X} (hE : NoShared E) {s : BState X} (hs : Reached E s) {h : Nat} {b : Bld} (hb : s.blds[h]? = some b)
    {i : Nat} (hi : b.body = some i) (hcl : s.heap.lookup b.hdrs (lit "Content-Length") = none) (hcode : b.code ≠ 204 ∧ b.code ≠ 304)
    {C : List Byte} {K : Nat} (hK : 32768 ≤ K) {B : BodyOps X} {P : X → List Byte → Prop} {e : Err} (hB : Failing B P K e) (hP : P s.bodies C)
    (http1 : Bool) (n : Nat) (hn : C.length < n) (raises : Bool) (fuel : Nat) (hf : C.length < fuel) (assertErr : Bool) (onPanic : PanicArg → Res Unit) :
    ∃ s' r, s.step E (.build h) = (s', .made s.rsps.length) ∧ s'.rsps[s.rsps.length]? = some r ∧ r.body = some i ∧ s'.bodies = s.bodies ∧
      ∀ hdrs, Lists hdrs (s'.heap.lookup r.hdrs) → (hdrs.map Prod.fst).Nodup →
        let x := overNet http1 n raises false B fuel assertErr onPanic (.resp { code := r.code, hdrs, body := s'.bodies, err := r.err })
        (∀ m : Nat, E.store.remaining s.bodies i = m → C.length < m → m < 2 ^ 63 → x.1.body = C ∧ ¬ SeemsWhole x) ∧
        (E.store.remaining s.bodies i < 0 → x.1.body = C ∧ (SeemsWhole x ↔ onPanic (.itself (.error e)) = .ret ())) := by
  obtain ⟨s', r, h1, h2, h3⟩ := C27_headers hE hs hb hi
  obtain ⟨H', r', g1, g2, g3, -, -⟩ := build_step hE hs hb hi
  rw [h1] at g1
  obtain ⟨rfl, -⟩ := Prod.mk.inj g1
  have hr : r' = r := by simpa using h2
  subst hr
  have hrange : 200 ≤ r'.code ∧ r'.code ≤ 999 := by
    obtain ⟨Y, ops, hl, e⟩ := hs.step (op := .build h) trivial
    rw [h1] at e
    exact C26_range E Y ops (by rw [← e]; exact h2)
  have hc : r'.code ≠ 204 ∧ r'.code ≠ 304 := by
    rw [g2]
    split
    · omega
    · exact hcode
  refine ⟨_, r', h1, h2, by rw [g3, hi], rfl, fun hdrs hlist hnd => ⟨fun m hm hCm hm63 => ?_, fun hneg => ?_⟩⟩
  · obtain ⟨v, hv1, hv2⟩ := h3.2.2.1 hcl (by rw [hm]; omega)
    have hd : declaredLength hdrs = some m := by
      unfold declaredLength
      rw [hdrGet_lists hlist hv1]
      exact parseLength_decimal v m (by rw [hv2, hm]) hm63
    exact C66_declared_partial hK hB http1 n hn raises fuel hf assertErr onPanic { code := r'.code, hdrs, body := s.bodies, err := r'.err } hP
      hrange.1 hrange.2 hc.1 hc.2 hnd m hd hCm
  · have hv := h3.2.2.2.1 hcl hneg
    have hd : declaredLength hdrs = none := by
      unfold declaredLength hdrGet
      cases hf : hdrs.find? (fun e => e.1 = lit "Content-Length") with
      | none => rfl
      | some e =>
        exfalso
        obtain ⟨k', v'⟩ := e
        have h1 := List.find?_some hf
        simp only [decide_eq_true_eq] at h1
        subst h1
        have := (hlist _ v').1 (List.mem_of_find?_eq_some hf)
        rw [hv] at this
        cases this
    have := C66_undeclared hK hB http1 n hn raises fuel hf assertErr onPanic { code := r'.code, hdrs, body := s.bodies, err := r'.err } hP
      hrange.1 hrange.2 hc.1 hc.2 hnd hd
    exact ⟨this.1, this.2.2⟩

/-! ## The negation, and examples -/

/-- A Reader that delivers what is left of its state and then fails with `e`. -/
def Spec.breaking (e : Err) : Rdr (List Byte) where
  read s n := if s = [] then ([], .got [] (some e)) else (s.drop n, .got (s.take n) none)
  readAt s n off := (s, .got ((s.drop off.toNat).take n) (if ((s.drop off.toNat).take n).length < n then some e else none))
  close s := (s, .ok none)
  seek s _ _ := (s, .ok (0, some .notSupported))
  stat s := (s, .ok (0, some .notSupported))
  isReaderAt := false
  isSeeker := false
  isFile := false
  isCloser := false

instance (e : Err) : (breaking e).CloseOk := ⟨fun h => by cases h⟩

theorem breaking_stream (e : Err) : IsStream (breaking e) e (fun st T => st = T) := by
  refine ⟨?_⟩
  rintro st _ n hn rfl
  by_cases hs : st = []
  · subst hs
    exact ⟨[], [], some e, [], rfl, by simp, rfl, by simp, fun x hx => ⟨rfl, (Option.some.inj hx).symm⟩⟩
  · exact ⟨st.drop n, st.take n, none, st.drop n, by simp [breaking, hs], by rw [List.length_take]; omega, (List.take_append_drop n st).symm,
      fun _ => rfl, by simp⟩

theorem breaking_eager (e : Err) : Eager (breaking e) 0 (fun _ => 0) := by
  refine ⟨fun _ => Nat.le_refl 0, fun st n hn h => ?_⟩
  exfalso
  simp only [breaking] at h
  split at h
  · cases h
  · rename_i hs
    simp only [RResp.got.injEq, List.take_eq_nil_iff] at h
    rcases h.1 with h | h
    · omega
    · exact hs h

theorem breaking_at (e : Err) (F : List Byte) : BreaksAt (breaking e) F e (fun st => st = F) := by
  refine ⟨?_, fun h => by cases h⟩
  rintro st x off rfl h0 h63
  refine ⟨st, _, rfl, rfl, fun h => if_pos h, fun h => ?_, ?_⟩
  · show (if _ then _ else _) = _
    rw [if_neg (by rw [List.length_take, List.length_drop]; omega)]
  · show (if _ then _ else _) = _ ∨ (if _ then _ else _) = _
    split <;> simp

/-- **C66 is false of the code**: it is not so that a client could always tell that the Body failed, with the default `OnPanic`.  (`loops`, `n`, `fuel` are bounds of the
model for loops; any that are large enough will do.) -/
theorem C66_fails : ¬ ∀ (R : Rdr (List Byte)) (e : Err) (Inv : List Byte → List Byte → Prop) (st T : List Byte), R.CloseOk → e ≠ .eof → IsStream R e Inv →
    Inv st T → ∀ loops n fuel : Nat, 98304 < loops → T.length < n → T.length < fuel →
      ¬ SeemsWhole (overNet true n false false (BodyOps.ofFam (streamStep R loops) false 0) fuel true (fun _ => .ret ())
        (.resp { code := 200, hdrs := [], body := streamInit st (-1), err := none })) := by
  intro h
  refine h (breaking (.ext 7)) (.ext 7) _ (lit "hel") (lit "hel") inferInstance (by simp) (breaking_stream _) rfl 98305 4 4 (by omega) (by decide +kernel) (by decide +kernel) ?_
  exact (C66_stream (e := .ext 7) (by simp) (breaking_stream _) (breaking_eager _) rfl (-1) (.inl (by omega)) 98305 (by omega) true 4 (by decide +kernel) false false 4
    (by decide +kernel) true (fun _ => .ret ()) 200 (by omega) (by omega) [] (by simp) none (.inr (.inr (by decide +kernel)))).2.2.2
    ⟨rfl, .inr (.inr (.inr ⟨by omega, fun n hn => by cases hn⟩))⟩

/-- **C66.** Worse: with the default `OnPanic` and no Content-Length header, what the client gets is the same as from a Body that has only those bytes and does not
fail. -/
theorem C66_same {β' : Type} {C : List Byte} {K : Nat} (hK : 32768 ≤ K) {B : BodyOps β} {P : β → List Byte → Prop} {e : Err} (hB : Failing B P K e)
    {B' : BodyOps β'} {P' : β' → List Byte → Prop} (hB' : Lively B' P' K) (hQ' : Quits B' P')
    (http1 : Bool) (n : Nat) (hn : C.length < n) (raises : Bool) (fuel : Nat) (hf : C.length < fuel) (assertErr : Bool)
    (b : β) (b' : β') (hP : P b C) (hP' : P' b' C) (code : Int) (h1 : 200 ≤ code) (h2 : code ≤ 999) (h3 : code ≠ 204) (h4 : code ≠ 304)
    (hdrs : List (GoStr × List GoStr)) (hnd : (hdrs.map Prod.fst).Nodup) (hk : declaredLength hdrs = none) (err : Option Err) :
    let x := overNet http1 n raises false B fuel assertErr (fun _ => .ret ()) (.resp { code, hdrs, body := b, err })
    let y := overNet http1 n raises false B' fuel assertErr (fun _ => .ret ()) (.resp { code, hdrs, body := b', err })
    x.1.status = y.1.status ∧ x.1.hdrs = y.1.hdrs ∧ x.1.body = y.1.body ∧ SeemsWhole x ∧ SeemsWhole y := by
  dsimp only
  obtain ⟨-, a2, a3, a4, -, -⟩ := C66_request hK hB http1 n hn raises false fuel hf assertErr (fun _ => .ret ()) { code, hdrs, body := b, err } hP h1 h2 hnd
  obtain ⟨c1, -, c3⟩ := C66_undeclared hK hB http1 n hn raises fuel hf assertErr (fun _ => .ret ()) { code, hdrs, body := b, err } hP h1 h2 h3 h4 hnd hk
  obtain ⟨-, b2, b3, b4, b5, -⟩ := C64_request hK hB' hQ' http1 n hn raises false fuel hf assertErr (fun _ => .ret ()) { code, hdrs, body := b', err } hP' h1 h2 hnd
  have hi := (C64_iff hK hB' hQ' http1 n hn raises false fuel hf assertErr (fun _ => .ret ()) { code, hdrs, body := b', err } hP' h1 h2 hnd).2
    (.inr (.inr (.inr ⟨h4, fun n hn => by rw [hk] at hn; cases hn⟩)))
  refine ⟨by rw [a2, b2], by rw [a4, b4], ?_, c3.2 rfl, hi.framed, hi.returned⟩
  have := hi.body
  rw [if_neg (by simp [h3])] at this
  rw [c1, this]

private def exBroken (http1 isHEAD : Bool) (hdrs : List (GoStr × List GoStr)) : NetW × List MEv × Res Unit :=
  overNet http1 100 false isHEAD (BodyOps.ofFam (ReaderAtBody.step (breaking (.ext 7))) false 0) 100 true (fun _ => .ret ())
    (.resp { code := 200, hdrs, body := ReaderAtBody.init (lit "hel") 5, err := none })

/-- Nothing declared: `hel` in a message that looks whole; the error is reported on the server only. -/
example : (exBroken true false []).1 = { isHEAD := false, status := 200, written := 3, body := lit "hel" } ∧
    panicsReported (exBroken true false []).2.1 = [.itself (.error (.ext 7))] ∧ (exBroken true false []).2.2 = .ret () := by
  decide +kernel

/-- The hypotheses of `C66_readerAt` are satisfied. -/
example : SeemsWhole (exBroken false false []) :=
  (C66_readerAt (by simp) (breaking_at (.ext 7) (lit "hel")) rfl 5 (by decide +kernel) (by omega) false 100 (by decide +kernel) false false 100 (by decide +kernel) true
    (fun _ => .ret ()) 200 (by omega) (by omega) [] (by simp) none (.inr (.inr (by decide +kernel)))).2.2.2
    ⟨rfl, .inr (.inr (.inr ⟨by omega, fun n hn => by cases hn⟩))⟩

/-- And of `C66_declared_partial`. -/
example : (exBroken true false [(lit "Content-Length", [lit "5"])]).1.body = lit "hel" ∧ ¬ SeemsWhole (exBroken true false [(lit "Content-Length", [lit "5"])]) :=
  C66_declared_partial (Nat.le_refl 32768) (readerAt_failing (by simp) (breaking_at (.ext 7) (lit "hel")) 0 32768) true 100 (by decide +kernel) false 100 (by decide +kernel)
    true (fun _ => .ret ()) _ (doomed_init (lit "hel") (.ext 7) (Inv := fun st => st = lit "hel") rfl 5 (by decide +kernel) (by omega)) (by show (200 : Int) ≤ 200; omega)
    (by show (200 : Int) ≤ 999; omega) (by show (200 : Int) ≠ 204; omega) (by show (200 : Int) ≠ 304; omega) (by simp) 5 (by decide +kernel) (by decide +kernel)

/-- HEAD: the Body is read all the same, and the failure is reported. -/
example : (exBroken true true [(lit "Content-Length", [lit "5"])]).1.body = [] ∧
    panicsReported (exBroken true true [(lit "Content-Length", [lit "5"])]).2.1 = [.itself (.error (.ext 7))] := by
  decide +kernel

/-- An `io.ReadSeeker` that delivers what is left of `F` and then fails with `e`; its state is where it stands. -/
def Spec.breakingSeeker (F : List Byte) (e : Err) : Rdr Nat where
  read p n := (p + ((F.drop p).take n).length, .got ((F.drop p).take n) (if ((F.drop p).take n).length < n then some e else none))
  readAt p _ _ := (p, .got [] (some .notSupported))
  close p := (p, .ok none)
  seek _ off _ := (off.toNat, .ok (off, none))
  stat p := (p, .ok (0, some .notSupported))
  isReaderAt := false
  isSeeker := true
  isFile := false
  isCloser := true

/-- The hypotheses of `C66_seeker` are satisfied. -/
example : SeemsWhole (overNet true 100 false false (BodyOps.ofFam (SeekerBody.step (breakingSeeker (lit "hel") (.ext 7))) false 0) 100 true (fun _ => .ret ())
    (.resp { code := 200, hdrs := [], body := SeekerBody.init 0 5, err := none })) := by
  have hR : BreaksSeeking (breakingSeeker (lit "hel") (.ext 7)) (lit "hel") (.ext 7) (fun st p => st = p) := by
    refine ⟨fun st p off _ _ _ => ⟨_, _, rfl, rfl⟩, ?_, fun _ st => ⟨none, rfl⟩⟩
    rintro st p x rfl
    refine ⟨_, _, rfl, ⟨_, rfl⟩, fun h => if_pos h, fun h => if_neg (by rw [List.length_take, List.length_drop]; omega), ?_⟩
    split <;> simp
  exact (C66_seeker (by simp) hR rfl 5 (by decide +kernel) (by omega) true 100 (by decide +kernel) false false 100 (by decide +kernel) true
    (fun _ => .ret ()) 200 (by omega) (by omega) [] (by simp) none (.inr (.inr (by decide +kernel)))).2.2.2
    ⟨rfl, .inr (.inr (.inr ⟨by omega, fun n hn => by cases hn⟩))⟩

/-- An environment in which there is one family of Bodies, over an `io.ReaderAt` that fails. -/
private def brkEnv : BEnv (PosSys (List Byte)) where
  store := {
    remaining := fun X i => (BodyOps.ofFam (ReaderAtBody.step (breaking (.ext 7))) false i).remaining X
    copy := fun X i => match ReaderAtBody.step (breaking (.ext 7)) X (.copy i) with
      | (X, .copied h) => (X, .ret (.ok h))
      | (X, _) => (X, .hang)
    fromBytes := fun X _ => (X, 0) }
  gens _ := { error := fun X _ _ => (X, .ret (.nil, some 0)), redirect := fun X _ _ => (X, .ret (.nil, some 0)) }
  mime := some
  spare n := n

/-- The hypotheses of `C66_built` are satisfied: a Builder with a Body of 5 bytes that fails after 3. -/
example : ∃ s' r, (BState.after brkEnv { bodies := ReaderAtBody.init (lit "hel") 5 } [.new, .on 0 (.withBody (some 0))]).step brkEnv (.build 0) = (s', .made 0) ∧
    s'.rsps[0]? = some r ∧ ∀ hdrs, Lists hdrs (s'.heap.lookup r.hdrs) → (hdrs.map Prod.fst).Nodup →
      ¬ SeemsWhole (overNet true 100 false false (BodyOps.ofFam (ReaderAtBody.step (breaking (.ext 7))) false 0) 100 true (fun _ => .ret ())
        (.resp { code := r.code, hdrs, body := s'.bodies, err := r.err })) := by
  have hs : Reached brkEnv (BState.after brkEnv { bodies := ReaderAtBody.init (lit "hel") 5 } [.new, .on 0 (.withBody (some 0))]) :=
    ⟨_, _, by simp [BOp.legal], rfl⟩
  have hE : NoShared brkEnv := by
    intro g X
    constructor <;> intros <;> simp [brkEnv]
  obtain ⟨s', r, h1, h2, -, -, h3⟩ := C66_built hE hs (h := 0) (b := { body := some 0 }) (by decide +kernel) (i := 0) rfl (by decide +kernel) (by decide) (Nat.le_refl 32768)
    (readerAt_failing (by simp) (breaking_at (.ext 7) (lit "hel")) 0 32768)
    (show Doomed (lit "hel") (.ext 7) (fun st => st = lit "hel") 0 (ReaderAtBody.init (lit "hel") 5) (lit "hel") from
      doomed_init (lit "hel") (.ext 7) (Inv := fun st => st = lit "hel") rfl 5 (by decide +kernel) (by omega))
    true 100 (by decide +kernel) false 100 (by decide +kernel) true (fun _ => .ret ())
  exact ⟨s', r, h1, h2, fun hdrs hl hnd => ((h3 hdrs hl hnd).1 5 (by decide +kernel) (by decide +kernel) (by omega)).2⟩

end Verif
