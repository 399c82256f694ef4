import Verif.Proofs.NetHttp
import Verif.Proofs.Quits
import Verif.Props.EndToEnd

/-!
# C64: over the ResponseWriter of `net/http`

`C64_request`: what is on the wire, in the metrics and reported, for every Response whose Body delivers its bytes.
-/

set_option autoImplicit false

namespace Verif
open Spec
variable {β ω σ : Type}

theorem net_pushAll (http1 : Bool) (n : Nat) (urls : List GoStr) (w : NetW) : pushAll (netRW http1 n) urls w = (w, none) := by
  induction urls with
  | nil => rfl
  | cons u urls ih =>
    have e : (netRW http1 n).push w u = (w, .ret (some .notSupported)) := rfl
    simp only [pushAll, e]
    simpa using ih

theorem netSet_new (k : GoStr) (v : List GoStr) (l : List (GoStr × List GoStr)) (h : k ∉ l.map Prod.fst) : NetW.set k v l = l ++ [(k, v)] := by
  induction l with
  | nil => rfl
  | cons e l ih =>
    simp only [List.map_cons, List.mem_cons, not_or] at h
    simp only [NetW.set]
    rw [if_neg (fun h' => h.1 h'.symm), ih h.2]
    rfl

theorem net_setAll (http1 : Bool) (n : Nat) (hdrs : List (GoStr × List GoStr)) :
    ∀ w : NetW, (w.hdrs.map Prod.fst ++ hdrs.map Prod.fst).Nodup →
      setAll (netRW http1 n) hdrs w = { w with hdrs := w.hdrs ++ hdrs.filter fun e => e.1 ≠ headerPush } := by
  induction hdrs with
  | nil => intro w _; simp [setAll]
  | cons e hdrs ih =>
    intro w hnd
    simp only [setAll, List.foldl_cons] at ih ⊢
    by_cases h : e.1 ≠ headerPush
    · rw [if_pos h]
      have hx : e.1 ∉ w.hdrs.map Prod.fst := by
        intro hm
        rw [List.nodup_append] at hnd
        exact hnd.2.2 _ hm _ (by simp) rfl
      have e1 : (netRW http1 n).setHeader w e.1 e.2 = { w with hdrs := w.hdrs ++ [e] } := by
        show ({ w with hdrs := NetW.set e.1 e.2 w.hdrs } : NetW) = _
        rw [netSet_new _ _ _ hx]
      rw [e1, ih]
      · simp [h]
      · simpa using hnd
    · rw [if_neg h, ih]
      · have : e.1 = headerPush := by simpa using h
        simp [this]
      · rw [List.map_cons] at hnd
        exact hnd.sublist (List.Sublist.append_left (List.sublist_cons_self _ _) _)

theorem hdrGet_filter (hdrs : List (GoStr × List GoStr)) {k k' : GoStr} (h : k ≠ k') : hdrGet (hdrs.filter fun e => e.1 ≠ k') k = hdrGet hdrs k := by
  unfold hdrGet
  rw [List.find?_filter]
  congr 2
  funext e
  by_cases he : e.1 = k
  · simp [he, h]
  · simp [he]

theorem declared_filter (hdrs : List (GoStr × List GoStr)) : declaredLength (hdrs.filter fun e => e.1 ≠ headerPush) = declaredLength hdrs := by
  unfold declaredLength
  rw [hdrGet_filter hdrs (by decide +kernel)]

/-- A Body served to a ResponseWriter that takes only so many bytes: `serve` reduced to its copying. -/
theorem serve_copiedUpTo {D : RW ω} {B : BodyOps β} {ok fin : ω → List Byte → Prop} {L : Nat} {e : Err} {C : List Byte} {fuel : Nat} {r : Resp β}
    {w w₁ w₂ : ω} (h1 : (if D.isPusher then pushAll D (hdrGet r.hdrs headerPush) w else (w, none)) = (w₁, none))
    (h2 : D.writeHeader (setAll D r.hdrs w₁) r.code = (w₂, .ret ())) (h3 : CopiedUpTo B ok fin L e C (ioCopy D B fuel r.body w₂)) :
    (C.length ≤ L → (serve D B fuel r w).2.2 = .ret none ∧ ok (serve D B fuel r w).2.1 C) ∧
    (L < C.length → (serve D B fuel r w).2.2 = .ret (some e) ∧ ∃ l, l <+: C ∧ l.length ≤ L ∧ fin (serve D B fuel r w).2.1 l) := by
  unfold serve
  rw [h1]
  dsimp only
  rw [h2]
  dsimp only
  obtain ⟨g1, g2⟩ := h3
  rcases hq : ioCopy D B fuel r.body w₂ with ⟨b', w', q⟩
  rw [hq] at g1 g2
  dsimp only at g1 g2
  refine ⟨fun hl => ?_, fun hl => ?_⟩
  · obtain ⟨n, rfl, a, c⟩ := g1 hl
    dsimp only
    rcases hc : B.close b' with ⟨b'', q⟩
    rw [hc] at c
    dsimp only at c
    subst c
    exact ⟨rfl, a⟩
  · obtain ⟨n, l, rfl, a, b, c, r, d⟩ := g2 hl
    dsimp only
    rcases hc : B.close b' with ⟨b'', q⟩
    rw [hc] at d
    dsimp only at d
    subst d
    exact ⟨rfl, l, a, b, c⟩

/-- How `ServeHTTP` ends when `Serve` has returned an error or nil. -/
def ended (onPanic : PanicArg → Res Unit) : Option Err → Res Unit
  | none => .ret ()
  | some e => onPanic (.itself (.error e))

/-- How the Adaptor ends when `Serve` has sent a status and returned. -/
theorem adaptor_served {N : RW ω} {B : BodyOps β} {raises : Bool} {kind : WKind} {fuel : Nat} {r : Resp β} {s s' : WState ω} {b : β} {o : Option Err}
    (assertErr : Bool) (onPanic : PanicArg → Res Unit) (h : serve (Writer.ops N raises kind) B fuel r s = (b, s', .ret o)) (h1 : s'.status ≠ 0)
    (h2 : 0 ≤ s'.bytes) :
    adaptor (Writer.wr N raises kind) B fuel assertErr onPanic (.resp r) s =
      (s', metricsOf (itoa s'.status) s'.bytes (o.map .error) assertErr, ended onPanic o) := by
  have et : (Writer.wr N raises kind).toRW = Writer.ops N raises kind := rfl
  have hm : (Writer.wr N raises kind).maybeWriteHeader s' 500 = (s', .ret ()) := by
    show Writer.maybeWriteHeader N s' 500 = _
    unfold Writer.maybeWriteHeader
    rw [if_neg (by omega), if_neg (by omega), if_pos h1]
  have hb : (Writer.wr N raises kind).bytesWritten s' = s'.bytes := rfl
  have hs : (Writer.wr N raises kind).status s' = s'.status := rfl
  cases o with
  | none =>
    have hh : handle (Writer.wr N raises kind) B fuel (.resp r) s = (s', .ret ()) := by simp only [handle, et, h]
    simp only [adaptor, hh, deferred, hm, hb, hs]
    rw [if_neg (by omega)]
    rfl
  | some e =>
    have hh : handle (Writer.wr N raises kind) B fuel (.resp r) s = (s', .panic (.error e)) := by simp only [handle, et, h]
    simp only [adaptor, hh, deferred, hm, hb, hs, Panic.recovered]
    rw [if_neg (by omega)]
    rfl

/-- A GET or HEAD request answered by the Adaptor over the ResponseWriter of `net/http`: the response on the wire, the metrics, and how the
call ended. -/
def overNet (http1 : Bool) (n : Nat) (raises isHEAD : Bool) (B : BodyOps β) (fuel : Nat) (assertErr : Bool) (onPanic : PanicArg → Res Unit)
    (h : Handled β) : NetW × List MEv × Res Unit :=
  serveHTTP raises isHEAD (.plain (netRW http1 n)) B fuel assertErr onPanic h { isHEAD := isHEAD }

/-- What is on the wire, and how many bytes were written. -/
theorem request_core {C : List Byte} {K : Nat} (hK : 32768 ≤ K) {B : BodyOps β} {P : β → List Byte → Prop} (hB : Lively B P K) (hQ : Quits B P)
    (http1 : Bool) (n : Nat) (hn : C.length < n) (raises isHEAD : Bool) (fuel : Nat) (hf : C.length < fuel) (assertErr : Bool)
    (onPanic : PanicArg → Res Unit) (r : Resp β) (hP : P r.body C) (h1 : 200 ≤ r.code) (h2 : r.code ≤ 999) (hnd : (r.hdrs.map Prod.fst).Nodup) :
    let x := overNet http1 n raises isHEAD B fuel assertErr onPanic (.resp r)
    x.1.isHEAD = isHEAD ∧ x.1.status = r.code ∧ x.1.declared = declaredLength r.hdrs ∧ x.1.hdrs = (r.hdrs.filter fun e => e.1 ≠ lit "Push") ∧
    ((isHEAD = true ∨ r.code = 204 ∨ C.length ≤ room r.code (declaredLength r.hdrs) C) →
      x.1.body = sentBody isHEAD r.code C ∧ x.2.1 = metricsOf (itoa r.code) (sentBody isHEAD r.code C).length none assertErr ∧ x.2.2 = .ret () ∧
        x.1.written = x.1.body.length) ∧
    (¬ (isHEAD = true ∨ r.code = 204) → room r.code (declaredLength r.hdrs) C < C.length →
      x.1.body <+: C ∧ x.1.body.length ≤ room r.code (declaredLength r.hdrs) C ∧
      x.2.1 = metricsOf (itoa r.code) x.1.body.length (some (.error (roomError r.code))) assertErr ∧
      x.2.2 = onPanic (.itself (.error (roomError r.code)))) := by
  let N := netRW http1 n
  let kind := Writer.kindFor N
  have hk : kind = .fancy → N.isReaderFrom = true := by
    show Writer.kindFor N = _ → _
    unfold Writer.kindFor
    split
    · rename_i h; simp only [Bool.and_eq_true] at h; exact fun _ => h.2
    · split <;> simp
  let w₀ : NetW := { isHEAD := isHEAD }
  let s₀ : WState NetW := Writer.init w₀ isHEAD
  have a1 : (if (Writer.ops N raises kind).isPusher then pushAll (Writer.ops N raises kind) (hdrGet r.hdrs headerPush) s₀ else (s₀, none)) = (s₀, none) := by
    have : (Writer.ops N raises kind).isPusher = true := rfl
    rw [if_pos this, through_pushAll]
    have e : pushAll N (hdrGet r.hdrs headerPush) s₀.next = (s₀.next, none) := net_pushAll _ _ _ _
    simp only [e, ite_self]
  let H := r.hdrs.filter fun e => e.1 ≠ headerPush
  let w₂ : NetW := { isHEAD := isHEAD, hdrs := H, status := r.code, declared := declaredLength r.hdrs }
  let s₂ : WState NetW := { s₀ with next := w₂, status := r.code }
  have hwh : (Writer.ops N raises kind).writeHeader (setAll (Writer.ops N raises kind) r.hdrs s₀) r.code = (s₂, .ret ()) := by
    rw [through_setAll]
    have e : setAll N r.hdrs s₀.next = { w₀ with hdrs := H } := net_setAll http1 n r.hdrs w₀ hnd
    rw [e]
    show Writer.writeHeader N raises _ r.code = _
    simp only [Writer.writeHeader, Writer.writeHeaderImpl]
    rw [if_neg (by omega), if_neg (by omega), if_neg (by simp [Writer.init, s₀])]
    have e2 : N.writeHeader { w₀ with hdrs := H } r.code = (w₂, .ret ()) := by
      have e3 : N.writeHeader = NetW.writeHeader := rfl
      rw [e3]
      unfold NetW.writeHeader
      rw [if_neg (by simp [w₀]), if_neg (by omega)]
      show (({ w₀ with hdrs := H, status := r.code, declared := declaredLength H } : NetW), (Res.ret () : Res Unit)) = _
      rw [show declaredLength H = declaredLength r.hdrs from declared_filter r.hdrs]
    simp only [e2]
    rfl
  have hs0 : s₂.status ≠ 0 := by show r.code ≠ 0; omega
  have final : ∀ b s' o, serve (Writer.ops N raises kind) B fuel r s₀ = (b, s', .ret o) → s'.status = r.code → 0 ≤ s'.bytes →
      overNet http1 n raises isHEAD B fuel assertErr onPanic (.resp r) =
        (s'.next, metricsOf (itoa r.code) s'.bytes (o.map .error) assertErr, ended onPanic o) := by
    intro b s' o hs hst hb
    have := adaptor_served assertErr onPanic hs (by rw [hst]; omega) hb
    rw [hst] at this
    show (let x := adaptor (Writer.wr N raises kind) B fuel assertErr onPanic (.resp r) s₀; (x.1.next, x.2)) = _
    rw [this]
  dsimp only
  by_cases hm : isHEAD = true ∨ r.code = 204
  · obtain ⟨b1, b2⟩ := serve_copied (B := B) (fuel := fuel) (C := C) a1 hwh
      (takes_ioCopy hB hK (takes_mute N C K raises kind s₂ ⟨hm, hs0⟩) fuel _ _ hP rfl hf)
    rcases hq : serve (Writer.ops N raises kind) B fuel r s₀ with ⟨b, s', o⟩
    rw [hq] at b1 b2
    dsimp only at b1 b2
    subst b1 b2
    rw [final b s₂ none hq rfl (by show (0 : Int) ≤ 0; omega)]
    refine ⟨rfl, rfl, rfl, rfl, fun _ => ?_, fun h => absurd hm h⟩
    simp only [sentBody, if_pos hm]
    exact ⟨rfl, rfl, rfl, rfl⟩
  · have hh : isHEAD = false := by cases isHEAD <;> simp at hm ⊢
    have hp : Passing s₂ := ⟨hh, hs0, fun h => hm (.inr h)⟩
    have hok : WLim (NetOk r.code (declaredLength r.hdrs) H (room r.code (declaredLength r.hdrs) C)) s₂ s₂ [] :=
      ⟨rfl, rfl, rfl, ⟨hh, rfl, rfl, rfl, rfl, rfl, Nat.zero_le _⟩⟩
    obtain ⟨b1, b2⟩ := serve_copiedUpTo (B := B) (fuel := fuel) (C := C) a1 hwh
      (limited_ioCopy hB hK hQ (limited_writer (net_limited h1 hK http1 n hn) raises kind hk s₂ hp) fuel _ _ hP hok hf)
    rcases hq : serve (Writer.ops N raises kind) B fuel r s₀ with ⟨b, s', o⟩
    rw [hq] at b1 b2
    dsimp only at b1 b2
    by_cases hl : C.length ≤ room r.code (declaredLength r.hdrs) C
    · obtain ⟨rfl, c1, c2, c3, c4⟩ := b1 hl
      rw [final b s' none hq c1 (by rw [c3]; omega), c3]
      refine ⟨by rw [c4.head, hh], c4.status, c4.declared, c4.hdrs, fun _ => ?_, fun _ h => by omega⟩
      simp only [sentBody, if_neg hm]
      exact ⟨c4.body, rfl, rfl, by rw [c4.written, c4.body]⟩
    · obtain ⟨rfl, l, d1, d2, c1, c2, c3, c4⟩ := b2 (by omega)
      rw [final b s' _ hq c1 (by rw [c3]; omega), c3]
      refine ⟨by rw [c4.head, hh], c4.status, c4.declared, c4.hdrs, fun h => ?_, fun _ _ => ?_⟩
      · rcases h with h | h | h
        · exact absurd (.inl h) hm
        · exact absurd (.inr h) hm
        · exact absurd h hl
      · dsimp only
        rw [c4.body]
        exact ⟨d1, d2, rfl, rfl⟩

/-- **C64.** A handler returns a Response whose Body delivers `C`.  The status and the headers (without `Push`) are on the wire.  If the body is
suppressed (HEAD, 204) or `C` is no longer than the status and the Content-Length header allow, then exactly that is on the wire and in the metrics,
and there is no panic.  Otherwise a part of `C` within the limit is on the wire, and the error of `net/http` is counted and reported as a panic. -/
theorem C64_request {C : List Byte} {K : Nat} (hK : 32768 ≤ K) {B : BodyOps β} {P : β → List Byte → Prop} (hB : Lively B P K) (hQ : Quits B P)
    (http1 : Bool) (n : Nat) (hn : C.length < n) (raises isHEAD : Bool) (fuel : Nat) (hf : C.length < fuel) (assertErr : Bool)
    (onPanic : PanicArg → Res Unit) (r : Resp β) (hP : P r.body C) (h1 : 200 ≤ r.code) (h2 : r.code ≤ 999) (hnd : (r.hdrs.map Prod.fst).Nodup) :
    let x := overNet http1 n raises isHEAD B fuel assertErr onPanic (.resp r)
    x.1.isHEAD = isHEAD ∧ x.1.status = r.code ∧ x.1.declared = declaredLength r.hdrs ∧ x.1.hdrs = (r.hdrs.filter fun e => e.1 ≠ lit "Push") ∧
    ((isHEAD = true ∨ r.code = 204 ∨ C.length ≤ room r.code (declaredLength r.hdrs) C) →
      x.1.body = sentBody isHEAD r.code C ∧ x.2.1 = metricsOf (itoa r.code) (sentBody isHEAD r.code C).length none assertErr ∧ x.2.2 = .ret ()) ∧
    (¬ (isHEAD = true ∨ r.code = 204) → room r.code (declaredLength r.hdrs) C < C.length →
      x.1.body <+: C ∧ x.1.body.length ≤ room r.code (declaredLength r.hdrs) C ∧
      x.2.1 = metricsOf (itoa r.code) x.1.body.length (some (.error (roomError r.code))) assertErr ∧
      x.2.2 = onPanic (.itself (.error (roomError r.code)))) := by
  obtain ⟨a1, a2, a3, a4, a5, a6⟩ := request_core hK hB hQ http1 n hn raises isHEAD fuel hf assertErr onPanic r hP h1 h2 hnd
  exact ⟨a1, a2, a3, a4, fun h => ⟨(a5 h).1, (a5 h).2.1, (a5 h).2.2.1⟩, a6⟩

/-- **C64.** Over `net/http` a Response arrives intact — the whole body (nothing for HEAD and 204), in a message that the client can read to its end,
no panic — exactly if the status has room for it and the Content-Length header, if there is one, is right. -/
theorem C64_iff {C : List Byte} {K : Nat} (hK : 32768 ≤ K) {B : BodyOps β} {P : β → List Byte → Prop} (hB : Lively B P K) (hQ : Quits B P)
    (http1 : Bool) (n : Nat) (hn : C.length < n) (raises isHEAD : Bool) (fuel : Nat) (hf : C.length < fuel) (assertErr : Bool)
    (onPanic : PanicArg → Res Unit) (r : Resp β) (hP : P r.body C) (h1 : 200 ≤ r.code) (h2 : r.code ≤ 999) (hnd : (r.hdrs.map Prod.fst).Nodup) :
    Intact (overNet http1 n raises isHEAD B fuel assertErr onPanic (.resp r)) isHEAD r.code C ↔ HasRoom isHEAD r.code (declaredLength r.hdrs) C := by
  obtain ⟨a1, a2, a3, a4, a5, a6⟩ := C64_request hK hB hQ http1 n hn raises isHEAD fuel hf assertErr onPanic r hP h1 h2 hnd
  generalize overNet http1 n raises isHEAD B fuel assertErr onPanic (.resp r) = x at a1 a2 a3 a4 a5 a6 ⊢
  by_cases hm : isHEAD = true ∨ r.code = 204
  · obtain ⟨b1, b2, b3⟩ := a5 (by rcases hm with h | h <;> simp [h])
    have hfit : HasRoom isHEAD r.code (declaredLength r.hdrs) C := by rcases hm with h | h <;> simp [HasRoom, h]
    refine ⟨fun _ => hfit, fun _ => ⟨?_, a2, b1, by rw [b2]; exact (metricsOf_facts _ _ _ _).2.2.2.1, b3⟩⟩
    unfold Framed
    rw [a1, a2, if_pos (by rcases hm with h | h <;> simp [h]), b1]
    simp [sentBody, hm]
  · by_cases hl : C.length ≤ room r.code (declaredLength r.hdrs) C
    · obtain ⟨b1, b2, b3⟩ := a5 (.inr (.inr hl))
      have hi : Framed x.1 → Intact x isHEAD r.code C := fun hF => ⟨hF, a2, b1, by rw [b2]; exact (metricsOf_facts _ _ _ _).2.2.2.1, b3⟩
      have hc : sentBody isHEAD r.code C = C := by simp [sentBody, hm]
      have hh : isHEAD = false := by cases isHEAD <;> simp at hm ⊢
      by_cases h3 : r.code = 304
      · have hC : C = [] := by
          simp only [room, h3] at hl
          exact List.length_eq_zero_iff.1 (by simpa using hl)
        refine ⟨fun _ => .inr (.inr (.inl ⟨h3, hC⟩)), fun _ => hi ?_⟩
        unfold Framed
        rw [a1, a2, if_pos (by simp [h3]), b1, hc, hC]
      · have hfr : Framed x.1 ↔ ∀ n, declaredLength r.hdrs = some n → n = C.length := by
          unfold Framed
          rw [a1, a2, a3, if_neg (by rintro (h | h | h) <;> simp_all), b1, hc]
          exact ⟨fun h n hn => (h n hn).symm, fun h n hn => (h n hn).symm⟩
        refine ⟨fun h => .inr (.inr (.inr ⟨h3, hfr.1 h.framed⟩)), fun h => ?_⟩
        rcases h with h | h | h | h
        · exact absurd (.inl h) hm
        · exact absurd (.inr h) hm
        · exact absurd h.1 h3
        · exact hi (hfr.2 h.2)
    · obtain ⟨-, -, b3, -⟩ := a6 hm (by omega)
      refine ⟨fun h => ?_, fun h => ?_⟩
      · have := h.calm
        rw [b3, (metricsOf_facts _ _ _ _).2.2.2.1] at this
        simp at this
      · exfalso
        apply hl
        rcases h with h | h | ⟨h, rfl⟩ | ⟨h, h'⟩
        · exact absurd (.inl h) hm
        · exact absurd (.inr h) hm
        · simp
        · have hx : ¬ (r.code = 204 ∨ r.code = 304) := fun hy => hy.elim (fun h'' => hm (.inr h'')) h
          simp only [room, if_neg hx]
          cases hd : declaredLength r.hdrs with
          | none => simp
          | some k => simp [h' k hd]

/-- **C64.** The Writer suppresses the body of a 204, but not of a 304: over `net/http` a 304 with a non-empty Body is a panic of the handler, although the
client gets the right answer. -/
theorem C64_304 {C : List Byte} (hC : C ≠ []) {K : Nat} (hK : 32768 ≤ K) {B : BodyOps β} {P : β → List Byte → Prop} (hB : Lively B P K) (hQ : Quits B P)
    (http1 : Bool) (n : Nat) (hn : C.length < n) (raises : Bool) (fuel : Nat) (hf : C.length < fuel) (assertErr : Bool)
    (onPanic : PanicArg → Res Unit) (r : Resp β) (hP : P r.body C) (h1 : r.code = 304) (hnd : (r.hdrs.map Prod.fst).Nodup) :
    let x := overNet http1 n raises false B fuel assertErr onPanic (.resp r)
    Framed x.1 ∧ x.1.status = 304 ∧ panicsCounted x.2.1 = 1 ∧ panicsReported x.2.1 = [.itself (.error errBodyNotAllowed)] ∧
    x.2.2 = onPanic (.itself (.error errBodyNotAllowed)) := by
  obtain ⟨a1, a2, a3, a4, a5, a6⟩ := C64_request hK hB hQ http1 n hn raises false fuel hf assertErr onPanic r hP (by omega) (by omega) hnd
  dsimp only
  generalize overNet http1 n raises false B fuel assertErr onPanic (.resp r) = x at a1 a2 a3 a4 a5 a6 ⊢
  have e1 : room r.code (declaredLength r.hdrs) C = 0 := by simp [room, h1]
  have e2 : roomError r.code = errBodyNotAllowed := by simp [roomError, h1]
  rw [e1, e2] at a6
  obtain ⟨-, b2, b3, b4⟩ := a6 (by simp [h1]) (List.length_pos_iff.2 hC)
  have f := metricsOf_facts (itoa r.code) x.1.body.length (some (.error errBodyNotAllowed)) assertErr
  refine ⟨?_, by rw [a2, h1], by rw [b3, f.2.2.2.1]; simp, by rw [b3, f.2.2.2.2.1]; simp [Panic.isErr], b4⟩
  unfold Framed
  rw [if_pos (by simp [a2, h1])]
  exact List.length_eq_zero_iff.1 (by omega)

/-- **C64.** With a Content-Length header that is too large nothing is reported, but the client waits for bytes that do not come. -/
theorem C64_too_short {C : List Byte} {K : Nat} (hK : 32768 ≤ K) {B : BodyOps β} {P : β → List Byte → Prop} (hB : Lively B P K) (hQ : Quits B P)
    (http1 : Bool) (n : Nat) (hn : C.length < n) (raises : Bool) (fuel : Nat) (hf : C.length < fuel) (assertErr : Bool)
    (onPanic : PanicArg → Res Unit) (r : Resp β) (hP : P r.body C) (h1 : 200 ≤ r.code) (h2 : r.code ≤ 999) (h3 : r.code ≠ 204) (h4 : r.code ≠ 304)
    (hnd : (r.hdrs.map Prod.fst).Nodup) (k : Nat) (hk : declaredLength r.hdrs = some k) (hC : C.length < k) :
    let x := overNet http1 n raises false B fuel assertErr onPanic (.resp r)
    x.1.body = C ∧ ¬ Framed x.1 ∧ panicsCounted x.2.1 = 0 ∧ panicsReported x.2.1 = [] ∧ x.2.2 = .ret () := by
  obtain ⟨a1, a2, a3, a4, a5, a6⟩ := C64_request hK hB hQ http1 n hn raises false fuel hf assertErr onPanic r hP h1 h2 hnd
  dsimp only
  generalize overNet http1 n raises false B fuel assertErr onPanic (.resp r) = x at a1 a2 a3 a4 a5 a6 ⊢
  have hc : sentBody false r.code C = C := by simp [sentBody, h3]
  obtain ⟨b1, b2, b3⟩ := a5 (.inr (.inr (by simp [room, h3, h4, hk]; omega)))
  rw [hc] at b1
  have f := metricsOf_facts (itoa r.code) (sentBody false r.code C).length none assertErr
  refine ⟨b1, fun hF => ?_, by rw [b2, f.2.2.2.1]; simp, by rw [b2, f.2.2.2.2.1], b3⟩
  unfold Framed at hF
  rw [if_neg (by simp [a1, a2, h3, h4]), a3, b1] at hF
  have := hF k hk
  omega

/-- **C64.** With a Content-Length header that is too small the client gets a part, in a message that may even look complete; the error is reported. -/
theorem C64_too_long {C : List Byte} {K : Nat} (hK : 32768 ≤ K) {B : BodyOps β} {P : β → List Byte → Prop} (hB : Lively B P K) (hQ : Quits B P)
    (http1 : Bool) (n : Nat) (hn : C.length < n) (raises : Bool) (fuel : Nat) (hf : C.length < fuel) (assertErr : Bool)
    (onPanic : PanicArg → Res Unit) (r : Resp β) (hP : P r.body C) (h1 : 200 ≤ r.code) (h2 : r.code ≤ 999) (h3 : r.code ≠ 204) (h4 : r.code ≠ 304)
    (hnd : (r.hdrs.map Prod.fst).Nodup) (k : Nat) (hk : declaredLength r.hdrs = some k) (hC : k < C.length) :
    let x := overNet http1 n raises false B fuel assertErr onPanic (.resp r)
    x.1.body <+: C ∧ x.1.body.length ≤ k ∧ panicsCounted x.2.1 = 1 ∧ panicsReported x.2.1 = [.itself (.error errContentLength)] ∧
    x.2.2 = onPanic (.itself (.error errContentLength)) := by
  obtain ⟨a1, a2, a3, a4, a5, a6⟩ := C64_request hK hB hQ http1 n hn raises false fuel hf assertErr onPanic r hP h1 h2 hnd
  dsimp only
  generalize overNet http1 n raises false B fuel assertErr onPanic (.resp r) = x at a1 a2 a3 a4 a5 a6 ⊢
  have e1 : room r.code (declaredLength r.hdrs) C = k := by simp [room, h3, h4, hk]
  have e2 : roomError r.code = errContentLength := by simp [roomError, h3, h4]
  rw [e1, e2] at a6
  obtain ⟨b1, b2, b3, b4⟩ := a6 (by simp [h3]) hC
  have f := metricsOf_facts (itoa r.code) x.1.body.length (some (.error errContentLength)) assertErr
  exact ⟨b1, b2, by rw [b3, f.2.2.2.1]; simp, by rw [b3, f.2.2.2.2.1]; simp [Panic.isErr], b4⟩

/-! ## The Bodies of this repository -/

/-- **C64**, for `FromBytes` and `FromString` of a non-empty string. -/
theorem C64_bytes {data : List Byte} (hlen : data.length < 2 ^ 63) (hne : data ≠ []) (http1 : Bool) (n : Nat) (hn : data.length < n)
    (raises isHEAD : Bool) (fuel : Nat) (hf : data.length < fuel) (assertErr : Bool) (onPanic : PanicArg → Res Unit) (code : Int) (h1 : 200 ≤ code)
    (h2 : code ≤ 999) (hdrs : List (GoStr × List GoStr)) (hnd : (hdrs.map Prod.fst).Nodup) (err : Option Err) :
    Intact (overNet http1 n raises isHEAD (BodyOps.ofFam MemFam.step true 0) fuel assertErr onPanic (.resp { code, hdrs, body := fromBytes data, err }))
      isHEAD code data ↔ HasRoom isHEAD code (declaredLength hdrs) data :=
  C64_iff (Nat.le_refl 32768) (mem_lively data hlen hne 0 _ (by omega)) (mem_quits data hlen hne 0) http1 n hn raises isHEAD fuel hf assertErr onPanic
    { code, hdrs, body := fromBytes data, err } (mem_source_init data) h1 h2 hnd

/-- **C64**, for the first `m` bytes of a well-behaved `io.ReaderAt`. -/
theorem C64_readerAt {R : Rdr σ} {F : List Byte} {Inv : σ → Prop} (hR : IsReaderAt R F Inv) (hq : CloseNil R) (m : Nat)
    (hm : m ≤ F.length) (hm63 : m < 2 ^ 63) {st : σ} (hi : Inv st) (http1 : Bool) (n : Nat) (hn : m < n)
    (raises isHEAD : Bool) (fuel : Nat) (hf : m < fuel) (assertErr : Bool) (onPanic : PanicArg → Res Unit) (code : Int) (h1 : 200 ≤ code)
    (h2 : code ≤ 999) (hdrs : List (GoStr × List GoStr)) (hnd : (hdrs.map Prod.fst).Nodup) (err : Option Err) :
    Intact (overNet http1 n raises isHEAD (BodyOps.ofFam (ReaderAtBody.step R) false 0) fuel assertErr onPanic
      (.resp { code, hdrs, body := ReaderAtBody.init st m, err })) isHEAD code (F.take m) ↔ HasRoom isHEAD code (declaredLength hdrs) (F.take m) :=
  C64_iff (Nat.le_refl 32768) (readerAt_lively hR hq m hm hm63 0 _ (by omega)) (readerAt_quits hR m hm hm63 0) http1 n (by simp; omega) raises isHEAD fuel
    (by simp; omega) assertErr onPanic { code, hdrs, body := ReaderAtBody.init st m, err } (readerAt_source_init hi m hm) h1 h2 hnd

/-- **C64**, for the first `m` bytes of a well-behaved `io.ReadSeeker` that fills the buffer. -/
theorem C64_seeker {R : Rdr σ} {F : List Byte} {At : σ → Nat → Prop} (hR : IsFullSeeker R F At) (hq : CloseNil R) (m : Nat)
    (hm : m ≤ F.length) (hm63 : m < 2 ^ 63) {st : σ} {p : Nat} (hi : At st p) (http1 : Bool) (n : Nat) (hn : m < n)
    (raises isHEAD : Bool) (fuel : Nat) (hf : m < fuel) (assertErr : Bool) (onPanic : PanicArg → Res Unit) (code : Int) (h1 : 200 ≤ code)
    (h2 : code ≤ 999) (hdrs : List (GoStr × List GoStr)) (hnd : (hdrs.map Prod.fst).Nodup) (err : Option Err) :
    Intact (overNet http1 n raises isHEAD (BodyOps.ofFam (SeekerBody.step R) false 0) fuel assertErr onPanic
      (.resp { code, hdrs, body := SeekerBody.init st m, err })) isHEAD code (F.take m) ↔ HasRoom isHEAD code (declaredLength hdrs) (F.take m) :=
  C64_iff (Nat.le_refl 32768) (seeker_lively hR hq m hm hm63 0 _ (by omega)) (seeker_quits hR m hm hm63 0) http1 n (by simp; omega) raises isHEAD fuel
    (by simp; omega) assertErr onPanic { code, hdrs, body := SeekerBody.init st m, err } ⟨_, _, psim_init ⟨p, hi⟩ hm, rfl, rfl, by simp [Cursor.rest]⟩ h1 h2 hnd

/-- **C64**, for a stream (its first `L` bytes if a length `L` was given) that comes to its end. -/
theorem C64_stream {R : Rdr σ} (hq : CloseNil R) {Inv : σ → List Byte → Prop} (hS : IsStream R .eof Inv) {b : Nat} {idle : σ → Nat}
    (hE : Eager R b idle) {st : σ} {T : List Byte} (hi : Inv st T) (L : Int) (loops : Nat) (hl : 98304 * (b + 1) + b < loops) (http1 : Bool) (n : Nat)
    (hn : T.length < n) (raises isHEAD : Bool) (fuel : Nat) (hf : T.length < fuel) (assertErr : Bool) (onPanic : PanicArg → Res Unit) (code : Int)
    (h1 : 200 ≤ code) (h2 : code ≤ 999) (hdrs : List (GoStr × List GoStr)) (hnd : (hdrs.map Prod.fst).Nodup) (err : Option Err) :
    Intact (overNet http1 n raises isHEAD (BodyOps.ofFam (streamStep R loops) false 0) fuel assertErr onPanic
      (.resp { code, hdrs, body := streamInit st L, err })) isHEAD code (cut T L) ↔ HasRoom isHEAD code (declaredLength hdrs) (cut T L) := by
  have hc : (cut T L).length ≤ T.length := by
    unfold cut
    split
    · rw [List.length_take]; omega
    · exact Nat.le_refl _
  exact C64_iff (Nat.le_refl 32768) (stream_lively hq hS hE T L _ (by omega) loops (by omega) 0) (stream_quits hq hS T L loops 0) http1 n (by omega) raises
    isHEAD fuel (by omega) assertErr onPanic { code, hdrs, body := streamInit st L, err } (stream_source_init st T hi L) h1 h2 hnd

/-! ## From the Builder -/

theorem parseDigits_foldl (s : GoStr) : ∀ a : Nat,
    s.foldl (fun a b => a.bind fun a => if 48 ≤ b.toNat ∧ b.toNat ≤ 57 then some (10 * a + (b.toNat - 48)) else none) (some a) = parseDigits s a := by
  have none_ : ∀ s : GoStr, s.foldl (fun a b => a.bind fun a => if 48 ≤ b.toNat ∧ b.toNat ≤ 57 then some (10 * a + (b.toNat - 48)) else none)
      (none : Option Nat) = none := by
    intro s
    induction s with
    | nil => rfl
    | cons c s ih => simpa using ih
  induction s with
  | nil => intro a; rfl
  | cons c s ih =>
    intro a
    simp only [List.foldl_cons, Option.bind_some, parseDigits]
    by_cases hc : 48 ≤ c ∧ c ≤ 57
    · rw [if_pos hc, if_pos ⟨UInt8.le_iff_toNat_le.1 hc.1, UInt8.le_iff_toNat_le.1 hc.2⟩]
      exact ih _
    · rw [if_neg hc, if_neg (fun h => hc ⟨UInt8.le_iff_toNat_le.2 h.1, UInt8.le_iff_toNat_le.2 h.2⟩)]
      exact none_ s

theorem natValue_parseDigits (s : GoStr) : natValue s = parseDigits s 0 := parseDigits_foldl s 0

/-- What is a decimal numeral for us is one for `net/http`. -/
theorem parseLength_decimal (v : GoStr) (n : Nat) (h : decimal v = some (n : Int)) (hn : n < 2 ^ 63) : parseLength v = some n := by
  cases v with
  | nil => cases h
  | cons c s =>
    by_cases h45 : c = 45
    · subst h45
      simp only [decimal] at h
      simp only [parseLength]
      by_cases hs : s = []
      · simp [hs] at h
      · rw [if_neg hs] at h ⊢
        rw [natValue_parseDigits] at h
        cases hp : parseDigits s 0 with
        | none => simp [hp] at h
        | some m =>
          rw [hp] at h
          have h : -(m : Int) = n := Option.some.inj h
          have h1 : m = 0 := by omega
          have h2 : n = 0 := by omega
          simp [h1, h2]
    · have e : decimal (c :: s) = (natValue (c :: s)).map fun n => (n : Int) := by
        simp only [decimal]
        split
        · rename_i h'; cases h'
        · rename_i h'; exact absurd (List.cons.inj h').1 h45
        · rfl
      rw [e, natValue_parseDigits] at h
      cases hp : parseDigits (c :: s) 0 with
      | none => simp [hp] at h
      | some m =>
        rw [hp] at h
        have h : (m : Int) = n := Option.some.inj h
        have h1 : m = n := by omega
        subst h1
        have h43 : c ≠ 43 := by rintro rfl; simp [parseDigits] at hp
        unfold parseLength
        split
        · rename_i h'; exact absurd (List.cons.inj h').1 h45
        · rename_i h'; exact absurd (List.cons.inj h').1 h43
        · simp [hp, hn]

theorem hdrGet_lists {hdrs : List (GoStr × List GoStr)} {f : Hdrs} (hl : Lists hdrs f) {k : GoStr} {vs : List GoStr} (h : f k = some vs) : hdrGet hdrs k = vs := by
  unfold hdrGet
  cases hf : hdrs.find? (fun e => e.1 = k) with
  | none =>
    rw [List.find?_eq_none] at hf
    exact absurd (decide_eq_true rfl) (hf _ ((hl k vs).2 h))
  | some e =>
    obtain ⟨k', v'⟩ := e
    have h1 := List.find?_some hf
    simp only [decide_eq_true_eq] at h1
    subst h1
    have := (hl k' v').1 (List.mem_of_find?_eq_some hf)
    rw [h] at this
    cases this
    rfl

/-- A numeral for `strconv.ParseInt`: also a plus sign is allowed. -/
def Spec.signedDecimal : GoStr → Option Int
  | 43 :: s => if s = [] then none else (natValue s).map Int.ofNat
  | s => decimal s

theorem decimal_minus (s : GoStr) : decimal (45 :: s) = if s = [] then none else (natValue s).map fun n : Nat => -(n : Int) := by
  simp only [decimal]
  split
  · rfl
  · cases natValue s <;> rfl

theorem decimal_digits (c : Byte) (s : GoStr) (h : c ≠ 45) : decimal (c :: s) = (natValue (c :: s)).map Int.ofNat := by
  simp only [decimal]
  split
  · rename_i h'; cases h'
  · rename_i s' h'; exact absurd (List.cons.inj h').1 h
  · cases natValue (c :: s) <;> rfl

theorem signed_plus (s : GoStr) : signedDecimal (43 :: s) = if s = [] then none else (natValue s).map Int.ofNat := rfl

theorem signed_else (c : Byte) (s : GoStr) (h : c ≠ 43) : signedDecimal (c :: s) = decimal (c :: s) := by
  unfold signedDecimal
  split
  · rename_i s' h'; exact absurd (List.cons.inj h').1 h
  · rfl

theorem parseLength_iff (v : GoStr) (n : Nat) : parseLength v = some n ↔ signedDecimal v = some (n : Int) ∧ n < 2 ^ 63 := by
  have pos : ∀ s : GoStr, ((parseDigits s 0).bind fun n => if n < 2 ^ 63 then some n else none) = some n ↔
      (natValue s).map Int.ofNat = some (n : Int) ∧ n < 2 ^ 63 := by
    intro s
    rw [natValue_parseDigits]
    cases hp : parseDigits s 0 with
    | none => simp
    | some m =>
      simp only [Option.bind_some, Option.map_some, Option.some.injEq]
      by_cases hm : m < 2 ^ 63
      · rw [if_pos hm]
        exact ⟨fun h => by cases h; exact ⟨rfl, hm⟩, fun h => by rw [Int.ofNat.inj h.1]⟩
      · rw [if_neg hm]
        exact ⟨fun h => (by cases h), fun h => absurd (by rw [Int.ofNat.inj h.1]; exact h.2) hm⟩
  cases v with
  | nil => exact ⟨fun h => (by cases h), fun h => by cases h.1⟩
  | cons c s =>
    by_cases h45 : c = 45
    · subst h45
      rw [signed_else _ _ (by decide), decimal_minus]
      simp only [parseLength]
      by_cases hs : s = []
      · simp [hs]
      · rw [if_neg hs, if_neg hs, natValue_parseDigits]
        cases hp : parseDigits s 0 with
        | none => simp
        | some m =>
          simp only [Option.bind_some, Option.map_some, Option.some.injEq]
          by_cases hm : m = 0
          · rw [if_pos hm]
            exact ⟨fun h => by cases h; omega, fun h => by congr 1; omega⟩
          · rw [if_neg hm]
            exact ⟨fun h => (by cases h), fun h => by omega⟩
    · by_cases h43 : c = 43
      · subst h43
        rw [signed_plus]
        simp only [parseLength]
        by_cases hs : s = []
        · simp [hs]
        · rw [if_neg hs, if_neg hs]; exact pos s
      · rw [signed_else _ _ h43, decimal_digits _ _ h45, ← pos]
        unfold parseLength
        split
        · rename_i h'; exact absurd (List.cons.inj h').1 h45
        · rename_i h'; exact absurd (List.cons.inj h').1 h43
        · rw [if_neg (by simp)]

/-- **C64.** What `net/http` takes for the declared length: the value of the first Content-Length, if it is a numeral, and neither negative nor too large. -/
theorem C64_declared (hdrs : List (GoStr × List GoStr)) (n : Nat) :
    declaredLength hdrs = some n ↔ ∃ v vs, hdrGet hdrs (lit "Content-Length") = v :: vs ∧ signedDecimal v = some (n : Int) ∧ n < 2 ^ 63 := by
  unfold declaredLength
  cases hdrGet hdrs (lit "Content-Length") with
  | nil => simp
  | cons v vs =>
    dsimp only
    rw [parseLength_iff]
    exact ⟨fun h => ⟨v, vs, rfl, h⟩, fun ⟨v', vs', h1, h2⟩ => by rw [(List.cons.inj h1).1]; exact h2⟩

example : declaredLength [(lit "Content-Length", [lit "+17", lit "4"])] = some 17 ∧ declaredLength [(lit "Content-Length", [lit "-5"])] = none := by
  decide +kernel

variable {X : Type}

/-- **C64.** A Response made by a Builder that has no Content-Length header of its own, with a Body that knows its length, arrives intact over `net/http` — unless
its status is 304 and the Body is not empty. -/
theorem C64_built {E : BEnv X} (hE : NoShared E) {s : BState X} (hs : Reached E s) {h : Nat} {b : Bld} (hb : s.blds[h]? = some b)
    {i : Nat} (hi : b.body = some i) (hcl : s.heap.lookup b.hdrs (lit "Content-Length") = none)
    {C : List Byte} (hC : C.length < 2 ^ 63) {K : Nat} (hK : 32768 ≤ K) {B : BodyOps X} {P : X → List Byte → Prop} (hB : Lively B P K) (hQ : Quits B P)
    (hP : P s.bodies C) (hrem : E.store.remaining s.bodies i = C.length)
    (http1 : Bool) (n : Nat) (hn : C.length < n) (raises isHEAD : Bool) (fuel : Nat) (hf : C.length < fuel) (assertErr : Bool) (onPanic : PanicArg → Res Unit) :
    ∃ s' r, s.step E (.build h) = (s', .made s.rsps.length) ∧ s'.rsps[s.rsps.length]? = some r ∧ r.body = some i ∧ s'.bodies = s.bodies ∧
      ∀ hdrs, Lists hdrs (s'.heap.lookup r.hdrs) → (hdrs.map Prod.fst).Nodup →
        (Intact (overNet http1 n raises isHEAD B fuel assertErr onPanic (.resp { code := r.code, hdrs, body := s'.bodies, err := r.err })) isHEAD r.code C ↔
          isHEAD = true ∨ r.code ≠ 304 ∨ C = []) := by
  obtain ⟨s', r, h1, h2, h3⟩ := C27_headers hE hs hb hi
  obtain ⟨H', r', g1, -, g3, -, -⟩ := build_step hE hs hb hi
  rw [h1] at g1
  obtain ⟨rfl, -⟩ := Prod.mk.inj g1
  have hr : r' = r := by simpa using h2
  subst hr
  have hrange : 200 ≤ r'.code ∧ r'.code ≤ 999 := by
    obtain ⟨Y, ops, hl, e⟩ := hs.step (op := .build h) trivial
    rw [h1] at e
    exact C26_range E Y ops (by rw [← e]; exact h2)
  refine ⟨_, r', h1, h2, by rw [g3, hi], rfl, fun hdrs hlist hnd => ?_⟩
  rw [C64_iff hK hB hQ http1 n hn raises isHEAD fuel hf assertErr onPanic { code := r'.code, hdrs, body := s.bodies, err := r'.err } hP hrange.1 hrange.2 hnd]
  obtain ⟨v, hv1, hv2⟩ := h3.2.2.1 hcl (by rw [hrem]; omega)
  have hd : declaredLength hdrs = some C.length := by
    unfold declaredLength
    rw [hdrGet_lists hlist hv1]
    exact parseLength_decimal v C.length (by rw [hv2, hrem]) hC
  dsimp only
  rw [hd]
  unfold HasRoom
  constructor
  · rintro (h | h | h | h)
    · exact .inl h
    · exact .inr (.inl (by omega))
    · exact .inr (.inr h.2)
    · exact .inr (.inl h.1)
  · rintro (h | h | h)
    · exact .inl h
    · exact .inr (.inr (.inr ⟨h, fun n hn => by cases hn; rfl⟩))
    · by_cases h3 : r'.code = 304
      · exact .inr (.inr (.inl ⟨h3, h⟩))
      · exact .inr (.inr (.inr ⟨h3, fun n hn => by cases hn; rfl⟩))

/-! ## Examples -/

private def exNet (http1 isHEAD : Bool) (code : Int) (cl : GoStr) : NetW × List MEv × Res Unit :=
  overNet http1 100 false isHEAD (BodyOps.ofFam MemFam.step true 0) 100 true (fun _ => .ret ())
    (.resp { code, hdrs := [(lit "Content-Length", [cl]), (lit "Push", [lit "/a"])], body := fromBytes (lit "hello"), err := none })

/-- A whole response. -/
example : (exNet true false 200 (lit "5")).1 =
    { isHEAD := false, hdrs := [(lit "Content-Length", [lit "5"])], status := 200, declared := some 5, written := 5, body := lit "hello" } := by
  decide +kernel

/-- The hypotheses of `C64_bytes` are satisfied, and both sides are true. -/
example : Intact (exNet true false 200 (lit "5")) false 200 (lit "hello") :=
  (C64_bytes (by decide +kernel) (by decide +kernel) true 100 (by decide +kernel) false false 100 (by decide +kernel) true (fun _ => .ret ()) 200 (by decide)
    (by decide) [(lit "Content-Length", [lit "5"]), (lit "Push", [lit "/a"])] (by decide +kernel) none).2
    (.inr (.inr (.inr ⟨by decide, fun n hn => by
      have : declaredLength [(lit "Content-Length", [lit "5"]), (lit "Push", [lit "/a"])] = some 5 := by decide +kernel
      rw [this] at hn; cases hn; decide +kernel⟩)))

/-- 304: the right answer, and yet a panic. -/
example : (exNet false false 304 (lit "5")).1.body = [] ∧ panicsReported (exNet false false 304 (lit "5")).2.1 = [.itself (.error errBodyNotAllowed)] := by
  decide +kernel

/-- 204: no panic. -/
example : (exNet false false 204 (lit "5")).1.body = [] ∧ panicsReported (exNet false false 204 (lit "5")).2.1 = [] := by
  decide +kernel

/-- HEAD: no panic. -/
example : (exNet true true 304 (lit "5")).1.body = [] ∧ panicsReported (exNet true true 304 (lit "5")).2.1 = [] := by
  decide +kernel

/-- Too small: the body is refused as a whole, as it is written with one `Write`. -/
example : (exNet true false 200 (lit "4")).1.body = [] ∧ panicsReported (exNet true false 200 (lit "4")).2.1 = [.itself (.error errContentLength)] := by
  decide +kernel

/-- Too large: not reported. -/
example : (exNet true false 200 (lit "6")).1.body = lit "hello" ∧ panicsReported (exNet true false 200 (lit "6")).2.1 = [] := by
  decide +kernel

/-- Not a number: ignored. -/
example : (exNet true false 200 (lit "5x")).1.declared = none ∧ (exNet true false 200 (lit "5x")).1.body = lit "hello" := by
  decide +kernel

end Verif
