import Verif.Props.TimeoutHandler
import Verif.Props.Failing

/-! # C86: Bodies that fail, in a `http.TimeoutHandler` -/

set_option autoImplicit false

namespace Verif
open Spec
variable {β σ : Type}

theorem time_passes (code : Int) (hc : code ≠ 0) (H : List (GoStr × List GoStr)) (K : Nat) (C : List Byte) (e x : Err) :
    Passes timeRW K (fun w l => w = { left := none, hdrs := H, code, buf := l }) (fun _ _ => True) C.length e x C := by
  refine ⟨fun _ _ _ h => h.length_le, ?_, ?_, fun h => by cases h⟩
  · intro w l d hw _
    exact (time_takes code hc H K C).write w l d hw
  · intro w l d _ h1 h2
    have := h1.length_le
    omega

/-- What was delivered before the failure is kept, and the error is reported. -/
theorem time_broken {C : List Byte} {K : Nat} (hK : 32768 ≤ K) {B : BodyOps β} {P : β → List Byte → Prop} {e : Err} (hB : Failing B P K e)
    (raises isHEAD : Bool) (fuel : Nat) (hf : C.length < fuel) (assertErr : Bool)
    (onPanic : PanicArg → Res Unit) (r : Resp β) (hP : P r.body C) (h1 : 200 ≤ r.code) (h2 : r.code ≤ 999) (hnd : (r.hdrs.map Prod.fst).Nodup) :
    serveHTTP raises isHEAD (.plain timeRW) B fuel assertErr onPanic (.resp r) { left := none } =
      ({ left := none, hdrs := r.hdrs.filter fun e => e.1 ≠ headerPush, code := r.code, buf := sentBody isHEAD r.code C },
        metricsOf (itoa r.code) (sentBody isHEAD r.code C).length (some (.error e)) assertErr, onPanic (.itself (.error e))) := by
  obtain ⟨a1, a2⟩ := time_begin none raises isHEAD r h1 h2 hnd
  by_cases hm : isHEAD = true ∨ r.code = 204
  · obtain ⟨b1, -⟩ := serve_broken (B := B) (fuel := fuel) (C := C) a1 a2
      (broken_ioCopy (e := e) hB hK (passes_mute timeRW C K raises .basic _ ⟨hm, by show r.code ≠ 0; omega⟩ (fun _ _ => True)) fuel _ _ hP rfl hf)
    obtain ⟨b1, b2⟩ := b1 (Nat.le_refl _)
    rcases hq : serve (Writer.ops timeRW raises .basic) B fuel r (Writer.init { left := none } isHEAD) with ⟨b, s', o⟩
    rw [hq] at b1 b2
    dsimp only at b1 b2
    subst b1 b2
    rw [time_final h1 assertErr onPanic hq rfl (by show (0 : Int) ≤ 0; omega)]
    simp only [sentBody, if_pos hm]
    rfl
  · have hh : isHEAD = false := by cases isHEAD <;> simp at hm ⊢
    obtain ⟨b1, -⟩ := serve_broken (B := B) (fuel := fuel) (C := C) a1 a2
      (broken_ioCopy hB hK (passes_writer (time_passes r.code (by omega) (r.hdrs.filter fun e => e.1 ≠ headerPush) K C e e) raises .basic (fun h => by cases h)
        { (Writer.init { left := none } isHEAD : WState TimeW) with next := { left := none, hdrs := r.hdrs.filter fun e => e.1 ≠ headerPush, code := r.code }, status := r.code }
        ⟨hh, by show r.code ≠ 0; omega, fun h => hm (.inr h)⟩) fuel _ _ hP ⟨rfl, rfl, rfl, rfl⟩ hf)
    obtain ⟨b1, b2, b3, b4, b5⟩ := b1 (Nat.le_refl _)
    rcases hq : serve (Writer.ops timeRW raises .basic) B fuel r (Writer.init { left := none } isHEAD) with ⟨b, s', o⟩
    rw [hq] at b1 b2 b4 b5
    dsimp only at b1 b2 b4 b5
    subst b1
    rw [time_final h1 assertErr onPanic hq b2 (by omega), b4, b5]
    simp only [sentBody, if_neg hm]
    rfl

/-- **C86.** The handler returns in time a Response whose Body delivers `C` and then fails with `e`.  The error is counted and reported once, with the bytes
that were delivered.  If `OnPanic` returns, these bytes are sent, as a whole or not at all, as if nothing had happened (`C86_in_time`).  If `OnPanic` panics,
nothing is sent, and the panic goes on to the server, which cuts the connection: then the client can tell. -/
theorem C86_failing {C : List Byte} {K : Nat} (hK : 32768 ≤ K) {B : BodyOps β} {P : β → List Byte → Prop} {e : Err} (hB : Failing B P K e)
    (msg : List Byte) (raises isHEAD : Bool) (fuel : Nat) (hf : C.length < fuel) (assertErr : Bool)
    (onPanic : PanicArg → Res Unit) (r : Resp β) (hP : P r.body C) (h1 : 200 ≤ r.code) (h2 : r.code ≤ 999) (hnd : (r.hdrs.map Prod.fst).Nodup) :
    let x := underTimeout none false msg raises isHEAD B fuel assertErr onPanic (.resp r)
    x.2.1 = metricsOf (itoa r.code) (sentBody isHEAD r.code C).length (some (.error e)) assertErr ∧
    x.2.2 = onPanic (.itself (.error e)) ∧
    (x.2.2 = .ret () → x.1.isHEAD = isHEAD ∧ x.1.status = r.code ∧ x.1.declared = declaredLength r.hdrs ∧ x.1.hdrs = (r.hdrs.filter fun e => e.1 ≠ lit "Push") ∧
      x.1.body = (if room r.code (declaredLength r.hdrs) C < C.length then [] else sentBody isHEAD r.code C)) ∧
    (x.2.2 ≠ .ret () → x.1 = { isHEAD }) := by
  have hH : ((r.hdrs.filter fun e => e.1 ≠ headerPush).map Prod.fst).Nodup := hnd.sublist (List.Sublist.map _ List.filter_sublist)
  unfold underTimeout
  rw [time_broken hK hB raises isHEAD fuel hf assertErr onPanic r hP h1 h2 hnd]
  unfold timeoutServe
  rw [if_neg (by simp)]
  dsimp only
  cases ho : onPanic (.itself (.error e)) with
  | ret u =>
    cases u
    dsimp only
    rw [if_neg (show ¬ r.code = 0 by omega), copyHdrs_eq _ hH]
    obtain ⟨a1, a2, a3, a4, a5⟩ := net_once isHEAD (r.hdrs.filter fun e => e.1 ≠ headerPush) r.code h1 h2 (sentBody isHEAD r.code C)
    rw [declared_filter] at a4 a5
    refine ⟨rfl, rfl, fun _ => ⟨a1, a3, a4, a2, ?_⟩, fun h => absurd rfl h⟩
    rw [a5]
    by_cases hm : isHEAD = true ∨ r.code = 204
    · simp [sentBody, hm]
    · have hh : isHEAD = false := by cases isHEAD <;> simp at hm ⊢
      have hs : sentBody isHEAD r.code C = C := by simp only [sentBody, if_neg hm]
      rw [hs]
      simp [hh]
  | panic q =>
    dsimp only
    refine ⟨rfl, rfl, ?_, fun _ => rfl⟩
    intro h
    cases h
  | hang =>
    dsimp only
    refine ⟨rfl, rfl, ?_, fun _ => rfl⟩
    intro h
    cases h

/-- **C86.** So, without a Content-Length header and with an `OnPanic` that returns, the part seems to be the whole, as without the
`http.TimeoutHandler` (`C66_undeclared`). -/
theorem C86_failing_undeclared {C : List Byte} {K : Nat} (hK : 32768 ≤ K) {B : BodyOps β} {P : β → List Byte → Prop} {e : Err} (hB : Failing B P K e)
    (msg : List Byte) (raises : Bool) (fuel : Nat) (hf : C.length < fuel) (assertErr : Bool)
    (onPanic : PanicArg → Res Unit) (ho : onPanic (.itself (.error e)) = .ret ()) (r : Resp β) (hP : P r.body C) (h1 : 200 ≤ r.code) (h2 : r.code ≤ 999)
    (h3 : r.code ≠ 204) (h4 : r.code ≠ 304) (hnd : (r.hdrs.map Prod.fst).Nodup) (hd : declaredLength r.hdrs = none) :
    let x := underTimeout none false msg raises false B fuel assertErr onPanic (.resp r)
    SeemsWhole x ∧ x.1.body = C := by
  obtain ⟨-, a2, a3, -⟩ := C86_failing hK hB msg raises false fuel hf assertErr onPanic r hP h1 h2 hnd
  rw [ho] at a2
  obtain ⟨b1, b2, b3, -, b5⟩ := a3 a2
  refine ⟨⟨?_, a2⟩, ?_⟩
  · unfold Framed
    rw [if_neg (by simp [b1, b2, h3, h4]), b3, hd]
    rintro n ⟨⟩
  · rw [b5, if_neg (by simp [room, h3, h4, hd])]
    simp [sentBody, h3]

private def exBrokenTime (onPanic : PanicArg → Res Unit) (hdrs : List (GoStr × List GoStr)) : NetW × List MEv × Res Unit :=
  underTimeout none false (lit "late") false false (BodyOps.ofFam (ReaderAtBody.step (breaking (.ext 7))) false 0) 100 true onPanic
    (.resp { code := 200, hdrs, body := ReaderAtBody.init (lit "hel") 5, err := none })

/-- `OnPanic` returns: `hel` in a message that looks whole. -/
example : (exBrokenTime (fun _ => .ret ()) []).1 = { isHEAD := false, status := 200, written := 3, body := lit "hel" } ∧
    panicsReported (exBrokenTime (fun _ => .ret ()) []).2.1 = [.itself (.error (.ext 7))] ∧ (exBrokenTime (fun _ => .ret ()) []).2.2 = .ret () := by
  decide +kernel

/-- `OnPanic` panics: nothing is sent. -/
example : (exBrokenTime (fun _ => .panic (.value 1)) []).1 = { isHEAD := false } ∧ (exBrokenTime (fun _ => .panic (.value 1)) []).2.2 = .panic (.value 1) := by
  decide +kernel

/-- The hypotheses of `C86_failing_undeclared` are satisfied. -/
example : SeemsWhole (exBrokenTime (fun _ => .ret ()) []) ∧ (exBrokenTime (fun _ => .ret ()) []).1.body = lit "hel" := by
  have h := C86_failing_undeclared (Nat.le_refl 32768) (readerAt_failing (by simp) (breaking_at (.ext 7) (lit "hel")) 0 32768) (lit "late") false 100 (by decide +kernel)
    true (fun _ => .ret ()) rfl { code := 200, hdrs := [], body := ReaderAtBody.init (lit "hel") 5, err := none } (doomed_init (lit "hel") (.ext 7) (Inv := fun st => st = lit "hel") rfl 5 (by decide +kernel) (by omega)) (by show (200 : Int) ≤ 200; omega)
    (by show (200 : Int) ≤ 999; omega) (by show (200 : Int) ≠ 204; omega) (by show (200 : Int) ≠ 304; omega) (by simp) (by decide +kernel)
  unfold exBrokenTime
  exact h

end Verif
