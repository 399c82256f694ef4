import Verif.Model.Recorder
import Verif.Props.Failing

/-! # C87: what a test with an `httptest.ResponseRecorder` tells -/

set_option autoImplicit false

namespace Verif
open Spec
variable {β σ : Type}

/-- What is recorded would fit through `net/http`: a check that a test can make. -/
def Spec.Plausible (isHEAD : Bool) (w : RecW) : Prop :=
  isHEAD = true ∨ w.code = 204 ∨ (w.code = 304 ∧ w.body = []) ∨ (w.code ≠ 304 ∧ ∀ n, declaredLength w.snap = some n → n = w.body.length)

theorem rec_setAll (detect : List Byte → GoStr) (hdrs : List (GoStr × List GoStr)) :
    ∀ w : RecW, (w.hdrs.map Prod.fst ++ hdrs.map Prod.fst).Nodup →
      setAll (recRW detect) hdrs w = { w with hdrs := w.hdrs ++ hdrs.filter fun e => e.1 ≠ headerPush } := by
  induction hdrs with
  | nil => intro w _; simp [setAll]
  | cons e hdrs ih =>
    intro w hnd
    simp only [setAll, List.foldl_cons] at ih ⊢
    by_cases h : e.1 ≠ headerPush
    · rw [if_pos h]
      have hx : e.1 ∉ w.hdrs.map Prod.fst := by
        intro hm
        rw [List.nodup_append] at hnd
        exact hnd.2.2 _ hm _ (by simp) rfl
      have e1 : (recRW detect).setHeader w e.1 e.2 = { w with hdrs := w.hdrs ++ [e] } := by
        show ({ w with hdrs := NetW.set e.1 e.2 w.hdrs } : RecW) = _
        rw [netSet_new _ _ _ hx]
      rw [e1, ih]
      · simp [h]
      · simpa using hnd
    · rw [if_neg h, ih]
      · have : e.1 = headerPush := by simpa using h
        simp [this]
      · rw [List.map_cons] at hnd
        exact hnd.sublist (List.Sublist.append_left (List.sublist_cons_self _ _) _)

/-- The recorder, when a status and headers have been recorded. -/
def recorded (code : Int) (H : List (GoStr × List GoStr)) (l : List Byte) : RecW := { code, hdrs := H, body := l, snap := H, wroteHeader := true }

theorem rec_write (detect : List Byte → GoStr) (code : Int) (H : List (GoStr × List GoStr)) (l d : List Byte) :
    (recRW detect).write (recorded code H l) d = (recorded code H (l ++ d), .ret (d.length, none)) := rfl

theorem rec_takes (detect : List Byte → GoStr) (code : Int) (H : List (GoStr × List GoStr)) (K : Nat) (C : List Byte) :
    Takes (recRW detect) K (fun w l => w = recorded code H l) C := by
  refine ⟨?_, fun h => by cases h⟩
  rintro w l d rfl
  exact ⟨_, rec_write detect code H l d, rfl⟩

theorem rec_passes (detect : List Byte → GoStr) (code : Int) (H : List (GoStr × List GoStr)) (K : Nat) (C : List Byte) (e x : Err) :
    Passes (recRW detect) K (fun w l => w = recorded code H l) (fun _ _ => True) C.length e x C := by
  refine ⟨fun _ _ _ h => h.length_le, ?_, ?_, fun h => by cases h⟩
  · rintro w l d rfl _
    exact ⟨_, rec_write detect code H l d, rfl⟩
  · intro w l d _ h1 h2
    have := h1.length_le
    omega

theorem rec_begin (detect : List Byte → GoStr) (raises isHEAD : Bool) (r : Resp β) (h1 : 200 ≤ r.code) (h2 : r.code ≤ 999) (hnd : (r.hdrs.map Prod.fst).Nodup) :
    let D := Writer.ops (recRW detect) raises .flush
    let s₀ : WState RecW := Writer.init {} isHEAD
    (if D.isPusher then pushAll D (hdrGet r.hdrs headerPush) s₀ else (s₀, none)) = (s₀, none) ∧
    D.writeHeader (setAll D r.hdrs s₀) r.code =
      ({ s₀ with next := recorded r.code (r.hdrs.filter fun e => e.1 ≠ headerPush) [], status := r.code }, .ret ()) := by
  intro D s₀
  refine ⟨?_, ?_⟩
  · have : D.isPusher = true := rfl
    rw [if_pos this, through_pushAll]
    have e : (recRW detect).isPusher = false := rfl
    rw [if_neg (by simp [e])]
  · rw [through_setAll]
    have e : setAll (recRW detect) r.hdrs s₀.next = { hdrs := r.hdrs.filter fun e => e.1 ≠ headerPush } :=
      rec_setAll detect r.hdrs {} (by simpa using hnd)
    rw [e]
    show Writer.writeHeader (recRW detect) raises _ r.code = _
    simp only [Writer.writeHeader, Writer.writeHeaderImpl]
    rw [if_neg (by omega), if_neg (by omega), if_neg (by simp [Writer.init, s₀])]
    have e2 : (recRW detect).writeHeader { hdrs := r.hdrs.filter fun e => e.1 ≠ headerPush } r.code =
        (recorded r.code (r.hdrs.filter fun e => e.1 ≠ headerPush) [], .ret ()) := by
      have e3 : (recRW detect).writeHeader = RecW.writeHeader := rfl
      rw [e3]
      unfold RecW.writeHeader
      rw [if_neg (by simp), if_neg (by omega)]
      rfl
    simp only [e2]

theorem rec_final {detect : List Byte → GoStr} {raises isHEAD : Bool} {B : BodyOps β} {fuel : Nat} {r : Resp β} (h1 : 200 ≤ r.code) (assertErr : Bool)
    (onPanic : PanicArg → Res Unit) {b : β} {s' : WState RecW} {o : Option Err}
    (hs : serve (Writer.ops (recRW detect) raises .flush) B fuel r (Writer.init {} isHEAD) = (b, s', .ret o)) (hst : s'.status = r.code) (hb : 0 ≤ s'.bytes) :
    inTest detect raises isHEAD B fuel assertErr onPanic (.resp r) = (s'.next, metricsOf (itoa r.code) s'.bytes (o.map .error) assertErr, ended onPanic o) := by
  have := adaptor_served assertErr onPanic hs (by rw [hst]; omega) hb
  rw [hst] at this
  show (let x := adaptor (Writer.wr (recRW detect) raises .flush) B fuel assertErr onPanic (.resp r) (Writer.init {} isHEAD); (x.1.next, x.2)) = _
  rw [this]

/-- **C87.** What is recorded of a Response whose Body delivers `C`: its status, its headers (without `Push`) and `C` (nothing for HEAD and 204). -/
theorem C87_recorded {C : List Byte} {K : Nat} (hK : 32768 ≤ K) {B : BodyOps β} {P : β → List Byte → Prop} (hB : Lively B P K)
    (detect : List Byte → GoStr) (raises isHEAD : Bool) (fuel : Nat) (hf : C.length < fuel) (assertErr : Bool)
    (onPanic : PanicArg → Res Unit) (r : Resp β) (hP : P r.body C) (h1 : 200 ≤ r.code) (h2 : r.code ≤ 999) (hnd : (r.hdrs.map Prod.fst).Nodup) :
    inTest detect raises isHEAD B fuel assertErr onPanic (.resp r) =
      ({ code := r.code, hdrs := r.hdrs.filter fun e => e.1 ≠ lit "Push", body := sentBody isHEAD r.code C, snap := r.hdrs.filter fun e => e.1 ≠ lit "Push",
         wroteHeader := true }, metricsOf (itoa r.code) (sentBody isHEAD r.code C).length none assertErr, .ret ()) := by
  obtain ⟨a1, a2⟩ := rec_begin detect raises isHEAD r h1 h2 hnd
  by_cases hm : isHEAD = true ∨ r.code = 204
  · obtain ⟨b1, b2⟩ := serve_copied (B := B) (fuel := fuel) (C := C) a1 a2
      (takes_ioCopy hB hK (takes_mute (recRW detect) C K raises .flush _ ⟨hm, by show r.code ≠ 0; omega⟩) fuel _ _ hP rfl hf)
    rcases hq : serve (Writer.ops (recRW detect) raises .flush) B fuel r (Writer.init {} isHEAD) with ⟨b, s', o⟩
    rw [hq] at b1 b2
    dsimp only at b1 b2
    subst b1 b2
    rw [rec_final h1 assertErr onPanic hq rfl (by show (0 : Int) ≤ 0; omega)]
    simp only [sentBody, if_pos hm]
    rfl
  · have hh : isHEAD = false := by cases isHEAD <;> simp at hm ⊢
    obtain ⟨b1, b2, b3⟩ := serve_copied (B := B) (fuel := fuel) (C := C) a1 a2
      (takes_ioCopy hB hK (takes_writer (rec_takes detect r.code (r.hdrs.filter fun e => e.1 ≠ headerPush) K C) raises .flush (fun h => by cases h)
        { (Writer.init {} isHEAD : WState RecW) with next := recorded r.code (r.hdrs.filter fun e => e.1 ≠ headerPush) [], status := r.code }
        ⟨hh, by show r.code ≠ 0; omega, fun h => hm (.inr h)⟩) fuel _ _ hP ⟨rfl, rfl⟩ hf)
    rcases hq : serve (Writer.ops (recRW detect) raises .flush) B fuel r (Writer.init {} isHEAD) with ⟨b, s', o⟩
    rw [hq] at b1 b2 b3
    dsimp only at b1 b2 b3
    subst b1
    have c1 : s'.status = r.code := by rw [b2]
    have c2 : s'.bytes = C.length := by rw [b2]
    rw [rec_final h1 assertErr onPanic hq c1 (by omega), c2, b3]
    simp only [sentBody, if_neg hm]
    rfl

/-- **C87.** A test can tell: what it records fits (`Plausible`, a check of status, Content-Length and length of the body) exactly if the Response
arrives intact over `net/http`. -/
theorem C87_iff {C : List Byte} {K : Nat} (hK : 32768 ≤ K) {B : BodyOps β} {P : β → List Byte → Prop} (hB : Lively B P K) (hQ : Quits B P)
    (detect : List Byte → GoStr) (http1 : Bool) (n : Nat) (hn : C.length < n) (raises isHEAD : Bool) (fuel : Nat) (hf : C.length < fuel) (assertErr : Bool)
    (onPanic : PanicArg → Res Unit) (r : Resp β) (hP : P r.body C) (h1 : 200 ≤ r.code) (h2 : r.code ≤ 999) (hnd : (r.hdrs.map Prod.fst).Nodup) :
    Plausible isHEAD (inTest detect raises isHEAD B fuel assertErr onPanic (.resp r)).1 ↔
      Intact (overNet http1 n raises isHEAD B fuel assertErr onPanic (.resp r)) isHEAD r.code C := by
  rw [C64_iff hK hB hQ http1 n hn raises isHEAD fuel hf assertErr onPanic r hP h1 h2 hnd,
    C87_recorded hK hB detect raises isHEAD fuel hf assertErr onPanic r hP h1 h2 hnd]
  have e : declaredLength (r.hdrs.filter fun e => e.1 ≠ lit "Push") = declaredLength r.hdrs := declared_filter r.hdrs
  unfold Plausible HasRoom
  dsimp only
  rw [e]
  by_cases hm : isHEAD = true ∨ r.code = 204
  · constructor <;> intro _ <;> (rcases hm with h | h <;> simp [h])
  · have hs : sentBody isHEAD r.code C = C := by simp only [sentBody, if_neg hm]
    rw [hs]

/-- **C87.** If it fits, then what a client gets over `net/http` is what was recorded — status, headers and body, in a message that it can read to its end — and
the metrics and the outcome are those of the test. -/
theorem C87_same {C : List Byte} {K : Nat} (hK : 32768 ≤ K) {B : BodyOps β} {P : β → List Byte → Prop} (hB : Lively B P K) (hQ : Quits B P)
    (detect : List Byte → GoStr) (http1 : Bool) (n : Nat) (hn : C.length < n) (raises isHEAD : Bool) (fuel : Nat) (hf : C.length < fuel) (assertErr : Bool)
    (onPanic : PanicArg → Res Unit) (r : Resp β) (hP : P r.body C) (h1 : 200 ≤ r.code) (h2 : r.code ≤ 999) (hnd : (r.hdrs.map Prod.fst).Nodup) :
    let x := inTest detect raises isHEAD B fuel assertErr onPanic (.resp r)
    let y := overNet http1 n raises isHEAD B fuel assertErr onPanic (.resp r)
    Plausible isHEAD x.1 → y.1.status = x.1.code ∧ y.1.hdrs = x.1.snap ∧ y.1.body = x.1.body ∧ Framed y.1 ∧ y.2 = x.2 := by
  intro x y hx
  have hi : Intact y isHEAD r.code C := (C87_iff hK hB hQ detect http1 n hn raises isHEAD fuel hf assertErr onPanic r hP h1 h2 hnd).1 hx
  have hr := (C64_iff hK hB hQ http1 n hn raises isHEAD fuel hf assertErr onPanic r hP h1 h2 hnd).1 hi
  have e : x = _ := C87_recorded hK hB detect raises isHEAD fuel hf assertErr onPanic r hP h1 h2 hnd
  obtain ⟨-, a2, -, a4, a5, -⟩ := C64_request hK hB hQ http1 n hn raises isHEAD fuel hf assertErr onPanic r hP h1 h2 hnd
  have hroom : isHEAD = true ∨ r.code = 204 ∨ C.length ≤ room r.code (declaredLength r.hdrs) C := by
    rcases hr with h | h | ⟨h, rfl⟩ | ⟨h, h'⟩
    · exact .inl h
    · exact .inr (.inl h)
    · exact .inr (.inr (by simp))
    · by_cases h4 : r.code = 204
      · exact .inr (.inl h4)
      · refine .inr (.inr ?_)
        rw [show room r.code (declaredLength r.hdrs) C = (declaredLength r.hdrs).getD C.length by simp [room, h, h4]]
        cases hd : declaredLength r.hdrs with
        | none => exact Nat.le_refl _
        | some k => rw [h' k hd]; exact Nat.le_refl _
  obtain ⟨b1, b2, b3⟩ := a5 hroom
  rw [e]
  exact ⟨a2, a4, b1, hi.framed, Prod.ext b2 b3⟩

/-- **C87.** If the Body fails with `e` after `C`, then `C` is recorded, and `e` is counted and reported: a test cannot tell from what is recorded. -/
theorem C87_failing {C : List Byte} {K : Nat} (hK : 32768 ≤ K) {B : BodyOps β} {P : β → List Byte → Prop} {e : Err} (hB : Failing B P K e)
    (detect : List Byte → GoStr) (raises isHEAD : Bool) (fuel : Nat) (hf : C.length < fuel) (assertErr : Bool)
    (onPanic : PanicArg → Res Unit) (r : Resp β) (hP : P r.body C) (h1 : 200 ≤ r.code) (h2 : r.code ≤ 999) (hnd : (r.hdrs.map Prod.fst).Nodup) :
    inTest detect raises isHEAD B fuel assertErr onPanic (.resp r) =
      ({ code := r.code, hdrs := r.hdrs.filter fun e => e.1 ≠ lit "Push", body := sentBody isHEAD r.code C, snap := r.hdrs.filter fun e => e.1 ≠ lit "Push",
         wroteHeader := true }, metricsOf (itoa r.code) (sentBody isHEAD r.code C).length (some (.error e)) assertErr, onPanic (.itself (.error e))) := by
  obtain ⟨a1, a2⟩ := rec_begin detect raises isHEAD r h1 h2 hnd
  by_cases hm : isHEAD = true ∨ r.code = 204
  · obtain ⟨b1, -⟩ := serve_broken (B := B) (fuel := fuel) (C := C) a1 a2
      (broken_ioCopy (e := e) hB hK (passes_mute (recRW detect) C K raises .flush _ ⟨hm, by show r.code ≠ 0; omega⟩ (fun _ _ => True)) fuel _ _ hP rfl hf)
    obtain ⟨b1, b2⟩ := b1 (Nat.le_refl _)
    rcases hq : serve (Writer.ops (recRW detect) raises .flush) B fuel r (Writer.init {} isHEAD) with ⟨b, s', o⟩
    rw [hq] at b1 b2
    dsimp only at b1 b2
    subst b1 b2
    rw [rec_final h1 assertErr onPanic hq rfl (by show (0 : Int) ≤ 0; omega)]
    simp only [sentBody, if_pos hm]
    rfl
  · have hh : isHEAD = false := by cases isHEAD <;> simp at hm ⊢
    obtain ⟨b1, -⟩ := serve_broken (B := B) (fuel := fuel) (C := C) a1 a2
      (broken_ioCopy hB hK (passes_writer (rec_passes detect r.code (r.hdrs.filter fun e => e.1 ≠ headerPush) K C e e) raises .flush (fun h => by cases h)
        { (Writer.init {} isHEAD : WState RecW) with next := recorded r.code (r.hdrs.filter fun e => e.1 ≠ headerPush) [], status := r.code }
        ⟨hh, by show r.code ≠ 0; omega, fun h => hm (.inr h)⟩) fuel _ _ hP ⟨rfl, rfl, rfl, rfl⟩ hf)
    obtain ⟨b1, b2, b3, b4, b5⟩ := b1 (Nat.le_refl _)
    rcases hq : serve (Writer.ops (recRW detect) raises .flush) B fuel r (Writer.init {} isHEAD) with ⟨b, s', o⟩
    rw [hq] at b1 b2 b4 b5
    dsimp only at b1 b2 b4 b5
    subst b1
    rw [rec_final h1 assertErr onPanic hq b2 (by omega), b4, b5]
    simp only [sentBody, if_neg hm]
    rfl

/-- **C87.** If the handler panics, then an empty 500 without headers is recorded, before `OnPanic` is called and whatever that does. -/
theorem C87_panics (p : Panic) (hp : p.recovered = some p) (detect : List Byte → GoStr) (raises isHEAD : Bool) (B : BodyOps β) (fuel : Nat) (assertErr : Bool)
    (onPanic : PanicArg → Res Unit) :
    inTest detect raises isHEAD B fuel assertErr onPanic (.panic p) =
      ({ code := 500, wroteHeader := true }, metricsOf (lit "0") 0 (some p) assertErr, onPanic (if p.isErr assertErr then PanicArg.itself p else .panicError p)) := by
  have hg : p ≠ .goexit := by rintro rfl; cases hp
  show (let x := adaptor (Writer.wr (recRW detect) raises .flush) B fuel assertErr onPanic (.panic p) (Writer.init {} isHEAD); (x.1.next, x.2)) = _
  unfold adaptor handle
  dsimp only
  rw [hp, if_neg hg]
  rfl

/-! ## Examples -/

private def exTest (isHEAD : Bool) (code : Int) (cl : GoStr) : RecW × List MEv × Res Unit :=
  inTest (fun _ => lit "text/plain") false isHEAD (BodyOps.ofFam MemFam.step true 0) 100 true (fun _ => .ret ())
    (.resp { code, hdrs := [(lit "Content-Length", [cl]), (lit "Push", [lit "/a"])], body := fromBytes (lit "hello"), err := none })

example : (exTest false 200 (lit "5")).1 = { code := 200, hdrs := [(lit "Content-Length", [lit "5"])], body := lit "hello", snap := [(lit "Content-Length", [lit "5"])], wroteHeader := true } := by
  decide +kernel

/-- The hypotheses of `C87_iff` are satisfied. -/
example : Intact (overNet true 100 false false (BodyOps.ofFam MemFam.step true 0) 100 true (fun _ => .ret ())
    (.resp { code := 200, hdrs := [], body := fromBytes (lit "hello"), err := none })) false 200 (lit "hello") :=
  (C87_iff (Nat.le_refl 32768) (mem_lively (lit "hello") (by decide +kernel) (by decide +kernel) 0 _ (by omega))
    (mem_quits (lit "hello") (by decide +kernel) (by decide +kernel) 0) (fun _ => lit "text/plain") true 100 (by decide +kernel) false false 100 (by decide +kernel) true
    (fun _ => .ret ()) { code := 200, hdrs := [], body := fromBytes (lit "hello"), err := none } (mem_source_init _) (by decide) (by decide) (by simp)).1
    (.inr (.inr (.inr ⟨by decide +kernel, fun n hn => by
      have : declaredLength (inTest (fun _ => lit "text/plain") false false (BodyOps.ofFam MemFam.step true 0) 100 true (fun _ => .ret ())
        (.resp { code := 200, hdrs := [], body := fromBytes (lit "hello"), err := none })).1.snap = none := by decide +kernel
      rw [this] at hn; cases hn⟩)))

/-- Recorded, but it does not fit: `hello` with a length of 4. -/
example : (exTest false 200 (lit "4")).1.body = lit "hello" ∧ panicsReported (exTest false 200 (lit "4")).2.1 = [] ∧ ¬ Plausible false (exTest false 200 (lit "4")).1 := by
  refine ⟨by decide +kernel, by decide +kernel, ?_⟩
  rintro (h | h | h | h)
  · cases h
  · exact absurd h (by decide +kernel)
  · exact absurd h.1 (by decide +kernel)
  · exact absurd (h.2 4 (by decide +kernel)) (by decide +kernel)

/-- Recorded, but it does not fit: 304 with a body. -/
example : (exTest false 304 (lit "5")).1.body = lit "hello" ∧ panicsReported (exTest false 304 (lit "5")).2.1 = [] := by
  decide +kernel

/-- Handlers that do not use a Writer: `Write` begins with 200 and a guess, and later headers are not in the result. -/
example :
    let w := ((recRW fun _ => lit "text/plain").write {} (lit "a")).1
    let w := (((recRW fun _ => lit "text/plain").setHeader w (lit "X") [lit "y"]).writeHeader 404).1
    w = { code := 200, hdrs := [(lit "Content-Type", [lit "text/plain"]), (lit "X", [lit "y"])], body := lit "a", snap := [(lit "Content-Type", [lit "text/plain"])],
          wroteHeader := true } := by
  decide +kernel

/-- A Flusher, but no more than that. -/
example (detect : List Byte → GoStr) : (recRW detect).isFlusher = true ∧ (recRW detect).isPusher = false ∧ (recRW detect).isReaderFrom = false ∧
    (recRW detect).isHijacker = false ∧ (recRW detect).isCloseNotifier = false := ⟨rfl, rfl, rfl, rfl, rfl⟩

end Verif
