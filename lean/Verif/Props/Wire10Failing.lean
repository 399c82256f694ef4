import Verif.Props.Failing
import Verif.Props.Wire10

/-!
# C81: a client of HTTP/1.0, and a source that fails

`C81_short`: a response that is shorter than declared is noticed.  `C81_failing`: one whose length was not told is not, whatever `OnPanic` does.
-/

set_option autoImplicit false

namespace Verif
open Spec.Wire Wire WireP Wire10P
variable {β : Type}

/-- A length that is declared is in a header that is not empty. -/
theorem declared_first {hdrs : List (GoStr × List GoStr)} {k : Nat} (h : declaredLength hdrs = some k) : first hdrs (lit "Content-Length") ≠ [] := by
  intro hf
  unfold declaredLength at h
  unfold first at hf
  cases hg : hdrGet hdrs (lit "Content-Length") with
  | nil => rw [hg] at h; cases h
  | cons v vs =>
    rw [hg] at h hf
    simp only [List.headD_cons] at hf
    subst hf
    revert h
    simp only
    intro h
    have : parseLength [] = none := by decide +kernel
    rw [this] at h
    cases h

/-- **C81.** A response that has fewer bytes than the server has told is not taken for a whole one, wherever it ends. -/
theorem C81_short {w : NetW} (h1 : 200 ≤ w.status) (h2 : w.status ≤ 999) (h3 : w.status ≠ 204) (h4 : w.status ≠ 304) (hH : w.isHEAD = false)
    (hd : w.declared = declaredLength w.hdrs) (hn : (w.hdrs.map Prod.fst).Nodup)
    (hsp : ∀ e ∈ w.hdrs, e.2 ≠ [] → Spec.lower e.1 = lit "content-length" → e.1 = lit "Content-Length") {k : Nat} (hk : declaredLength w.hdrs = some k)
    (hag : ∀ v ∈ hdrGet w.hdrs (lit "Content-Length"), lengthOf (cleaned v) = some k)
    (hte : first w.hdrs (lit "Transfer-Encoding") = [] ∨ first w.hdrs (lit "Transfer-Encoding") = lit "identity") (hl : w.body.length < k)
    {c : Choices} (hc : Sound c w) (keep strict : Bool) {s t : GoStr} (hs : wire10 c keep w = s ++ t) : receive10 strict false s = none := by
  let pad : List Byte := List.replicate (k - w.body.length) 0
  let w' : NetW := { w with body := w.body ++ pad }
  let c' : Choices := { c with chunks := [w.body ++ pad] }
  have hpad : pad ≠ [] := by
    intro h
    have := congrArg List.length h
    simp [pad] at this
    omega
  have hlen : (w.body ++ pad).length = k := by simp [pad]; omega
  have ht : Telling10 w' := by
    refine ⟨h1, h2, hd, hn, ?_, hsp, fun n hn => ?_, fun hn => ?_⟩
    · unfold Spec.Framed
      rw [if_neg (by show ¬ (w.isHEAD = true ∨ w.status = 204 ∨ w.status = 304); simp [hH, h3, h4])]
      intro n hn
      have : w.declared = some n := hn
      rw [hd, hk] at this
      cases this
      exact hlen
    · have : declaredLength w.hdrs = some n := hn
      rw [hk] at this
      cases this
      exact hag
    · have : declaredLength w.hdrs = none := hn
      rw [hk] at this
      cases this
  have hc' : Sound c' w' := ⟨hc.order, hc.reason, hc.date, hc.sniffed, by simp [c', w'], by simp [c', hpad]⟩
  have hcl := declared_first hk
  have hplan : plan10 c' keep w' = plan10 c keep w := by
    simp [plan10, w', c', hcl]
  have hw : wire10 c' keep w' = s ++ (t ++ pad) := by
    rw [← List.append_assoc, ← hs]
    unfold wire10
    rw [hplan]
    simp [w', c', hH]
  have hu : (plan10 c' keep w').untilEnd = false := by
    rw [hplan]
    have : w.declared.isSome = true := by rw [hd, hk]; rfl
    rcases hte with h | h
    · simp [plan10, this, h]
    · have : lit "identity" ≠ [] := by decide
      simp [plan10, *]
  have := C81_broken ht keep hc' hu strict hw (by simp [hpad])
  rw [show w'.isHEAD = false from hH] at this
  exact this

/-- **C81.** A handler returns a Response whose Body delivers `C` and fails before what was declared.  The client of HTTP/1.0 notices, wherever the response ends. -/
theorem C81_noticed {C : List Byte} {K : Nat} (hK : 32768 ≤ K) {B : BodyOps β} {P : β → List Byte → Prop} {e : Err} (hB : Spec.Failing B P K e)
    (http1 : Bool) (n : Nat) (hn : C.length < n) (raises : Bool) (fuel : Nat) (hf : C.length < fuel) (assertErr : Bool)
    (onPanic : PanicArg → Res Unit) (r : Resp β) (hP : P r.body C) (h1 : 200 ≤ r.code) (h2 : r.code ≤ 999) (h3 : r.code ≠ 204) (h4 : r.code ≠ 304)
    (hnd : (r.hdrs.map Prod.fst).Nodup) {k : Nat} (hk : declaredLength r.hdrs = some k) (hC : C.length < k)
    (hsp : ∀ e ∈ r.hdrs, e.2 ≠ [] → Spec.lower e.1 = lit "content-length" → e.1 = lit "Content-Length")
    (hag : ∀ v ∈ hdrGet r.hdrs (lit "Content-Length"), lengthOf (cleaned v) = some k)
    (hte : first r.hdrs (lit "Transfer-Encoding") = [] ∨ first r.hdrs (lit "Transfer-Encoding") = lit "identity")
    {c : Choices} (keep strict : Bool) :
    let w := (overNet http1 n raises false B fuel assertErr onPanic (.resp r)).1
    Sound c w → ∀ s t, wire10 c keep w = s ++ t → receive10 strict false s = none := by
  obtain ⟨a1, a2, a3, a4, -, -⟩ := Verif.C66_request hK hB http1 n hn raises false fuel hf assertErr onPanic r hP h1 h2 hnd
  obtain ⟨b1, -⟩ := C66_declared_partial hK hB http1 n hn raises fuel hf assertErr onPanic r hP h1 h2 h3 h4 hnd k hk hC
  dsimp only at a1 a2 a3 a4 b1 ⊢
  generalize (overNet http1 n raises false B fuel assertErr onPanic (.resp r)).1 = w at a1 a2 a3 a4 b1 ⊢
  intro hc s t hs
  have hdl : declaredLength w.hdrs = declaredLength r.hdrs := by rw [a4]; exact declared_filter r.hdrs
  refine C81_short (w := w) (by omega) (by omega) (by omega) (by omega) a1 (by rw [a3, hdl]) ?_ ?_ (k := k) (by rw [hdl, hk]) ?_ ?_ (by rw [b1]; exact hC) hc keep strict hs
  · rw [a4]
    exact hnd.sublist ((List.filter_sublist).map _)
  · rw [a4]
    intro e he
    exact hsp e (List.mem_filter.1 he).1
  · rw [a4, hdrGet_filter r.hdrs (by decide +kernel)]
    exact hag
  · have : first w.hdrs (lit "Transfer-Encoding") = first r.hdrs (lit "Transfer-Encoding") := by
      unfold first
      rw [a4, hdrGet_filter r.hdrs (by decide +kernel)]
    rw [this]
    exact hte

/-- **C81.** If nothing was declared, and the server does not know the length itself, the client takes what has arrived for the whole, whatever `OnPanic` does: even if it
panics, so that the connection is cut.  (Over HTTP/1.1 the client then notices: `C66_undeclared`.) -/
theorem C81_failing {C : List Byte} {K : Nat} (hK : 32768 ≤ K) {B : BodyOps β} {P : β → List Byte → Prop} {e : Err} (hB : Spec.Failing B P K e)
    (http1 : Bool) (n : Nat) (hn : C.length < n) (raises : Bool) (fuel : Nat) (hf : C.length < fuel) (assertErr : Bool)
    (onPanic : PanicArg → Res Unit) (r : Resp β) (hP : P r.body C) (h1 : 200 ≤ r.code) (h2 : r.code ≤ 999) (h3 : r.code ≠ 204) (h4 : r.code ≠ 304)
    (hnd : (r.hdrs.map Prod.fst).Nodup)
    (hsp : ∀ e ∈ r.hdrs, e.2 ≠ [] → Spec.lower e.1 = lit "content-length" → e.1 = lit "Content-Length")
    (hcl : hdrGet r.hdrs (lit "Content-Length") = [])
    {c : Choices} (hauto : c.auto = false) (keep strict : Bool) :
    let w := (overNet http1 n raises false B fuel assertErr onPanic (.resp r)).1
    Sound c w →
      (∃ m, receive10 strict false (wire10 c keep w) = some (m, []) ∧ (m.status : Int) = r.code ∧ m.body = C) ∧
      ∀ s t, wire10 c keep w = s ++ t → t.length ≤ C.length →
        ∃ m, receive10 strict false s = some (m, []) ∧ (m.status : Int) = r.code ∧ C = m.body ++ t := by
  have hk : declaredLength r.hdrs = none := by unfold declaredLength; rw [hcl]
  obtain ⟨a1, a2, a3, a4, -, -⟩ := Verif.C66_request hK hB http1 n hn raises false fuel hf assertErr onPanic r hP h1 h2 hnd
  obtain ⟨b1, -, -⟩ := C66_undeclared hK hB http1 n hn raises fuel hf assertErr onPanic r hP h1 h2 h3 h4 hnd hk
  dsimp only at a1 a2 a3 a4 b1 ⊢
  generalize (overNet http1 n raises false B fuel assertErr onPanic (.resp r)).1 = w at a1 a2 a3 a4 b1 ⊢
  intro hc
  have hdl : declaredLength w.hdrs = none := by rw [a4]; exact (declared_filter r.hdrs).trans hk
  have ht : Telling10 w := by
    refine ⟨by omega, by omega, by rw [a3, hdl, hk], ?_, ?_, ?_, fun n hn => ?_, fun _ => ?_⟩
    · rw [a4]
      exact hnd.sublist ((List.filter_sublist).map _)
    · unfold Spec.Framed
      rw [if_neg (by simp [a1, a2, h3, h4]), a3, hk]
      intro n hn
      cases hn
    · rw [a4]
      intro e he
      exact hsp e (List.mem_filter.1 he).1
    · rw [hdl] at hn; cases hn
    · rw [a4, hdrGet_filter r.hdrs (by decide +kernel)]; exact hcl
  have hu : (plan10 c keep w).untilEnd = true :=
    (C81_untilEnd_iff ht c keep).2 ⟨a1, by omega, by omega, .inl ⟨hdl, fun h => by rw [hauto] at h; cases h⟩⟩
  have key : ∀ s t, wire10 c keep w = s ++ t → t.length ≤ C.length →
      ∃ m, receive10 strict false s = some (m, []) ∧ (m.status : Int) = r.code ∧ C = m.body ++ t := by
    intro s t hs hl
    obtain ⟨m, e1, e2, e3, -⟩ := C81_cut ht keep hc hu strict hs (by rw [b1]; exact hl)
    rw [a1] at e1
    exact ⟨m, e1, by rw [e3, a2], by rw [← b1]; exact e2⟩
  refine ⟨?_, key⟩
  obtain ⟨m, e1, e2, e3⟩ := key (wire10 c keep w) [] (by simp) (by simp)
  exact ⟨m, e1, e2, by simpa using e3.symm⟩

/-! ## Examples -/

private def exOver (onPanic : PanicArg → Res Unit) (hdrs : List (GoStr × List GoStr)) : NetW × List MEv × Res Unit :=
  overNet true 100 false false (BodyOps.ofFam (ReaderAtBody.step (Spec.breaking (.ext 7))) false 0) 100 true onPanic
    (.resp { code := 200, hdrs, body := ReaderAtBody.init (lit "hel") 5, err := none })

/-- `OnPanic` panics, and so `ServeHTTP` does; a client of HTTP/1.0 has got a message with `hel` nevertheless, or with `h` if the rest was not sent. -/
example :
    let x := exOver (fun _ => .panic (.value 1)) []
    x.2.2 = .panic (.value 1) ∧ receive10 true false (wire10 (plain false x.1) false x.1) = some ({ status := 200, fields := [(lit "Date", [])], body := lit "hel" }, []) ∧
    receive10 true false ((wire10 (plain false x.1) false x.1).dropLast.dropLast) = some ({ status := 200, fields := [(lit "Date", [])], body := lit "h" }, []) := by
  decide +kernel

/-- The hypotheses of `C81_failing` are satisfied. -/
example : ∃ m, receive10 true false (wire10 (plain false (exOver (fun _ => .panic (.value 1)) []).1) false (exOver (fun _ => .panic (.value 1)) []).1) = some (m, []) ∧
    (m.status : Int) = 200 ∧ m.body = lit "hel" :=
  (C81_failing (Nat.le_refl 32768) (readerAt_failing (by simp) (breaking_at (.ext 7) (lit "hel")) 0 32768) true 100 (by decide +kernel) false 100 (by decide +kernel) true
    (fun _ => .panic (.value 1)) { code := 200, hdrs := [], body := ReaderAtBody.init (lit "hel") 5, err := none }
    (doomed_init (lit "hel") (.ext 7) (Inv := fun st => st = lit "hel") rfl 5 (by decide +kernel) (by omega)) (by show (200 : Int) ≤ 200; omega) (by show (200 : Int) ≤ 999; omega)
    (by show (200 : Int) ≠ 204; omega) (by show (200 : Int) ≠ 304; omega) (by simp) (by simp) rfl rfl false true (plain_sound _ _)).1

/-- And of `C81_noticed`. -/
example : receive10 true false (wire10 (plain false (exOver (fun _ => .ret ()) [(lit "Content-Length", [lit "5"])]).1) false
    (exOver (fun _ => .ret ()) [(lit "Content-Length", [lit "5"])]).1) = none :=
  C81_noticed (C := lit "hel") (Nat.le_refl 32768) (readerAt_failing (by simp) (breaking_at (.ext 7) (lit "hel")) 0 32768) true 100 (by decide +kernel) false 100 (by decide +kernel) true
    (fun _ => .ret ()) { code := 200, hdrs := [(lit "Content-Length", [lit "5"])], body := ReaderAtBody.init (lit "hel") 5, err := none }
    (doomed_init (lit "hel") (.ext 7) (Inv := fun st => st = lit "hel") rfl 5 (by decide +kernel) (by omega)) (by show (200 : Int) ≤ 200; omega) (by show (200 : Int) ≤ 999; omega)
    (by show (200 : Int) ≠ 204; omega) (by show (200 : Int) ≠ 304; omega) (by simp) (k := 5) (by decide +kernel) (by decide +kernel) (by decide +kernel) (by decide +kernel)
    (.inl (by decide +kernel)) false true (plain_sound false _) _ [] (List.append_nil _).symm

end Verif
