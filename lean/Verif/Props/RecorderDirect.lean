import Verif.Model.Recorder

/-! # C87: handlers that use the `httptest.ResponseRecorder` themselves -/

set_option autoImplicit false

namespace Verif

/-- What a handler can do with the recorder. -/
inductive RecOp where
  | header (k : GoStr) (v : List GoStr)
  | status (code : Int)
  | write (d : List Byte)
  | flush
  | push (target : GoStr)
deriving DecidableEq

/-- One call, with the answer that the handler gets. -/
def RecOp.Does (detect : List Byte → GoStr) (w : RecW) (w' : RecW) : RecOp → Prop
  | .header k v => (recRW detect).setHeader w k v = w'
  | .status c => (recRW detect).writeHeader w c = (w', .ret ())
  | .write d => (recRW detect).write w d = (w', .ret (d.length, none))
  | .flush => (recRW detect).flush w = (w', .ret ())
  | .push t => (recRW detect).push w t = (w', .ret (some .notSupported))

inductive RecOp.Runs (detect : List Byte → GoStr) : RecW → List RecOp → RecW → Prop where
  | nil (w : RecW) : RecOp.Runs detect w [] w
  | cons {w w₁ w₂ : RecW} {o : RecOp} {l : List RecOp} : o.Does detect w w₁ → RecOp.Runs detect w₁ l w₂ → RecOp.Runs detect w (o :: l) w₂

/-- All statuses are ones that `WriteHeader` accepts. -/
def RecOp.Valid : RecOp → Prop
  | .status c => 100 ≤ c ∧ c ≤ 999
  | _ => True

/-- The bytes of a call. -/
def RecOp.data : RecOp → List Byte
  | .write d => d
  | _ => []

/-- The calls that begin a response. -/
def RecOp.begins : RecOp → Bool
  | .status _ | .write _ | .flush => true
  | _ => false

/-- The status of the first call that begins the response. -/
def Spec.firstStatus : List RecOp → Int
  | [] => 200
  | .status c :: _ => c
  | .write _ :: _ => 200
  | .flush :: _ => 200
  | .header _ _ :: l => firstStatus l
  | .push _ :: l => firstStatus l

/-- The headers at the first call that begins the response, with a guess of the content type if that is a `Write`. -/
def Spec.firstHdrs (detect : List Byte → GoStr) : List (GoStr × List GoStr) → List RecOp → List (GoStr × List GoStr)
  | _, [] => []
  | H, .status _ :: _ => H
  | H, .flush :: _ => H
  | H, .write d :: _ =>
    if lit "Content-Type" ∈ H.map Prod.fst ∨ (hdrGet H (lit "Transfer-Encoding")).headD [] ≠ [] then H
    else NetW.set (lit "Content-Type") [detect d] H
  | H, .header k v :: l => firstHdrs detect (NetW.set k v H) l
  | H, .push _ :: l => firstHdrs detect H l

open Spec

theorem rec_settled (detect : List Byte → GoStr) : ∀ (l : List RecOp) (w : RecW), (∀ o ∈ l, o.Valid) → w.wroteHeader = true →
    ∃ w', RecOp.Runs detect w l w' ∧ w'.code = w.code ∧ w'.body = w.body ++ l.flatMap RecOp.data ∧ w'.snap = w.snap ∧ w'.wroteHeader = true ∧
      w'.flushed = (w.flushed || l.any (· = .flush))
  | [], w, _, hw => ⟨w, .nil w, rfl, by simp, rfl, hw, by simp⟩
  | o :: l, w, hv, hw => by
    have hv' : ∀ o ∈ l, o.Valid := fun o ho => hv o (List.mem_cons_of_mem _ ho)
    cases o with
    | header k v =>
      obtain ⟨w', a, b, c, d, e, f⟩ := rec_settled detect l { w with hdrs := NetW.set k v w.hdrs } hv' hw
      exact ⟨w', .cons rfl a, b, by simpa [RecOp.data] using c, d, e, by simpa using f⟩
    | status x =>
      obtain ⟨w', a, b, c, d, e, f⟩ := rec_settled detect l w hv' hw
      refine ⟨w', .cons (w₁ := w) ?_ a, b, by simpa [RecOp.data] using c, d, e, by simpa using f⟩
      show RecW.writeHeader w x = _
      rw [RecW.writeHeader, if_pos hw]
    | write x =>
      obtain ⟨w', a, b, c, d, e, f⟩ := rec_settled detect l { w with body := w.body ++ x } hv' hw
      refine ⟨w', .cons (w₁ := { w with body := w.body ++ x }) ?_ a, b, by simpa [RecOp.data] using c, d, e, by simpa using f⟩
      show RecW.write detect w x = _
      simp only [RecW.write, RecW.begin, if_pos hw]
    | flush =>
      obtain ⟨w', a, b, c, d, e, f⟩ := rec_settled detect l { w with flushed := true } hv' hw
      refine ⟨w', .cons (w₁ := { w with flushed := true }) ?_ a, b, by simpa [RecOp.data] using c, d, e, by simpa using f⟩
      show (({ (w.writeHeader 200).1 with flushed := true } : RecW), Res.ret ()) = _
      rw [RecW.writeHeader, if_pos hw]
    | push t =>
      obtain ⟨w', a, b, c, d, e, f⟩ := rec_settled detect l w hv' hw
      exact ⟨w', .cons (w₁ := w) rfl a, b, by simpa [RecOp.data] using c, d, e, by simpa using f⟩

theorem rec_fresh (detect : List Byte → GoStr) : ∀ (l : List RecOp) (w : RecW), (∀ o ∈ l, o.Valid) → w.wroteHeader = false → w.code = 200 → w.snap = [] →
    ∃ w', RecOp.Runs detect w l w' ∧ w'.code = firstStatus l ∧ w'.body = w.body ++ l.flatMap RecOp.data ∧ w'.snap = firstHdrs detect w.hdrs l ∧
      w'.wroteHeader = l.any RecOp.begins ∧ w'.flushed = (w.flushed || l.any (· = .flush))
  | [], w, _, hw, hc, hs => ⟨w, .nil w, hc, by simp, hs, by simpa using hw, by simp⟩
  | o :: l, w, hv, hw, hc, hs => by
    have hv' : ∀ o ∈ l, o.Valid := fun o ho => hv o (List.mem_cons_of_mem _ ho)
    cases o with
    | header k v =>
      obtain ⟨w', a, b, c, d, e, f⟩ := rec_fresh detect l { w with hdrs := NetW.set k v w.hdrs } hv' hw hc hs
      exact ⟨w', .cons rfl a, b, by simpa [RecOp.data] using c, d, by simpa [RecOp.begins] using e, by simpa using f⟩
    | status x =>
      obtain ⟨w', a, b, c, d, e, f⟩ := rec_settled detect l { w with code := x, wroteHeader := true, snap := w.hdrs } hv' rfl
      refine ⟨w', .cons (w₁ := { w with code := x, wroteHeader := true, snap := w.hdrs }) ?_ a, b, by simpa [RecOp.data] using c, d,
        by simpa [RecOp.begins] using e, by simpa using f⟩
      have hx : 100 ≤ x ∧ x ≤ 999 := hv (.status x) List.mem_cons_self
      show RecW.writeHeader w x = _
      rw [RecW.writeHeader, if_neg (by simp [hw]), if_neg (by omega)]
    | write x =>
      obtain ⟨w', a, b, c, d, e, f⟩ := rec_settled detect l
        { w with code := 200, wroteHeader := true, hdrs := firstHdrs detect w.hdrs (.write x :: l), snap := firstHdrs detect w.hdrs (.write x :: l), body := w.body ++ x } hv' rfl
      refine ⟨w', .cons ?_ a, b, by simpa [RecOp.data] using c, d, by simpa [RecOp.begins] using e, by simpa using f⟩
      show RecW.write detect w x = _
      have e1 : (w.hdrs.any fun e => decide (e.1 = lit "Content-Type")) = decide (lit "Content-Type" ∈ w.hdrs.map Prod.fst) := by
        rw [Bool.eq_iff_iff]
        simp only [List.any_eq_true, decide_eq_true_eq, List.mem_map]
      simp only [RecW.write, RecW.begin, hw, firstHdrs, e1]
      generalize (hdrGet w.hdrs (lit "Transfer-Encoding")).headD [] = z
      by_cases h1 : lit "Content-Type" ∈ w.hdrs.map Prod.fst
      · simp only [h1]
        simp [RecW.writeHeader, hw]
      · by_cases h2 : z = []
        · simp only [h1, h2]
          simp [RecW.writeHeader]
        · simp only [h1]
          simp [RecW.writeHeader, hw, h2]
    | flush =>
      obtain ⟨w', a, b, c, d, e, f⟩ := rec_settled detect l { w with code := 200, wroteHeader := true, snap := w.hdrs, flushed := true } hv' rfl
      refine ⟨w', .cons ?_ a, b, by simpa [RecOp.data] using c, d, by simpa [RecOp.begins] using e, by simpa using f⟩
      show (({ (w.writeHeader 200).1 with flushed := true } : RecW), Res.ret ()) = _
      rw [RecW.writeHeader, if_neg (by simp [hw]), if_neg (by omega)]
    | push t =>
      obtain ⟨w', a, b, c, d, e, f⟩ := rec_fresh detect l w hv' hw hc hs
      exact ⟨w', .cons (w₁ := w) rfl a, b, by simpa [RecOp.data] using c, d, by simpa [RecOp.begins] using e, by simpa using f⟩

theorem rec_unique {detect : List Byte → GoStr} {l : List RecOp} {w a b : RecW} (ha : RecOp.Runs detect w l a) (hb : RecOp.Runs detect w l b) : a = b := by
  induction ha with
  | nil => cases hb; rfl
  | @cons w w₁ w₂ o l h1 _ ih =>
    cases hb with
    | @cons _ w₃ _ _ _ h2 h3 =>
      have : w₁ = w₃ := by
        cases o <;> simp only [RecOp.Does] at h1 h2 <;> rw [h1] at h2 <;> first | exact h2 | exact (Prod.ext_iff.1 h2).1
      subst this
      exact ih h3

/-- **C87.** Whatever a handler does with the recorder — headers, statuses from 100 to 999, Writes, Flushes and pushes in any order — every call returns,
Writes write everything, and recorded are all bytes in order, the status of the first call that begins the response (200 for `Write` and `Flush`),
the headers of that moment, and whether there was a Flush. -/
theorem C87_direct (detect : List Byte → GoStr) (l : List RecOp) (hv : ∀ o ∈ l, o.Valid) :
    (∃ w, RecOp.Runs detect {} l w) ∧ ∀ w, RecOp.Runs detect {} l w →
      w.code = firstStatus l ∧ w.body = l.flatMap RecOp.data ∧ w.snap = firstHdrs detect [] l ∧ w.wroteHeader = l.any RecOp.begins ∧
        w.flushed = l.any (· = .flush) := by
  obtain ⟨w, a, b, c, d, e, f⟩ := rec_fresh detect l {} hv rfl rfl rfl
  refine ⟨⟨w, a⟩, fun w' h => ?_⟩
  obtain rfl := rec_unique a h
  exact ⟨b, by simpa using c, d, e, by simpa using f⟩

/-! ## Examples -/

private def exOps : List RecOp :=
  [.header (lit "X") [lit "1"], .push (lit "/a"), .write (lit "ab"), .status 404, .header (lit "Y") [lit "2"], .flush, .write (lit "c")]

example : (∀ o ∈ exOps, o.Valid) ∧ firstStatus exOps = 200 ∧ exOps.flatMap RecOp.data = lit "abc" ∧
    firstHdrs (fun _ => lit "text/plain") [] exOps = [(lit "X", [lit "1"]), (lit "Content-Type", [lit "text/plain"])] := by
  refine ⟨?_, by decide +kernel, by decide +kernel, by decide +kernel⟩
  intro o ho
  simp only [exOps, List.mem_cons, List.not_mem_nil, or_false] at ho
  rcases ho with h | h | h | h | h | h | h <;> subst h <;> simp [RecOp.Valid]

/-- No guess with a Transfer-Encoding or a Content-Type. -/
example : firstHdrs (fun _ => lit "text/plain") [] [.header (lit "Transfer-Encoding") [lit "chunked"], .write (lit "a")] = [(lit "Transfer-Encoding", [lit "chunked"])] ∧
    firstHdrs (fun _ => lit "text/plain") [] [.header (lit "Content-Type") [lit "a/b"], .write (lit "a")] = [(lit "Content-Type", [lit "a/b"])] := by
  decide +kernel

end Verif
