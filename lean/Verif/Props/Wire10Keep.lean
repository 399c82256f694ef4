import Verif.Props.Wire10

/-!
# C81: what a client of HTTP/1.0 is told about the connection
-/

set_option autoImplicit false

namespace Verif
open Spec.Wire Wire WireP Wire10P

/-- **C81.** The Connection field is the Response's, if it has one.  If it has none, there is one exactly if the client has asked for keep-alive and the length is told, and
it says so; and exactly then the connection stays open.  (For responses without Transfer-Encoding, if nothing else makes the server close the connection.) -/
theorem C81_keepAlive {w : NetW} (h : Telling10 w) {c : Choices} (keep : Bool) (hc : Sound c w) (hclose : c.close = false) (hte : first w.hdrs (lit "Transfer-Encoding") = [])
    (strict : Bool) {next : GoStr} (hnext : (plan10 c keep w).untilEnd = true → next = []) :
    keeps10 c keep w = (keep && !(plan10 c keep w).untilEnd) ∧ ∃ m, receive10 strict w.isHEAD (wire10 c keep w ++ next) = some (m, next) ∧
      named m.fields (lit "Connection") = if has w.hdrs (lit "Connection") then (hdrGet w.hdrs (lit "Connection")).map cleaned
        else if keeps10 c keep w then [lit "keep-alive"] else [] := by
  have h204 : w.status = 204 → bodyAllowed w.status = false := by
    intro e; rw [e]; decide
  have hu : (plan10 c keep w).untilEnd = !(w.isHEAD || (w.declared.isSome || (c.auto && bodyAllowed w.status && decide (first w.hdrs (lit "Content-Length") = []))) ||
      !bodyAllowed w.status) := by
    by_cases e : w.status = 204
    · simp [plan10, hte, h204 e]
    · simp only [plan10, hte, e, ne_eq, not_true_eq_false, decide_false, Bool.not_false, Bool.and_true, Bool.and_false, Bool.false_and, Bool.or_false]
      cases w.isHEAD <;> cases bodyAllowed w.status <;> cases w.declared.isSome <;> cases c.auto <;> simp
  have hk : keeps10 c keep w = (keep && !(plan10 c keep w).untilEnd) := by
    unfold keeps10
    rw [hu, hclose, hte]
    cases keep <;> cases w.isHEAD <;> cases bodyAllowed w.status <;> cases w.declared.isSome <;> cases c.auto <;> simp
  refine ⟨hk, _, receive_wire10 strict h hc hnext, ?_⟩
  show named (sent10 c keep w) _ = _
  have hd : lit "Connection" ∉ (plan10 c keep w).del := by
    have h1 : lit "Connection" ≠ lit "Content-Length" := by decide
    have h2 : lit "Connection" ≠ lit "Transfer-Encoding" := by decide
    have h3 : lit "Connection" ≠ lit "Content-Type" := by decide
    simp only [plan10, List.mem_append, mem_if, suppressed, hclose, h1, h2, and_false, or_false, List.mem_singleton]
    split
    · simp [h1, h2, h3]
    · split <;> simp [h1, h2]
  have hx : named ((plan10 c keep w).extra.map fun e => (e.1, strip e.2)) (lit "Connection") =
      if keeps10 c keep w && !has w.hdrs (lit "Connection") then [lit "keep-alive"] else [] := by
    have h1 : lit "Date" ≠ lit "Connection" := by decide
    have h2 : lit "Content-Length" ≠ lit "Connection" := by decide
    have h3 : lit "Content-Type" ≠ lit "Connection" := by decide
    have hs : strip (lit "keep-alive") = lit "keep-alive" := by decide
    rw [hk, hu]
    simp only [plan10, List.map_append, named_append]
    rw [show ∀ (b : Prop) [Decidable b] (v : GoStr), named ((if b then [] else [(lit "Date", v)]).map fun e => (e.1, strip e.2)) (lit "Connection") = [] from
      fun b _ v => by split <;> simp [named, h1]]
    rw [show ∀ (b : Prop) [Decidable b] (v : GoStr), named ((if b then [(lit "Content-Length", v)] else []).map fun e => (e.1, strip e.2)) (lit "Connection") = [] from
      fun b _ v => by split <;> simp [named, h2]]
    rw [show ∀ (b : Prop) [Decidable b] (v : GoStr), named ((if b then [(lit "Content-Type", v)] else []).map fun e => (e.1, strip e.2)) (lit "Connection") = [] from
      fun b _ v => by split <;> simp [named, h3]]
    simp only [hte, List.nil_append]
    cases keep <;> cases w.isHEAD <;> cases bodyAllowed w.status <;> cases w.declared.isSome <;> cases c.auto <;> cases has w.hdrs (lit "Connection") <;> simp [named, hs]
    all_goals split <;> simp [hs]
  unfold sent10
  rw [named_append, kept_named10 hc h.once _ hd, if_pos (by decide), hx]
  cases hh : has w.hdrs (lit "Connection") with
  | true => simp
  | false =>
    have : hdrGet w.hdrs (lit "Connection") = [] := by
      unfold hdrGet
      rw [List.find?_eq_none.2]
      · intro e he
        simp only [has, List.any_eq_false] at hh
        simpa using hh e he
    simp [this]

/-- A response whose length is told, to a client that has asked, to one that has not, and with a Connection header. -/
example :
    let a : NetW := { isHEAD := false, hdrs := [(lit "Content-Length", [lit "5"])], status := 200, declared := some 5, written := 5, body := lit "hello" }
    let b : NetW := { a with hdrs := [(lit "Content-Length", [lit "5"]), (lit "Connection", [lit "upgrade"])] }
    wire10 (plain false a) true a = lit "HTTP/1.0 200 OK\r\nContent-Length: 5\r\nDate: \r\nConnection: keep-alive\r\n\r\nhello" ∧ keeps10 (plain false a) true a = true ∧
    wire10 (plain false a) false a = lit "HTTP/1.0 200 OK\r\nContent-Length: 5\r\nDate: \r\n\r\nhello" ∧ keeps10 (plain false a) false a = false ∧
    wire10 (plain false b) true b = lit "HTTP/1.0 200 OK\r\nContent-Length: 5\r\nConnection: upgrade\r\nDate: \r\n\r\nhello" ∧ keeps10 (plain false b) true b = true := by
  decide +kernel

end Verif
