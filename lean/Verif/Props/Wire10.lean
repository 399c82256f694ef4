import Verif.Proofs.Wire10
import Verif.Props.Wire

/-!
# C81: a client of HTTP/1.0 gets the response too, but for chunks
-/

set_option autoImplicit false

namespace Verif
open Spec.Wire Wire WireP Wire10P
variable {β : Type}

/-- **C81.** One response to a request of HTTP/1.0.  The client gets a message that says what the response says, and nothing of what follows it, if the server has told
the length; otherwise the server ends the connection, and the client gets it as well. -/
theorem C81_message {w : NetW} (h : Telling10 w) {c : Choices} (keep : Bool) (hc : Sound c w) (strict : Bool) {next : GoStr}
    (hnext : (plan10 c keep w).untilEnd = true → next = []) :
    ∃ m, receive10 strict w.isHEAD (wire10 c keep w ++ next) = some (m, next) ∧ Says m w :=
  ⟨_, receive_wire10 strict h hc hnext, sent_says10 h.final h.once hc⟩

/-- **C81.** When the length is not told: there is a body to send, no length was declared (or one that goes with another Transfer-Encoding than identity), and the server
does not know it itself. -/
theorem C81_untilEnd_iff {w : NetW} (h : Telling10 w) (c : Choices) (keep : Bool) :
    (plan10 c keep w).untilEnd = true ↔ w.isHEAD = false ∧ w.status ≠ 204 ∧ w.status ≠ 304 ∧
      ((declaredLength w.hdrs = none ∧ (c.auto = true → first w.hdrs (lit "Transfer-Encoding") ≠ [])) ∨
       (declaredLength w.hdrs ≠ none ∧ first w.hdrs (lit "Transfer-Encoding") ≠ [] ∧ first w.hdrs (lit "Transfer-Encoding") ≠ lit "identity")) := by
  have hba : bodyAllowed w.status = true ↔ w.status ≠ 204 ∧ w.status ≠ 304 := by
    have := h.final
    unfold bodyAllowed
    rw [if_neg (by omega)]
    split
    · rename_i h2; simp [h2]
    · split
      · rename_i h2; simp [h2]
      · rename_i h1 h2; simp [h1, h2]
  have hnb : noBody w = true ↔ w.isHEAD = true ∨ w.status = 204 ∨ w.status = 304 := by
    unfold noBody
    by_cases h1 : w.status = 204
    · simp [h1]
    · by_cases h2 : w.status = 304
      · simp [h2, bodyAllowed]
      · rw [hba.2 ⟨h1, h2⟩]
        simp [h1, h2]
  rw [untilEnd_eq, h.declared]
  cases hN : noBody w with
  | true =>
    have := hnb.1 hN
    simp only [Bool.not_true, Bool.false_and, Bool.false_eq_true, false_iff]
    rintro ⟨a, b, d, -⟩
    rcases this with e | e | e
    · rw [a] at e; cases e
    · exact b e
    · exact d e
  | false =>
    have hall : w.isHEAD = false ∧ w.status ≠ 204 ∧ w.status ≠ 304 := by
      have : ¬ (w.isHEAD = true ∨ w.status = 204 ∨ w.status = 304) := fun k => by rw [hnb.2 k] at hN; cases hN
      simp only [not_or, Bool.not_eq_true] at this
      exact this
    have hb : bodyAllowed w.status = true := hba.2 hall.2
    cases hd : declaredLength w.hdrs with
    | some n =>
      simp only [both10, h.declared, hd, Option.isSome_some, Bool.true_or, Bool.true_and, Bool.not_false]
      simp [hall]
    | none =>
      have hcl : first w.hdrs (lit "Content-Length") = [] := by unfold first; rw [h.number hd]; rfl
      simp only [both10, autoLen10, h.declared, hd, Option.isSome_none, Bool.false_or, hb, hcl]
      by_cases ht : first w.hdrs (lit "Transfer-Encoding") = [] <;> cases c.auto <;> simp [ht, hall]

/-- **C81.** A response whose length was told and of which the end is missing is not taken for a whole one. -/
theorem C81_broken {w : NetW} (h : Telling10 w) {c : Choices} (keep : Bool) (hc : Sound c w) (hu : (plan10 c keep w).untilEnd = false) (strict : Bool) {s t : GoStr}
    (hw : wire10 c keep w = s ++ t) (ht : t ≠ []) : receive10 strict w.isHEAD s = none := by
  cases hr : receive10 strict w.isHEAD s with
  | none => rfl
  | some x =>
    exfalso
    obtain ⟨m, r⟩ := x
    have h0 : ∀ next, receive10 strict w.isHEAD (s ++ t ++ next) = some ({ status := w.status.toNat, fields := sent10 c keep w, body := w.body }, next) := fun next => by
      rw [← hw]; exact receive_wire10 strict h hc fun k => by rw [hu] at k; cases k
    rcases receive_more10 t hr with h1 | ⟨-, h1⟩
    · have := h0 []
      rw [List.append_nil, h1] at this
      simp only [Option.some.injEq, Prod.mk.injEq, List.append_eq_nil_iff] at this
      exact ht this.2.2
    · have := h0 [0]
      rw [List.append_assoc, h1] at this
      simp at this

/-- **C81.** But one whose length was not told is, wherever its body is cut: the client gets the beginning, and nothing tells it that it is not all. -/
theorem C81_cut {w : NetW} (h : Telling10 w) {c : Choices} (keep : Bool) (hc : Sound c w) (hu : (plan10 c keep w).untilEnd = true) (strict : Bool) {s t : GoStr}
    (hw : wire10 c keep w = s ++ t) (ht : t.length ≤ w.body.length) :
    ∃ m, receive10 strict w.isHEAD s = some (m, []) ∧ w.body = m.body ++ t ∧ (m.status : Int) = w.status ∧
      ∀ k, k ∉ ownNames → named m.fields k = if isName k then (hdrGet w.hdrs k).map cleaned else [] := by
  obtain ⟨hH, -, -, -⟩ := (C81_untilEnd_iff h c keep).1 hu
  have hwire : wire10 c keep w = head10 c keep w ++ w.body := by
    simp only [wire10, head10, hH, Bool.false_eq_true, if_false]
  obtain ⟨b, hb, rfl⟩ : ∃ b, w.body = b ++ t ∧ s = head10 c keep w ++ b := by
    rw [hwire] at hw
    rcases List.append_eq_append_iff.1 hw with ⟨b, h1, h2⟩ | ⟨b, h1, h2⟩
    · exact ⟨b, h2, h1⟩
    · have hl := congrArg List.length h2
      simp only [List.length_append] at hl
      have : b = [] := List.eq_nil_of_length_eq_zero (by omega)
      subst this
      exact ⟨[], by simpa using h2.symm, by simpa using h1.symm⟩
  refine ⟨{ status := w.status.toNat, fields := sent10 c keep w, body := b }, ?_, hb, (sent_says10 (keep := keep) h.final h.once hc).status,
    (sent_says10 (keep := keep) h.final h.once hc).others⟩
  have := h.final
  rw [head_read10 strict keep (by omega) h.three hc, untold10 h hc hu]
  rfl

/-- The responses that are sent: up to one after which the connection is closed. -/
def Spec.Wire.answered10 : List (Choices × Bool × NetW) → List (Choices × Bool × NetW)
  | [] => []
  | x :: l => x :: if keeps10 x.1 x.2.1 x.2.2 then answered10 l else []

theorem keeps_told {c : Choices} {keep : Bool} {w : NetW} (h : keeps10 c keep w = true) : (plan10 c keep w).untilEnd = false := by
  unfold keeps10 at h
  simp only [Bool.and_eq_true, Bool.not_eq_true'] at h
  exact h.1.2

/-- **C81.** All responses on a connection: the client gets those that are sent, in order, each as it is; it knows where one ends and the next begins. -/
theorem C81_connection (strict : Bool) (l : List (Choices × Bool × NetW)) (h : ∀ x ∈ l, Telling10 x.2.2 ∧ Sound x.1 x.2.2) :
    ∃ ms, receiveAll10 strict (l.map fun x => x.2.2.isHEAD) (sends10 l) = some ms ∧ ms.length = (answered10 l).length ∧
      ∀ (i : Nat) (m : Message) (x : Choices × Bool × NetW), ms[i]? = some m → l[i]? = some x → Says m x.2.2 := by
  induction l with
  | nil => exact ⟨[], rfl, rfl, by simp⟩
  | cons a l ih =>
    obtain ⟨c, keep, w⟩ := a
    obtain ⟨ms, i1, i2, i3⟩ := ih fun x hx => h x (by simp [hx])
    obtain ⟨h1, h2⟩ := h (c, keep, w) (by simp)
    dsimp only at h1 h2
    have hne : ∀ t, wire10 c keep w ++ t ≠ [] := fun t k => by
      have hl := congrArg List.length (List.append_eq_nil_iff.1 k).1
      unfold wire10 at hl
      rw [show lit "HTTP/1.0 " = [72, 84, 84, 80, 47, 49, 46, 48, 32] by decide +kernel] at hl
      simp at hl
    rw [List.map_cons, sends10, receiveAll10, if_neg (hne _)]
    cases hk : keeps10 c keep w with
    | true =>
      rw [if_pos rfl]
      obtain ⟨m, e, hs⟩ := C81_message h1 keep h2 strict (next := sends10 l) fun k => by rw [keeps_told hk] at k; cases k
      refine ⟨m :: ms, ?_, by simp [i2, answered10, hk], ?_⟩
      · rw [e]
        simp only [Option.bind_eq_bind, Option.bind_some, i1]
      · intro i m' x hm hx
        cases i with
        | zero =>
          simp only [List.getElem?_cons_zero, Option.some.injEq] at hm hx
          subst hm hx
          exact hs
        | succ i => exact i3 i m' x (by simpa using hm) (by simpa using hx)
    | false =>
      rw [if_neg (by simp)]
      obtain ⟨m, e, hs⟩ := C81_message h1 keep h2 strict (next := []) fun _ => rfl
      have hrest : ∀ l : List Bool, receiveAll10 strict l [] = some [] := by
        intro l; cases l <;> rfl
      refine ⟨[m], ?_, by simp [answered10, hk], ?_⟩
      · rw [e]
        simp only [Option.bind_eq_bind, Option.bind_some, hrest]
      · intro i m' x hm hx
        cases i with
        | zero =>
          simp only [List.getElem?_cons_zero, Option.some.injEq] at hm hx
          subst hm hx
          exact hs
        | succ i => simp at hm

/-- **C81.** End to end: a handler returns a Response whose Body delivers `C`, and there is room for it.  The client of HTTP/1.0 gets one message with its status, the body
(nothing for HEAD and 204), and the values of its headers, but for `Push`. -/
theorem C81_request {C : List Byte} {K : Nat} (hK : 32768 ≤ K) {B : BodyOps β} {P : β → List Byte → Prop} (hB : Spec.Lively B P K) (hQ : Spec.Quits B P)
    (http1 : Bool) (n : Nat) (hn : C.length < n) (raises isHEAD : Bool) (fuel : Nat) (hf : C.length < fuel) (assertErr : Bool)
    (onPanic : PanicArg → Res Unit) (r : Resp β) (hP : P r.body C) (h1 : 200 ≤ r.code) (h2 : r.code ≤ 999) (hnd : (r.hdrs.map Prod.fst).Nodup)
    (hroom : Spec.HasRoom isHEAD r.code (declaredLength r.hdrs) C)
    (hsp : ∀ e ∈ r.hdrs, e.2 ≠ [] → Spec.lower e.1 = lit "content-length" → e.1 = lit "Content-Length")
    (hag : ∀ n, declaredLength r.hdrs = some n → ∀ v ∈ hdrGet r.hdrs (lit "Content-Length"), lengthOf (cleaned v) = some n)
    (hnum : declaredLength r.hdrs = none → hdrGet r.hdrs (lit "Content-Length") = []) {c : Choices} (keep : Bool)
    (hc : Sound c (overNet http1 n raises isHEAD B fuel assertErr onPanic (.resp r)).1) (strict : Bool) (next : GoStr)
    (hnext : (plan10 c keep (overNet http1 n raises isHEAD B fuel assertErr onPanic (.resp r)).1).untilEnd = true → next = []) :
    ∃ m, receive10 strict isHEAD (wire10 c keep (overNet http1 n raises isHEAD B fuel assertErr onPanic (.resp r)).1 ++ next) = some (m, next) ∧
      (m.status : Int) = r.code ∧ (m.body = if isHEAD = true ∨ r.code = 204 then [] else C) ∧
      (∀ k, k ∉ ownNames → k ≠ lit "Push" → isName k = true → named m.fields k = (hdrGet r.hdrs k).map cleaned) ∧
      named m.fields (lit "Push") = [] := by
  have hi := (C64_iff hK hB hQ http1 n hn raises isHEAD fuel hf assertErr onPanic r hP h1 h2 hnd).2 hroom
  obtain ⟨a1, a2, a3, a4, -, -⟩ := C64_request hK hB hQ http1 n hn raises isHEAD fuel hf assertErr onPanic r hP h1 h2 hnd
  generalize overNet http1 n raises isHEAD B fuel assertErr onPanic (.resp r) = x at hi hc hnext a1 a2 a3 a4 ⊢
  have hcl : hdrGet x.1.hdrs (lit "Content-Length") = hdrGet r.hdrs (lit "Content-Length") := by
    rw [a4]; exact hdrGet_filter r.hdrs (by decide +kernel)
  have hdl : declaredLength x.1.hdrs = declaredLength r.hdrs := by rw [a4]; exact declared_filter r.hdrs
  have ht : Telling10 x.1 := by
    refine ⟨by omega, by omega, by rw [a3, hdl], ?_, hi.framed, ?_, ?_, ?_⟩
    · rw [a4]
      exact hnd.sublist ((List.filter_sublist).map _)
    · rw [a4]
      intro e he
      exact hsp e (List.mem_filter.1 he).1
    · rw [hcl, hdl]; exact hag
    · rw [hcl, hdl]; exact hnum
  obtain ⟨m, e, hs⟩ := C81_message ht keep hc strict hnext
  rw [a1] at e
  refine ⟨m, e, by rw [hs.status, a2], by rw [hs.body, hi.body], fun k hk hp hnm => ?_, ?_⟩
  · rw [hs.others k hk, if_pos hnm, a4, hdrGet_filter r.hdrs hp]
  · have : lit "Push" ∉ ownNames := by decide +kernel
    rw [hs.others _ this, hdrGet_none, List.map_nil, ite_self]
    rw [a4]
    intro e' he'
    have := (List.mem_filter.1 he').2
    simpa using this

/-- **C81.** What is asked of the Content-Length headers is needed, if there is no Transfer-Encoding: it holds if the client can read every response with these headers and
a body of the declared length. -/
theorem C81_length_iff {hdrs : List (GoStr × List GoStr)} (hn : (hdrs.map Prod.fst).Nodup)
    (hsp : ∀ e ∈ hdrs, e.2 ≠ [] → Spec.lower e.1 = lit "content-length" → e.1 = lit "Content-Length") (hte : first hdrs (lit "Transfer-Encoding") = []) :
    ((∀ n, declaredLength hdrs = some n → ∀ v ∈ hdrGet hdrs (lit "Content-Length"), lengthOf (cleaned v) = some n) ∧
      (declaredLength hdrs = none → hdrGet hdrs (lit "Content-Length") = [])) ↔
    ∀ (w : NetW) (c : Choices) (keep strict : Bool), w.hdrs = hdrs → w.declared = declaredLength hdrs → 200 ≤ w.status → w.status ≤ 999 → Spec.Framed w → Sound c w →
      ∃ m, receive10 strict w.isHEAD (wire10 c keep w) = some (m, []) ∧ m.body = w.body := by
  constructor
  · rintro ⟨k1, k2⟩ w c keep strict rfl hd h1 h2 hf hc
    obtain ⟨m, e, hs⟩ := C81_message ⟨h1, h2, hd, hn, hf, hsp, k1, k2⟩ keep hc strict (next := []) fun _ => rfl
    rw [List.append_nil] at e
    exact ⟨m, e, hs.body⟩
  · intro h
    have core : ∀ b : List Byte, (∀ n, declaredLength hdrs = some n → b.length = n) → ∀ u ∈ hdrGet hdrs (lit "Content-Length"), lengthOf (cleaned u) = some b.length := by
      intro b hb u hu
      let w := exampleW hdrs b
      let c := plain false w
      have hc : Sound c w := plain_sound false w
      obtain ⟨m, h1, h2⟩ := h w c false false rfl rfl (by show (200 : Int) ≤ 200; omega) (by show (200 : Int) ≤ 999; omega) (by
        unfold Spec.Framed
        rw [if_neg (by simp [w, exampleW])]
        exact hb) hc
      have hr := head_read10 false false (c := c) (w := w) (by show (100 : Int) ≤ 200; omega) (by show (200 : Int) ≤ 999; omega) hc b
      rw [show head10 c false w ++ b = wire10 c false w from rfl, h1] at hr
      cases hbd : body10 w.isHEAD w.status.toNat (sent10 c false w) b with
      | none => rw [hbd] at hr; cases hr
      | some y =>
        rw [hbd] at hr
        simp only [Option.map_some, Option.some.injEq, Prod.mk.injEq] at hr
        obtain ⟨y1, y2⟩ := y
        obtain ⟨hr1, hr2⟩ := hr
        dsimp only at hr1 hr2
        subst hr2
        rw [hr1] at h2
        have h2' : y1 = b := h2
        subst h2'
        have hnd : lit "Content-Length" ∉ (plan10 c false w).del := by
          have q1 : lit "Content-Length" ≠ lit "Transfer-Encoding" := by decide
          have q2 : lit "Content-Length" ≠ lit "Connection" := by decide
          have hte' : first w.hdrs (lit "Transfer-Encoding") = [] := hte
          have hsup : suppressed w.status = [] := by show suppressed 200 = []; decide
          simp [plan10, hsup, hte', q1, q2]
        have hmem : cleaned u ∈ valuesOf (sent10 c false w) (lit "content-length") := by
          unfold sent10
          rw [values_append, List.mem_append]
          exact Or.inl ((kept_cl10 hc hn _ hsp).2 ⟨hnd, u, hu, rfl⟩)
        unfold body10 at hbd
        rw [if_neg (by show ¬ (false = true ∨ 200 < 200 ∨ 200 = 204 ∨ 200 = 304); decide)] at hbd
        cases hv : valuesOf (sent10 c false w) (lit "content-length") with
        | nil => rw [hv] at hmem; cases hmem
        | cons v vs =>
          rw [hv] at hbd hmem
          dsimp only at hbd
          cases hl : lengthOf v with
          | none => rw [hl] at hbd; cases hbd
          | some k =>
            rw [hl] at hbd
            simp only [Option.bind_eq_bind, Option.bind_some] at hbd
            split at hbd
            · rename_i hx
              simp only [Option.some.injEq, Prod.mk.injEq] at hbd
              have hk : y1.length = k := by
                have := congrArg List.length hbd.1
                rw [List.length_take] at this
                have h3 := congrArg List.length hbd.2
                rw [List.length_drop] at h3
                simp at h3
                omega
              rw [hk]
              rcases List.mem_cons.1 hmem with e | e
              · rw [e]; exact hl
              · have := hx.1
                rw [List.all_eq_true] at this
                simpa using this _ e
            · cases hbd
    refine ⟨fun n hd v hv => ?_, fun hd => ?_⟩
    · have := core (List.replicate n 0) (fun k hk => by rw [hd] at hk; cases hk; simp) v hv
      simpa using this
    · refine List.eq_nil_iff_forall_not_mem.2 fun v hv => ?_
      have e1 := core [] (fun n hn => by rw [hd] at hn; cases hn) v hv
      have e2 := core [0] (fun n hn => by rw [hd] at hn; cases hn) v hv
      rw [e1] at e2
      simp at e2

/-! ## Examples -/

/-- A response whose length is told, one whose length is not, and one that is not sent any more. -/
example :
    let a : NetW := { isHEAD := false, hdrs := [(lit "Content-Length", [lit "5"]), (lit "X", [lit "1\r\n2"])], status := 200, declared := some 5, written := 5, body := lit "hello" }
    let b : NetW := { isHEAD := false, hdrs := [(lit "Transfer-Encoding", [lit "gzip"])], status := 404, written := 7, body := lit "bye\r\n\r\n" }
    let l := [(plain false a, true, a), (plain false b, true, b), (plain false a, true, a)]
    sends10 l = lit "HTTP/1.0 200 OK\r\nContent-Length: 5\r\nX: 1  2\r\nDate: \r\nConnection: keep-alive\r\n\r\nhelloHTTP/1.0 404 OK\r\nDate: \r\n\r\nbye\r\n\r\n" ∧
    receiveAll10 true [false, false, false] (sends10 l) =
      some [{ status := 200, fields := [(lit "Content-Length", lit "5"), (lit "X", lit "1  2"), (lit "Date", []), (lit "Connection", lit "keep-alive")], body := lit "hello" },
            { status := 404, fields := [(lit "Date", [])], body := lit "bye\r\n\r\n" }] ∧
    -- the first one, cut
    receive10 true false ((wire10 (plain false a) true a).dropLast) = none ∧
    -- the second one, cut
    receive10 true false ((wire10 (plain false b) true b).take 30) = some ({ status := 404, fields := [(lit "Date", [])], body := lit "bye" }, []) := by
  decide +kernel

/-- A Content-Length that is no number goes out as it is, and the client cannot make sense of it (over HTTP/1.1 it is left out). -/
theorem C81_number : let w : NetW := { isHEAD := false, hdrs := [(lit "Content-Length", [lit "many"])], status := 200, written := 5, body := lit "hello" }
    Spec.Framed w ∧ w.declared = declaredLength w.hdrs ∧
    (∀ keep strict, receive10 strict false (wire10 (plain false w) keep w) = none) ∧
    ∀ strict, ∃ m, receive strict false (wire (plain false w) w) = some (m, []) ∧ m.body = lit "hello" := by
  refine ⟨?_, by decide, by decide +kernel, fun strict => ?_⟩
  · unfold Spec.Framed; rw [if_neg (by decide)]; intro n hn; cases hn
  · refine ⟨{ status := 200, fields := [(lit "Date", []), (lit "Transfer-Encoding", lit "chunked")], body := lit "hello" }, ?_, rfl⟩
    revert strict
    decide +kernel

end Verif
