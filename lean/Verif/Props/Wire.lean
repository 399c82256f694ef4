import Verif.Proofs.WireCut
import Verif.Props.NetHttp

/-!
# C76: nothing in a Response can be mistaken for the end of it or the start of another

What `net/http` sends for it (Model/Wire.lean, whatever the server may choose) is read by a client (Spec/Wire.lean, RFC 7230) as one message that says what
the Response says, and the client is then at what follows.
-/

set_option autoImplicit false

namespace Verif
open Spec.Wire Wire WireP
variable {β : Type}

/-- A finished response that a client can tell from the next one: a status that is final, headers that leave the transfer to the server, and a body
of the declared length. -/
structure Spec.Wire.Telling (w : NetW) : Prop where
  final : 200 ≤ w.status
  three : w.status ≤ 999
  declared : w.declared = declaredLength w.hdrs
  once : (w.hdrs.map Prod.fst).Nodup
  framed : Spec.Framed w
  free : NoFraming w.hdrs
  length : LengthOk w.hdrs

/-- **C76.** One response.  Header values may hold any bytes, line ends too, names may be any strings, and the body may be anything: the client, strict about
ends of lines or not, gets a message that says what the response says, and nothing of what follows it. -/
theorem C76_message {w : NetW} (h : Telling w) {c : Choices} (hc : Sound c w) (strict : Bool) (next : GoStr) :
    ∃ m, receive strict w.isHEAD (wire c w ++ next) = some (m, next) ∧ Says m w :=
  ⟨_, receive_wire strict h.final h.three h.declared h.once h.framed h.free h.length hc next, sent_says h.final h.once hc⟩

/-- **C76.** All responses on a connection: the client gets as many messages, and the n-th is the n-th response. -/
theorem C76_connection (strict : Bool) (l : List (Choices × NetW)) (h : ∀ x ∈ l, Telling x.2 ∧ Sound x.1 x.2) :
    ∃ ms, receiveAll strict (l.map fun x => x.2.isHEAD) (l.flatMap fun x => wire x.1 x.2) = some ms ∧ ms.length = l.length ∧
      ∀ (i : Nat) (m : Message) (x : Choices × NetW), ms[i]? = some m → l[i]? = some x → Says m x.2 := by
  induction l with
  | nil => exact ⟨[], rfl, rfl, by simp⟩
  | cons a l ih =>
    obtain ⟨ms, i1, i2, i3⟩ := ih fun x hx => h x (by simp [hx])
    obtain ⟨h1, h2⟩ := h a (by simp)
    obtain ⟨m, e, hs⟩ := C76_message h1 h2 strict (l.flatMap fun x => wire x.1 x.2)
    refine ⟨m :: ms, ?_, by simp [i2], ?_⟩
    · rw [List.map_cons, List.flatMap_cons, receiveAll, e]
      simp only [Option.bind_eq_bind, Option.bind_some, i1]
    · intro i m' x hm hx
      cases i with
      | zero =>
        simp only [List.getElem?_cons_zero, Option.some.injEq] at hm hx
        subst hm hx
        exact hs
      | succ i =>
        simp only [List.getElem?_cons_succ] at hm hx
        exact i3 i m' x hm hx

/-- **C76.** If the connection breaks before the end of a response, the client notices: what has arrived is not a message. -/
theorem C76_broken {w : NetW} (h : Telling w) {c : Choices} (hc : Sound c w) (strict : Bool) {s t : GoStr} (hw : wire c w = s ++ t) (ht : t ≠ []) :
    receive strict w.isHEAD s = none := by
  cases hr : receive strict w.isHEAD s with
  | none => rfl
  | some x =>
    exfalso
    exact receive_cut (r := x.2) (m' := x.1) ht (fun next => hw ▸ receive_wire strict h.final h.three h.declared h.once h.framed h.free h.length hc next) hr

/-- **C76.** The condition on Content-Length headers is needed: it holds if a client can read every response with these headers and a body of the declared
length. -/
theorem C76_length_iff {hdrs : List (GoStr × List GoStr)} (hn : (hdrs.map Prod.fst).Nodup) (hnf : NoFraming hdrs) :
    LengthOk hdrs ↔ ∀ (w : NetW) (c : Choices) (strict : Bool) (next : GoStr), w.hdrs = hdrs → w.declared = declaredLength hdrs → 200 ≤ w.status →
      w.status ≤ 999 → Spec.Framed w → Sound c w → ∃ m, receive strict w.isHEAD (wire c w ++ next) = some (m, next) ∧ m.body = w.body := by
  constructor
  · rintro hl w c strict next rfl hd h1 h2 hf hc
    obtain ⟨m, e, hs⟩ := C76_message ⟨h1, h2, hd, hn, hf, hnf, hl⟩ hc strict next
    exact ⟨m, e, hs.body⟩
  · intro h
    refine length_needed hn hnf fun auto b hf => ?_
    have := h (exampleW hdrs b) (plain auto (exampleW hdrs b)) false [] rfl rfl (by show (200 : Int) ≤ 200; omega) (by show (200 : Int) ≤ 999; omega) hf (plain_sound _ _)
    rw [List.append_nil] at this
    exact this

/-- **C76.** End to end: a handler returns a Response whose Body delivers `C`, and there is room for it.  Over a connection of HTTP/1.1 the client
gets one message with its status, the body (nothing for HEAD and 204), and the values of its headers, but for `Push`. -/
theorem C76_request {C : List Byte} {K : Nat} (hK : 32768 ≤ K) {B : BodyOps β} {P : β → List Byte → Prop} (hB : Spec.Lively B P K) (hQ : Spec.Quits B P)
    (http1 : Bool) (n : Nat) (hn : C.length < n) (raises isHEAD : Bool) (fuel : Nat) (hf : C.length < fuel) (assertErr : Bool)
    (onPanic : PanicArg → Res Unit) (r : Resp β) (hP : P r.body C) (h1 : 200 ≤ r.code) (h2 : r.code ≤ 999) (hnd : (r.hdrs.map Prod.fst).Nodup)
    (hroom : Spec.HasRoom isHEAD r.code (declaredLength r.hdrs) C) (hnf : NoFraming r.hdrs) (hl : LengthOk r.hdrs) {c : Choices}
    (hc : Sound c (overNet http1 n raises isHEAD B fuel assertErr onPanic (.resp r)).1) (strict : Bool) (next : GoStr) :
    ∃ m, receive strict isHEAD (wire c (overNet http1 n raises isHEAD B fuel assertErr onPanic (.resp r)).1 ++ next) = some (m, next) ∧
      (m.status : Int) = r.code ∧ (m.body = if isHEAD = true ∨ r.code = 204 then [] else C) ∧
      (∀ k, k ∉ ownNames → k ≠ lit "Push" → isName k = true → named m.fields k = (hdrGet r.hdrs k).map cleaned) ∧
      named m.fields (lit "Push") = [] := by
  have hi := (C64_iff hK hB hQ http1 n hn raises isHEAD fuel hf assertErr onPanic r hP h1 h2 hnd).2 hroom
  obtain ⟨a1, a2, a3, a4, -, -⟩ := C64_request hK hB hQ http1 n hn raises isHEAD fuel hf assertErr onPanic r hP h1 h2 hnd
  generalize overNet http1 n raises isHEAD B fuel assertErr onPanic (.resp r) = x at hi hc a1 a2 a3 a4 ⊢
  have hcl : hdrGet x.1.hdrs (lit "Content-Length") = hdrGet r.hdrs (lit "Content-Length") := by
    rw [a4]; exact hdrGet_filter r.hdrs (by decide +kernel)
  have hdl : declaredLength x.1.hdrs = declaredLength r.hdrs := by rw [a4]; exact declared_filter r.hdrs
  have ht : Telling x.1 := by
    refine ⟨by omega, by omega, by rw [a3, hdl], ?_, hi.framed, ?_, ?_⟩
    · rw [a4]
      exact hnd.sublist ((List.filter_sublist).map _)
    · rw [a4]
      intro e he
      exact hnf e (List.mem_filter.1 he).1
    · unfold LengthOk
      rw [hcl, hdl]
      exact hl
  obtain ⟨m, e, hs⟩ := C76_message ht hc strict next
  rw [a1] at e
  refine ⟨m, e, by rw [hs.status, a2], by rw [hs.body, hi.body], fun k hk hp hnm => ?_, ?_⟩
  · rw [hs.others k hk, if_pos hnm, a4, hdrGet_filter r.hdrs hp]
  · have : lit "Push" ∉ ownNames := by decide +kernel
    rw [hs.others _ this, hdrGet_none, List.map_nil, ite_self]
    rw [a4]
    intro e' he'
    have := (List.mem_filter.1 he').2
    simpa using this

theorem cleaned_itoa (n : Nat) : cleaned (itoa n) = itoa n := by
  obtain ⟨-, h2, h3⟩ := itoa_read n
  unfold cleaned
  rw [List.map_congr_left (g := id), List.map_id, h3]
  intro c hc
  rw [if_neg]
  · rfl
  · rintro (rfl | rfl)
    · exact h2.1 hc
    · exact h2.2 hc

/-- **C76.** A Response made by a Builder that has no header of these names — in whatever spelling —, from a Body whose length may be known or not: whatever else is in
the headers and the Body, the client gets it as one message. -/
theorem C76_built {X : Type} {E : BEnv X} (hE : NoShared E) {s : BState X} (hs : Reached E s) {h : Nat} {b : Bld} (hb : s.blds[h]? = some b)
    {i : Nat} (hi : b.body = some i)
    (hfree : ∀ k v, s.heap.lookup b.hdrs k = some v → Spec.lower k ≠ lit "content-length" ∧ Spec.lower k ≠ lit "transfer-encoding")
    {C : List Byte} (hC : C.length < 2 ^ 63) {K : Nat} (hK : 32768 ≤ K) {B : BodyOps X} {P : X → List Byte → Prop} (hB : Spec.Lively B P K)
    (hQ : Spec.Quits B P) (hP : P s.bodies C) (hrem : E.store.remaining s.bodies i = C.length ∨ E.store.remaining s.bodies i < 0)
    (http1 : Bool) (n : Nat) (hn : C.length < n) (raises isHEAD : Bool) (fuel : Nat) (hf : C.length < fuel) (assertErr : Bool) (onPanic : PanicArg → Res Unit) :
    ∃ s' r, s.step E (.build h) = (s', .made s.rsps.length) ∧ s'.rsps[s.rsps.length]? = some r ∧ s'.bodies = s.bodies ∧
      ∀ hdrs, Spec.Lists hdrs (s'.heap.lookup r.hdrs) → (hdrs.map Prod.fst).Nodup → (isHEAD = true ∨ r.code ≠ 304 ∨ C = []) →
        let x := overNet http1 n raises isHEAD B fuel assertErr onPanic (.resp { code := r.code, hdrs, body := s'.bodies, err := r.err })
        ∀ c, Sound c x.1 → ∀ strict next, ∃ m, receive strict isHEAD (wire c x.1 ++ next) = some (m, next) ∧ (m.status : Int) = r.code ∧
          (m.body = if isHEAD = true ∨ r.code = 204 then [] else C) ∧
          ∀ k v, k ∉ ownNames → k ≠ lit "Push" → isName k = true → s.heap.lookup b.hdrs k = some v → named m.fields k = v.map cleaned := by
  obtain ⟨H', r, h1, -, -, -, hnew⟩ := build_step hE hs hb hi
  have h2 : ({ s with heap := H', blds := s.blds.set h { gen := b.gen }, rsps := s.rsps ++ [r] } : BState X).rsps[s.rsps.length]? = some r := by simp
  have hrange : 200 ≤ r.code ∧ r.code ≤ 999 := by
    obtain ⟨Y, ops, hl, e⟩ := hs.step (op := .build h) trivial
    rw [h1] at e
    exact C26_range E Y ops (by rw [← e]; exact h2)
  refine ⟨_, r, h1, h2, rfl, fun hdrs hlist hnd hok => ?_⟩
  dsimp only at hlist ⊢
  intro c hc strict next
  have hcl0 : s.heap.lookup b.hdrs (lit "Content-Length") = none := by
    cases hx : s.heap.lookup b.hdrs (lit "Content-Length") with
    | none => rfl
    | some v => exact absurd (by decide) (hfree _ v hx).1
  rw [hnew] at hlist
  have hne : lit "Content-Length" ≠ lit "Content-Type" := by decide +kernel
  have hcl : hdrGet hdrs (lit "Content-Length") = if 0 ≤ E.store.remaining s.bodies i then [itoa C.length] else [] := by
    by_cases h0 : 0 ≤ E.store.remaining s.bodies i
    · have hr : E.store.remaining s.bodies i = C.length := by rcases hrem with h | h <;> omega
      rw [if_pos h0]
      refine hdrGet_lists hlist ?_
      simp [Spec.Hdrs.filled, hcl0, hne, hr]
    · rw [if_neg h0]
      refine hdrGet_none ?_
      rintro ⟨k, v⟩ he rfl
      have := (hlist _ v).1 he
      simp [Spec.Hdrs.filled, hcl0, hne, h0] at this
  have hdl : declaredLength hdrs = if 0 ≤ E.store.remaining s.bodies i then some C.length else none := by
    unfold declaredLength
    rw [hcl]
    by_cases h0 : 0 ≤ E.store.remaining s.bodies i
    · rw [if_pos h0, if_pos h0]
      exact parseLength_decimal _ _ (decimal_itoa _) hC
    · rw [if_neg h0, if_neg h0]
  have hl : LengthOk hdrs := by
    unfold LengthOk
    rw [hdl, hcl]
    by_cases h0 : 0 ≤ E.store.remaining s.bodies i
    · rw [if_pos h0, if_pos h0]
      refine ⟨?_, ?_⟩
      · intro n hn v hv
        cases hn
        rw [List.mem_singleton.1 hv, cleaned_itoa]
        exact (itoa_read _).1
      · simp only [List.head?_cons, ne_eq, Option.some.injEq]
        intro h
        have := (itoa_read C.length).1
        rw [h] at this
        cases this
    · rw [if_neg h0, if_neg h0]
      exact ⟨(fun n hn => (by cases hn)), (by simp)⟩
  have hnf : NoFraming hdrs := by
    rintro ⟨k, v⟩ he hv
    have := (hlist k v).1 he
    dsimp only
    by_cases k1 : k = lit "Content-Type"
    · subst k1; decide +kernel
    by_cases k2 : k = lit "Content-Length"
    · subst k2; decide +kernel
    simp only [Spec.Hdrs.filled, k1, k2, false_and, if_false] at this
    have hx := hfree k v (by cases hq : s.heap.lookup b.hdrs k <;> simp_all)
    exact ⟨hx.2, fun h => absurd h hx.1⟩
  have hroom : Spec.HasRoom isHEAD r.code (declaredLength hdrs) C := by
    have hd : ∀ n, declaredLength hdrs = some n → n = C.length := by
      intro n hn
      rw [hdl] at hn
      split at hn
      · cases hn; rfl
      · cases hn
    rcases hok with h | h | h
    · exact .inl h
    · exact .inr (.inr (.inr ⟨h, hd⟩))
    · by_cases h3 : r.code = 304
      · exact .inr (.inr (.inl ⟨h3, h⟩))
      · exact .inr (.inr (.inr ⟨h3, hd⟩))
  obtain ⟨m, e1, e2, e3, e4, -⟩ := C76_request hK hB hQ http1 n hn raises isHEAD fuel hf assertErr onPanic
    { code := r.code, hdrs, body := s.bodies, err := r.err } hP hrange.1 hrange.2 hnd hroom hnf hl hc strict next
  refine ⟨m, e1, e2, e3, fun k v hk hp hnm hv => ?_⟩
  rw [e4 k hk hp hnm]
  rw [hdrGet_lists hlist (k := k) (vs := v)]
  simp [Spec.Hdrs.filled, hv]

theorem lengthOk_none {hdrs : List (GoStr × List GoStr)} (h1 : declaredLength hdrs = none)
    (h2 : (hdrGet hdrs (lit "Content-Length")).head? ≠ some []) : LengthOk hdrs := by
  refine ⟨fun n hn => ?_, h2⟩
  rw [h1] at hn
  cases hn

/-- The status line, and the start of the body, of a response that an attacker would like to add. -/
def evil : GoStr := lit "a\r\nContent-Length: 0\r\n\r\nHTTP/1.1 200 OK\r\nSet-Cookie: x=1\r\n\r\nhi"

def evilW : NetW :=
  { isHEAD := false, hdrs := [(lit "X-Name", [evil, lit " b "]), (lit "Bad Name:\r\n", [lit "v"])], status := 200, written := 5, body := lit "hello" }

/-- A header value with line ends, and a name that is none, in chunks: one message. -/
example : Telling evilW ∧ Sound { plain false evilW with chunks := [lit "he", lit "llo"], trailer := [(lit "T", [evil])] } evilW ∧
    receive true false (wire { plain false evilW with chunks := [lit "he", lit "llo"], trailer := [(lit "T", [evil])] } evilW ++ lit "HTTP/1.1 404 ") =
      some ({ status := 200
              fields := [(lit "X-Name", lit "a  Content-Length: 0    HTTP/1.1 200 OK  Set-Cookie: x=1    hi"), (lit "X-Name", lit "b"), (lit "Date", []),
                (lit "Transfer-Encoding", lit "chunked")]
              body := lit "hello" }, lit "HTTP/1.1 404 ") := by
  refine ⟨⟨by decide, by decide, by decide, by decide, ?_, ?_, ?_⟩, ⟨List.Perm.refl _, ?_, ?_, ?_, by decide, by decide⟩, by decide +kernel⟩
  · unfold Spec.Framed; rw [if_neg (by decide)]; intro n hn; cases hn
  · unfold NoFraming; decide +kernel
  · exact lengthOk_none (by decide +kernel) (by decide +kernel)
  all_goals (unfold OneLine; decide)

/-- **C76.** Headers that are to determine the transfer themselves make a message that is ambiguous: a length under another spelling of the name goes out
together with `Transfer-Encoding: chunked`. -/
theorem C76_spelling : let w : NetW := { isHEAD := false, hdrs := [(lit "content-length", [lit "5"])], status := 200, written := 5, body := lit "hello" }
    Spec.Framed w ∧ Sound (plain false w) w ∧ w.declared = declaredLength w.hdrs ∧ LengthOk w.hdrs ∧
    wire (plain false w) w =
      lit "HTTP/1.1 200 OK\r\ncontent-length: 5\r\nDate: \r\nTransfer-Encoding: chunked\r\n\r\n5\r\nhello\r\n0\r\n\r\n" ∧
    ∀ strict, receive strict false (wire (plain false w) w) = none := by
  refine ⟨?_, plain_sound _ _, by decide, lengthOk_none (by decide +kernel) (by decide +kernel), by decide +kernel, by decide +kernel⟩
  unfold Spec.Framed; rw [if_neg (by decide)]; intro n hn; cases hn

/-- **C76.** And so does a Transfer-Encoding header. -/
theorem C76_encoding : let w : NetW := { isHEAD := false, hdrs := [(lit "Transfer-Encoding", [lit "gzip"])], status := 200, written := 5, body := lit "hello" }
    Spec.Framed w ∧ Sound (plain false w) w ∧ w.declared = declaredLength w.hdrs ∧ LengthOk w.hdrs ∧
    ∀ strict, receive strict false (wire (plain false w) w) = none := by
  refine ⟨?_, plain_sound _ _, by decide, lengthOk_none (by decide +kernel) (by decide +kernel), by decide +kernel⟩
  unfold Spec.Framed; rw [if_neg (by decide)]; intro n hn; cases hn

/-- Two responses on a connection, the first to HEAD; and a break in the second. -/
example :
    let a : NetW := { isHEAD := true, hdrs := [(lit "Content-Length", [lit "5"])], status := 404, declared := some 5 }
    let b : NetW := { isHEAD := false, hdrs := [(lit "Content-Length", [lit "5"])], status := 200, declared := some 5, written := 5, body := lit "hello" }
    receiveAll true [true, false] (wire (plain false a) a ++ wire (plain true b) b) =
      some [{ status := 404, fields := [(lit "Content-Length", lit "5"), (lit "Date", [])], body := [] },
            { status := 200, fields := [(lit "Content-Length", lit "5"), (lit "Date", [])], body := lit "hello" }] ∧
    receive true false ((wire (plain true b) b).dropLast) = none := by
  decide +kernel

/-- A client that is strict takes for the end of a line CR LF and nothing else, and no CR or LF within a line. -/
theorem line_strict {s l rest : GoStr} : line true s = some (l, rest) ↔ s = l ++ 13 :: 10 :: rest ∧ (10 : Byte) ∉ l ∧ (13 : Byte) ∉ l := by
  constructor
  · intro h
    rw [line] at h
    split at h
    · cases h
    · rename_i c rest' hd
      have hs : s = s.takeWhile (· ≠ 10) ++ 10 :: rest' := by
        have h1 := (List.takeWhile_append_dropWhile (p := (· ≠ (10 : Byte))) (l := s)).symm
        have h2 : c = 10 := by
          have h3 := List.head_dropWhile_not (· ≠ (10 : Byte)) (l := s) (by rw [hd]; simp)
          simp only [hd, List.head_cons] at h3
          simpa using h3
        rw [hd, h2] at h1
        exact h1
      have hn : (10 : Byte) ∉ s.takeWhile (· ≠ 10) := by
        intro hm
        simpa using List.all_eq_true.1 (List.all_takeWhile (p := (· ≠ (10 : Byte))) (l := s)) _ hm
      generalize s.takeWhile (· ≠ 10) = t at h hs hn
      dsimp only at h
      split at h
      · rename_i hl
        split at h
        · cases h
        · rename_i h13
          obtain ⟨ys, rfl⟩ := List.getLast?_eq_some_iff.1 hl
          simp only [List.dropLast_concat, Bool.true_and, decide_eq_true_eq] at h h13
          cases h
          exact ⟨by rw [hs]; simp, fun hm => hn (by simp [hm]), h13⟩
      · simp at h
  · rintro ⟨rfl, h1, h2⟩
    have hp : ∀ x ∈ l ++ [(13 : Byte)], decide (x ≠ 10) = true := by
      intro x hx
      rcases List.mem_append.1 hx with hx | hx
      · simp only [decide_eq_true_eq]; rintro rfl; exact h1 hx
      · simp at hx; subst hx; rfl
    have e : l ++ 13 :: 10 :: rest = (l ++ [13]) ++ 10 :: rest := by simp
    rw [line, e, List.dropWhile_append_of_pos hp, List.takeWhile_append_of_pos hp]
    simp [List.dropWhile, List.takeWhile, h2]

/-- A client that gets more than it asked for notices. -/
theorem nothing_after (strict : Bool) (l : List (Choices × NetW)) (h : ∀ x ∈ l, Telling x.2 ∧ Sound x.1 x.2) {t : GoStr} (ht : t ≠ []) :
    receiveAll strict (l.map fun x => x.2.isHEAD) (l.flatMap (fun x => wire x.1 x.2) ++ t) = none := by
  induction l with
  | nil => simp [receiveAll, ht]
  | cons a l ih =>
    obtain ⟨h1, h2⟩ := h a (by simp)
    obtain ⟨m, e, hs⟩ := C76_message h1 h2 strict (l.flatMap (fun x => wire x.1 x.2) ++ t)
    rw [List.map_cons, List.flatMap_cons, List.append_assoc, receiveAll, e]
    simp [ih fun x hx => h x (by simp [hx])]

example : line true (lit "a\r\nb") = some (lit "a", lit "b") ∧ line true (lit "a\rb\r\n") = none ∧ line true (lit "a\nb\r\n") = none ∧
    line false (lit "a\nb\r\n") = some (lit "a", lit "b\r\n") ∧ receiveAll true [] (lit "x") = none := by decide +kernel

/-- A length with a sign is taken for a number by the server and by no client. -/
example : ¬ LengthOk [(lit "Content-Length", [lit "+5"])] ∧ declaredLength [(lit "Content-Length", [lit "+5"])] = some 5 :=
  ⟨fun h => absurd (h.1 5 (by decide +kernel) (lit "+5") (by decide +kernel)) (by decide +kernel), by decide +kernel⟩

/-- Two lengths that agree are well; an empty one and two that do not are not. -/
example : LengthOk [(lit "Content-Length", [lit "5", lit " 05 "])] ∧ ¬ LengthOk [(lit "Content-Length", [[]])] ∧
    ¬ LengthOk [(lit "Content-Length", [lit "5", lit "6"])] := by
  refine ⟨⟨fun n hn => ?_, by decide +kernel⟩, fun h => absurd rfl h.2, fun h => absurd (h.1 5 (by decide +kernel) (lit "6") (by decide +kernel)) (by decide +kernel)⟩
  have : declaredLength [(lit "Content-Length", [lit "5", lit " 05 "])] = some 5 := by decide +kernel
  rw [this] at hn
  cases hn
  decide +kernel

/-- A Response over `net/http`, with a `Push` header, and its length counted by the server. -/
example :
    let x := overNet true 100 false false (BodyOps.ofFam MemFam.step true 0) 100 true (fun _ => .ret ())
      (.resp { code := 201, hdrs := [(lit "X", [lit "a\r\nb"]), (lit "Push", [lit "/p"])], body := fromBytes (lit "hello"), err := none })
    receive true false (wire (plain true x.1) x.1 ++ lit "HTTP") =
      some ({ status := 201, fields := [(lit "X", lit "a  b"), (lit "Date", []), (lit "Content-Length", lit "5")], body := lit "hello" }, lit "HTTP") := by
  decide +kernel

end Verif
