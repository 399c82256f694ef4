import Verif.Spec.Conn
import Verif.Proofs.NetInv
import Verif.Proofs.WireShort
import Verif.Props.Wire
import Verif.Props.Failing

/-!
# C77: a client takes no answer for that to another request

The Bodies may do anything: end early, go on too long, fail, panic or hang.
-/

set_option autoImplicit false

namespace Verif
open Spec.Wire Wire WireP
variable {β : Type}

/-- A Response with a final status whose headers leave the transfer to the server. -/
structure Spec.Wire.Sendable (r : Resp β) : Prop where
  final : 200 ≤ r.code
  three : r.code ≤ 999
  once : (r.hdrs.map Prod.fst).Nodup
  free : NoFraming r.hdrs
  length : LengthOk r.hdrs

/-- A handler that returns such a Response, with whatever Body, or panics. -/
def Spec.Wire.Fair : Handled β → Prop
  | .resp r => Sendable r
  | .panic _ => True
  | .hang => False

/-- A finished or aborted response: a final status, headers that leave the transfer to the server, and a body that is not too long. -/
structure Spec.Wire.Bounded (w : NetW) : Prop where
  final : 200 ≤ w.status
  three : w.status ≤ 999
  declared : w.declared = declaredLength w.hdrs
  once : (w.hdrs.map Prod.fst).Nodup
  free : NoFraming w.hdrs
  length : LengthOk w.hdrs
  empty : w.isHEAD = true ∨ w.status = 204 ∨ w.status = 304 → w.body = []
  within : ∀ n, w.declared = some n → w.body.length ≤ n

theorem Spec.Wire.Bounded.telling {w : NetW} (h : Bounded w) (hf : Spec.Framed w) : Telling w :=
  ⟨h.final, h.three, h.declared, h.once, hf, h.free, h.length⟩

/-- Either the response is whole, or it is known to be too short. -/
theorem Spec.Wire.Bounded.cases {w : NetW} (h : Bounded w) : Spec.Framed w ∨
    ¬ (w.isHEAD = true ∨ w.status = 204 ∨ w.status = 304) ∧ ∃ n, w.declared = some n ∧ w.body.length < n := by
  unfold Spec.Framed
  by_cases hA : w.isHEAD = true ∨ w.status = 204 ∨ w.status = 304
  · rw [if_pos hA]; exact .inl (h.empty hA)
  · rw [if_neg hA]
    cases hd : w.declared with
    | none => exact .inl (by simp)
    | some n =>
      by_cases hl : w.body.length < n
      · exact .inr ⟨hA, n, rfl, hl⟩
      · refine .inl fun n' hn' => ?_
        have := h.within n hd
        cases hn'
        omega

theorem fair_bounded (B : BodyOps β) (http1 : Bool) (n : Nat) (raises isHEAD : Bool) (fuel : Nat) (assertErr : Bool)
    (onPanic : PanicArg → Res Unit) {h : Handled β} (hh : Fair h) :
    Bounded (overNet http1 n raises isHEAD B fuel assertErr onPanic h).1 ∧
    (overNet http1 n raises isHEAD B fuel assertErr onPanic h).1.isHEAD = isHEAD ∧
    (reusable (overNet http1 n raises isHEAD B fuel assertErr onPanic h).1 = true →
      Spec.Framed (overNet http1 n raises isHEAD B fuel assertErr onPanic h).1) := by
  cases h with
  | hang => exact hh.elim
  | panic p =>
    rw [overNet_panic]
    refine ⟨⟨by show (200 : Int) ≤ 500; omega, by show (500 : Int) ≤ 999; omega, rfl, List.nodup_nil, fun e he => (by cases he), ⟨?_, ?_⟩, fun _ => rfl, fun n hn => Nat.zero_le _⟩,
      rfl, fun _ => ?_⟩
    · intro n hn v hv; cases hv
    · intro hn; cases hn
    · unfold Spec.Framed
      split
      · rfl
      · intro n hn; cases hn
  | resp r =>
    have hi := overNet_inv B http1 n raises isHEAD fuel assertErr onPanic r (by have := hh.final; omega) hh.three hh.once
    generalize overNet http1 n raises isHEAD B fuel assertErr onPanic (.resp r) = x at hi ⊢
    have hr := hh.final
    have hcl : hdrGet x.1.hdrs (lit "Content-Length") = hdrGet r.hdrs (lit "Content-Length") := by
      rw [hi.headers]; exact hdrGet_filter r.hdrs (by decide +kernel)
    have hdl : declaredLength x.1.hdrs = declaredLength r.hdrs := by rw [hi.headers]; exact declared_filter r.hdrs
    have hb : Bounded x.1 := by
      refine ⟨by rw [hi.status]; exact hr, by rw [hi.status]; exact hh.three, by rw [hi.length, hdl], ?_, ?_, ?_, ?_, ?_⟩
      · rw [hi.headers]
        exact hh.once.sublist ((List.filter_sublist).map _)
      · rw [hi.headers]
        intro e he
        exact hh.free e (List.mem_filter.1 he).1
      · unfold LengthOk
        rw [hcl, hdl]
        exact hh.length
      · rw [hi.head, hi.status]
        rintro (h | h)
        · exact hi.empty (.inl h)
        · refine hi.empty (.inr ?_)
          have := bodyAllowed_iff r.code hr
          cases hb : bodyAllowed r.code with
          | false => rfl
          | true => exact absurd h (this.1 hb)
      · intro n hn
        rw [hi.length] at hn
        exact hi.within n hn
    refine ⟨hb, hi.head, fun hre => ?_⟩
    rcases hb.cases with h | ⟨hA, m, hm, hlt⟩
    · exact h
    · exfalso
      have h1 : x.1.isHEAD = false := by
        cases h : x.1.isHEAD with
        | false => rfl
        | true => exact absurd (.inl h) hA
      have h2 : bodyAllowed x.1.status = true := (bodyAllowed_iff x.1.status hb.final).2 fun h => hA (.inr h)
      have h3 : x.1.declared = some x.1.written := by
        simpa [reusable, h1, h2, hm] using hre
      rw [hm] at h3
      cases h3
      have h4 := hi.counted _ (by rw [← hi.length]; exact hm) (Nat.le_refl _) (by rw [← hi.head]; exact h1) (by rw [← hi.status]; exact h2)
      omega

/-- **C77.** Whatever the Body of a Response does, and if the handler panics: once `ServeHTTP` has returned, the client can make out a message exactly if
the body has the declared length; then it says what the response says, and nothing is left over. -/
theorem C77_whole (B : BodyOps β) (http1 : Bool) (n : Nat) (raises isHEAD : Bool) (fuel : Nat) (assertErr : Bool) (onPanic : PanicArg → Res Unit)
    {h : Handled β} (hh : Fair h) {c : Choices} (hc : Sound c (overNet http1 n raises isHEAD B fuel assertErr onPanic h).1) (strict : Bool) :
    let w := (overNet http1 n raises isHEAD B fuel assertErr onPanic h).1
    ((∃ m rest, receive strict isHEAD (wire c w) = some (m, rest)) ↔ Spec.Framed w) ∧
      ∀ m rest, receive strict isHEAD (wire c w) = some (m, rest) → Says m w ∧ rest = [] := by
  obtain ⟨hb, hd, -⟩ := fair_bounded B http1 n raises isHEAD fuel assertErr onPanic hh
  dsimp only
  generalize (overNet http1 n raises isHEAD B fuel assertErr onPanic h).1 = w at hb hd hc ⊢
  rw [← hd]
  have good : Spec.Framed w → ∃ m, receive strict w.isHEAD (wire c w) = some (m, []) ∧ Says m w := by
    intro hf
    have := C76_message (hb.telling hf) hc strict []
    rwa [List.append_nil] at this
  rcases hb.cases with hf | ⟨hA, k, hk, hlt⟩
  · obtain ⟨m, e, hs⟩ := good hf
    refine ⟨⟨fun _ => hf, fun _ => ⟨m, [], e⟩⟩, fun m' rest h => ?_⟩
    rw [e] at h
    cases h
    exact ⟨hs, rfl⟩
  · have h0 := receive_short strict hb.final hb.three hb.declared hb.once hA hb.free hb.length hc hk hlt (s := wire c w) (t := []) (by simp)
    refine ⟨⟨fun ⟨m, rest, h⟩ => (by rw [h0] at h; cases h), fun hf => ?_⟩, fun m rest h => (by rw [h0] at h; cases h)⟩
    obtain ⟨m, e, -⟩ := good hf
    exact ⟨m, [], e⟩

/-- A request that was answered by the Adaptor, and what was sent for it. -/
def Spec.Wire.Handles (e : Exchange) : Prop :=
  ∃ (β : Type) (B : BodyOps β) (n : Nat) (raises isHEAD : Bool) (fuel : Nat) (assertErr : Bool) (onPanic : PanicArg → Res Unit) (h : Handled β),
    Fair h ∧ e.w = (overNet true n raises isHEAD B fuel assertErr onPanic h).1 ∧ e.out = (overNet true n raises isHEAD B fuel assertErr onPanic h).2.2 ∧
    Sound e.choices e.w

/-- What a client makes out at the start of what is sent. -/
theorem sends_first (strict : Bool) {e : Exchange} (he : Handles e) (l : List Exchange) :
    receive strict e.w.isHEAD (sends (e :: l)) = none ∨
    ∃ m, Says m e.w ∧ Spec.Framed e.w ∧ (receive strict e.w.isHEAD (sends (e :: l)) = some (m, []) ∨
      receive strict e.w.isHEAD (sends (e :: l)) = some (m, sends l)) := by
  obtain ⟨β, B, n, raises, isHEAD, fuel, assertErr, onPanic, h, hh, ew, eo, hc⟩ := he
  obtain ⟨hb, hd, hr⟩ := fair_bounded B true n raises isHEAD fuel assertErr onPanic hh
  rw [← ew] at hb hd hr
  have aborted : ∀ k, receive strict e.w.isHEAD ((wire e.choices e.w).take k) = none ∨
      ∃ m, Says m e.w ∧ Spec.Framed e.w ∧ (receive strict e.w.isHEAD ((wire e.choices e.w).take k) = some (m, []) ∨
        receive strict e.w.isHEAD ((wire e.choices e.w).take k) = some (m, sends l)) := by
    intro k
    rcases hb.cases with hf | ⟨hA, j, hj, hlt⟩
    · by_cases hk : (wire e.choices e.w).drop k = []
      · obtain ⟨m, e1, hs⟩ := C76_message (hb.telling hf) hc strict []
        rw [List.append_nil] at e1
        refine .inr ⟨m, hs, hf, .inl ?_⟩
        have := List.take_append_drop k (wire e.choices e.w)
        rw [hk, List.append_nil] at this
        rw [this]
        exact e1
      · exact .inl (C76_broken (hb.telling hf) hc strict (List.take_append_drop k _).symm hk)
    · exact .inl (receive_short strict hb.final hb.three hb.declared hb.once hA hb.free hb.length hc hj hlt (List.take_append_drop k _).symm)
  rw [sends]
  cases ho : e.out with
  | panic p => exact aborted _
  | hang => exact aborted _
  | ret u =>
    dsimp only
    by_cases hk : (reusable e.w && e.keep) = true
    · rw [if_pos hk]
      have hf := hr (by simp only [Bool.and_eq_true] at hk; exact hk.1)
      obtain ⟨m, e1, hs⟩ := C76_message (hb.telling hf) hc strict (sends l)
      exact .inr ⟨m, hs, hf, .inr e1⟩
    · rw [if_neg hk, List.append_nil]
      have := aborted (wire e.choices e.w).length
      rwa [List.take_length] at this

theorem receive_nil (strict isHEAD : Bool) : receive strict isHEAD [] = none := rfl

theorem answers_nil (strict : Bool) (hs : List Bool) : answers strict hs [] = [] := by
  cases hs with
  | nil => rfl
  | cons h hs => rw [answers, receive_nil]

/-- **C77.** On a connection, whatever the handlers and the Bodies do — if bodies are too short or too long, if there are panics, if the server stops in the
middle — the n-th message that the client makes out is the response to its n-th request, and whole. -/
theorem C77_answers (strict : Bool) (l : List Exchange) (hl : ∀ e ∈ l, Handles e) (more : List Bool) (i : Nat) (m : Message)
    (h : (answers strict (l.map (fun e => e.w.isHEAD) ++ more) (sends l))[i]? = some m) :
    ∃ e, l[i]? = some e ∧ Says m e.w ∧ Spec.Framed e.w := by
  induction l generalizing i with
  | nil =>
    rw [sends, answers_nil] at h
    simp at h
  | cons e l ih =>
    rw [List.map_cons, List.cons_append, answers] at h
    rcases sends_first strict (hl e (by simp)) l with h0 | ⟨m', hs, hf, h0 | h0⟩
    · rw [h0] at h; simp at h
    · rw [h0] at h
      dsimp only at h
      rw [answers_nil] at h
      cases i with
      | zero =>
        simp only [List.getElem?_cons_zero, Option.some.injEq] at h
        subst h
        exact ⟨e, rfl, hs, hf⟩
      | succ i => simp at h
    · rw [h0] at h
      dsimp only at h
      cases i with
      | zero =>
        simp only [List.getElem?_cons_zero, Option.some.injEq] at h
        subst h
        exact ⟨e, rfl, hs, hf⟩
      | succ i =>
        simp only [List.getElem?_cons_succ] at h
        obtain ⟨e', q1, q2⟩ := ih (fun e he => hl e (by simp [he])) i h
        exact ⟨e', by simpa using q1, q2⟩

/-- **C77.** As long as the server answers, so does the client get answers: if each of the first requests is answered by a response that allows to go on, it
gets all of them. -/
theorem C77_all (strict : Bool) (l : List Exchange) (hl : ∀ e ∈ l, Handles e) (hk : ∀ e ∈ l, e.out = .ret () ∧ reusable e.w = true ∧ e.keep = true)
    (more : List Exchange) (heads : List Bool) :
    ∃ ms, ms.length = l.length ∧ (∀ (i : Nat) (m : Message) (e : Exchange), ms[i]? = some m → l[i]? = some e → Says m e.w) ∧
      answers strict (l.map (fun e => e.w.isHEAD) ++ heads) (sends (l ++ more)) = ms ++ answers strict heads (sends more) := by
  induction l with
  | nil => exact ⟨[], rfl, by simp, rfl⟩
  | cons e l ih =>
    obtain ⟨ms, i1, i2, i3⟩ := ih (fun e he => hl e (by simp [he])) (fun e he => hk e (by simp [he]))
    obtain ⟨o1, o2, o3⟩ := hk e (by simp)
    obtain ⟨β, B, n, raises, isHEAD, fuel, assertErr, onPanic, h, hh, ew, eo, hc⟩ := hl e (by simp)
    obtain ⟨hb, hd, hr⟩ := fair_bounded B true n raises isHEAD fuel assertErr onPanic hh
    rw [← ew] at hb hd hr
    obtain ⟨m, e1, hs⟩ := C76_message (hb.telling (hr o2)) hc strict (sends (l ++ more))
    have e2 : sends (e :: (l ++ more)) = wire e.choices e.w ++ sends (l ++ more) := by
      rw [sends, o1]
      dsimp only
      rw [if_pos (by rw [o2, o3]; rfl)]
    refine ⟨m :: ms, by simp [i1], ?_, ?_⟩
    · intro i m' e' hm he
      cases i with
      | zero =>
        simp only [List.getElem?_cons_zero, Option.some.injEq] at hm he
        subst hm he
        exact hs
      | succ i =>
        simp only [List.getElem?_cons_succ] at hm he
        exact i2 i m' e' hm he
    · rw [List.map_cons, List.cons_append, List.cons_append, answers, e2, e1]
      dsimp only
      rw [i3]
      rfl

/-- **C77.** A Response whose Body delivers `C`, with room for it, allows to go on. -/
theorem C77_goes_on {C : List Byte} {K : Nat} (hK : 32768 ≤ K) {B : BodyOps β} {P : β → List Byte → Prop} (hB : Spec.Lively B P K) (hQ : Spec.Quits B P)
    (http1 : Bool) (n : Nat) (hn : C.length < n) (raises isHEAD : Bool) (fuel : Nat) (hf : C.length < fuel) (assertErr : Bool)
    (onPanic : PanicArg → Res Unit) (r : Resp β) (hP : P r.body C) (h1 : 200 ≤ r.code) (h2 : r.code ≤ 999) (hnd : (r.hdrs.map Prod.fst).Nodup)
    (hroom : Spec.HasRoom isHEAD r.code (declaredLength r.hdrs) C) :
    (overNet http1 n raises isHEAD B fuel assertErr onPanic (.resp r)).2.2 = .ret () ∧
      reusable (overNet http1 n raises isHEAD B fuel assertErr onPanic (.resp r)).1 = true := by
  have hi := (C64_iff hK hB hQ http1 n hn raises isHEAD fuel hf assertErr onPanic r hP h1 h2 hnd).2 hroom
  obtain ⟨a1, a2, a3, -, a5, -⟩ := request_core hK hB hQ http1 n hn raises isHEAD fuel hf assertErr onPanic r hP h1 h2 hnd
  refine ⟨hi.returned, ?_⟩
  generalize overNet http1 n raises isHEAD B fuel assertErr onPanic (.resp r) = x at hi a1 a2 a3 a5 ⊢
  unfold reusable
  by_cases hA : isHEAD = true ∨ r.code = 204 ∨ r.code = 304
  · rcases hA with h | h
    · rw [a1, h]; rfl
    · have : bodyAllowed x.1.status = false := by
        have := bodyAllowed_iff x.1.status (by omega)
        cases hb : bodyAllowed x.1.status with
        | false => rfl
        | true => exact absurd (by omega) (this.1 hb)
      rw [this]
      simp
  · have hf' := hi.framed
    unfold Spec.Framed at hf'
    rw [if_neg (by rw [a1, a2]; exact hA)] at hf'
    have hle : C.length ≤ Spec.room r.code (declaredLength r.hdrs) C := by
      unfold Spec.room
      rw [if_neg fun h => hA (.inr h)]
      rcases hroom with h | h | h | h
      · exact absurd (.inl h) hA
      · exact absurd (.inr (.inl h)) hA
      · exact absurd (.inr (.inr h.1)) hA
      · cases hd : declaredLength r.hdrs with
        | none => simp
        | some k => simp [h.2 k hd]
    have hw := (a5 (.inr (.inr hle))).2.2.2
    cases hd : x.1.declared with
    | none => simp
    | some k =>
      have := hf' k hd
      rw [hw, this]
      simp

/-- **C77.** Every Response made by a Builder that has no header of these names — in whatever spelling —, with whatever Body it is then served, is of this kind. -/
theorem C77_built {X : Type} {E : BEnv X} (hE : NoShared E) {s : BState X} (hs : Reached E s) {h : Nat} {b : Bld} (hb : s.blds[h]? = some b)
    {i : Nat} (hi : b.body = some i)
    (hfree : ∀ k v, s.heap.lookup b.hdrs k = some v → Spec.lower k ≠ lit "content-length" ∧ Spec.lower k ≠ lit "transfer-encoding")
    (hrem : E.store.remaining s.bodies i < 2 ^ 63) :
    ∃ s' r, s.step E (.build h) = (s', .made s.rsps.length) ∧ s'.rsps[s.rsps.length]? = some r ∧
      ∀ (hdrs : List (GoStr × List GoStr)) (x : β) (err : Option Err), Spec.Lists hdrs (s'.heap.lookup r.hdrs) → (hdrs.map Prod.fst).Nodup →
        Fair (.resp { code := r.code, hdrs, body := x, err }) := by
  obtain ⟨H', r, h1, -, -, -, hnew⟩ := build_step hE hs hb hi
  have h2 : ({ s with heap := H', blds := s.blds.set h { gen := b.gen }, rsps := s.rsps ++ [r] } : BState X).rsps[s.rsps.length]? = some r := by simp
  have hrange : 200 ≤ r.code ∧ r.code ≤ 999 := by
    obtain ⟨Y, ops, hl, e⟩ := hs.step (op := .build h) trivial
    rw [h1] at e
    exact C26_range E Y ops (by rw [← e]; exact h2)
  refine ⟨_, r, h1, h2, fun hdrs x err hlist hnd => ?_⟩
  dsimp only at hlist ⊢
  have hcl0 : s.heap.lookup b.hdrs (lit "Content-Length") = none := by
    cases hx : s.heap.lookup b.hdrs (lit "Content-Length") with
    | none => rfl
    | some v => exact absurd (by decide) (hfree _ v hx).1
  rw [hnew] at hlist
  have hne : lit "Content-Length" ≠ lit "Content-Type" := by decide +kernel
  refine ⟨hrange.1, hrange.2, hnd, ?_, ?_⟩
  · rintro ⟨k, v⟩ he hv
    have := (hlist k v).1 he
    dsimp only
    by_cases k1 : k = lit "Content-Type"
    · subst k1; decide +kernel
    by_cases k2 : k = lit "Content-Length"
    · subst k2; decide +kernel
    simp only [Spec.Hdrs.filled, k1, k2, false_and, if_false] at this
    have hx := hfree k v (by cases hq : s.heap.lookup b.hdrs k <;> simp_all)
    exact ⟨hx.2, fun h => absurd h hx.1⟩
  · show LengthOk hdrs
    by_cases h0 : 0 ≤ E.store.remaining s.bodies i
    · obtain ⟨k, hk⟩ : ∃ k : Nat, E.store.remaining s.bodies i = k := ⟨(E.store.remaining s.bodies i).toNat, by omega⟩
      have hcl : hdrGet hdrs (lit "Content-Length") = [itoa k] := by
        refine hdrGet_lists hlist ?_
        simp [Spec.Hdrs.filled, hcl0, hne, hk]
      have hdl : declaredLength hdrs = some k := by
        unfold declaredLength
        rw [hcl]
        exact parseLength_decimal _ _ (decimal_itoa _) (by omega)
      unfold LengthOk
      rw [hdl, hcl]
      refine ⟨?_, ?_⟩
      · intro n hn v hv
        cases hn
        rw [List.mem_singleton.1 hv, cleaned_itoa]
        exact (itoa_read _).1
      · simp only [List.head?_cons, ne_eq, Option.some.injEq]
        intro h
        have := (itoa_read k).1
        rw [h] at this
        cases this
    · have hcl : hdrGet hdrs (lit "Content-Length") = [] := by
        refine hdrGet_none ?_
        rintro ⟨k, v⟩ he rfl
        have := (hlist _ v).1 he
        simp [Spec.Hdrs.filled, hcl0, hne, h0] at this
      have hdl : declaredLength hdrs = none := by
        unfold declaredLength
        rw [hcl]
      exact lengthOk_none hdl (by rw [hcl]; simp)

/-- **C77.** The reading of C66 and C74 is the right one: if `ServeHTTP` returns, the client takes the response for whole exactly if it seems whole. -/
theorem C77_seems (B : BodyOps β) (n : Nat) (raises isHEAD : Bool) (fuel : Nat) (assertErr : Bool) (onPanic : PanicArg → Res Unit)
    {h : Handled β} (hh : Fair h) {c : Choices} (hc : Sound c (overNet true n raises isHEAD B fuel assertErr onPanic h).1) (strict keep : Bool) (cut : Nat)
    (hr : (overNet true n raises isHEAD B fuel assertErr onPanic h).2.2 = .ret ()) :
    let x := overNet true n raises isHEAD B fuel assertErr onPanic h
    answers strict [isHEAD] (sends [{ w := x.1, out := x.2.2, choices := c, keep, cut }]) ≠ [] ↔ Spec.SeemsWhole x := by
  obtain ⟨h1, -⟩ := C77_whole B true n raises isHEAD fuel assertErr onPanic hh hc strict
  dsimp only at h1 ⊢
  unfold Spec.SeemsWhole
  rw [sends, hr]
  simp only [sends, ite_self, List.append_nil, and_true, ← h1, answers]
  cases hq : receive strict isHEAD (wire c (overNet true n raises isHEAD B fuel assertErr onPanic h).1) with
  | none => simp
  | some y => obtain ⟨m, rest⟩ := y; simp

/-! ## What it looks like -/

/-- A Body of three bytes that was taken for one of five. -/
def shortResp : Resp Script := { code := 200, hdrs := [(lit "Content-Length", [lit "5"])], body := [.ret (lit "abc", none)] }

/-- A GET request answered with that. -/
def shortX : NetW × List MEv × Res Unit := overNet true 10 false false scriptOps 10 false (fun _ => .ret ()) (.resp shortResp)

def shortE : Exchange := { w := shortX.1, out := shortX.2.2, choices := plain true shortX.1, keep := true, cut := 0 }

theorem shortResp_fair : Fair (.resp shortResp) := by
  refine ⟨by decide, by decide, by decide, ?_, ⟨fun n hn => ?_, by decide +kernel⟩⟩
  · unfold NoFraming; decide +kernel
  · have : declaredLength shortResp.hdrs = some 5 := by decide +kernel
    rw [this] at hn
    cases hn
    decide +kernel

/-- **C77.** `ServeHTTP` sees nothing wrong with it and returns.  The server closes the connection, and the client gets no answer.  If the server went on, the
client would take the start of the next response for the end of this one. -/
theorem C77_short : Handles shortE ∧ shortX.2 = ((shortX.2.1, .ret ()) : List MEv × Res Unit) ∧ Spec.panicsCounted shortX.2.1 = 0 ∧
    reusable shortE.w = false ∧ answers true [false, false] (sends [shortE, shortE]) = [] ∧
    (answers true [false, false] (wire shortE.choices shortE.w ++ wire shortE.choices shortE.w)).map Message.body = [lit "abcHT"] :=
  ⟨⟨Script, scriptOps, 10, false, false, 10, false, fun _ => .ret (), .resp shortResp, shortResp_fair, rfl, rfl, plain_sound _ _⟩, by decide +kernel,
    by decide +kernel, by decide +kernel, by decide +kernel, by decide +kernel⟩

/-- A handler that panics, a HEAD request, a Body that fails after two of five bytes, and a request that is not answered any more. -/
example :
    let ok : Resp Script := { code := 404, hdrs := [(lit "Content-Length", [lit "3"])], body := [.ret (lit "abc", none)] }
    let bad : Resp Script := { code := 200, hdrs := [(lit "Content-Length", [lit "5"])], body := [.ret (lit "ab", none), .ret ([], some (.ext 7))] }
    let e (isHEAD : Bool) (h : Handled Script) : Exchange :=
      let x := overNet true 10 false isHEAD scriptOps 10 false (fun a => .panic (.value 1)) h
      { w := x.1, out := x.2.2, choices := plain false x.1, keep := true, cut := 1000 }
    let f (isHEAD : Bool) (h : Handled Script) : Exchange :=
      let x := overNet true 10 false isHEAD scriptOps 10 false (fun a => .ret ()) h
      { w := x.1, out := x.2.2, choices := plain false x.1, keep := true, cut := 1000 }
    (answers true [false, true, false, false] (sends [f false (.panic (.value 3)), e true (.resp ok), e false (.resp bad), e false (.resp ok)])).map
      (fun m => (m.status, m.body)) = [(500, []), (404, [])] ∧
    (answers true [true, false, false] (sends [f true (.resp ok), e false (.resp ok), f true (.panic (.value 3))])).map
      (fun m => (m.status, m.body)) = [(404, []), (404, lit "abc"), (500, [])] := by
  decide +kernel

end Verif
