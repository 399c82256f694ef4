import Verif.Spec.Pool
import Verif.Proofs.SliceJson
import Verif.Props.Memory

/-!
# The buffer pool, and who owns the bytes of a Body made from JSON (C61)

Any number of calls of `FromJSON` and `FromPrettyJSON` overlap, with each other and with other users of the pool.
-/

set_option autoImplicit false

namespace Verif

open Spec

theorem LegalRun_append {X : JSys} {evs evs' : List JEv} : X.LegalRun (evs ++ evs') ↔ X.LegalRun evs ∧ (X.run evs).LegalRun evs' := by
  induction evs generalizing X with
  | nil => simp [JSys.LegalRun, JSys.run]
  | cons ev evs ih =>
    show X.Legal ev ∧ (X.step ev).LegalRun (evs ++ evs') ↔ (X.Legal ev ∧ (X.step ev).LegalRun evs) ∧ ((X.step ev).run evs).LegalRun evs'
    rw [ih, and_assoc]

theorem jrun_append (X : JSys) (evs evs' : List JEv) : X.run (evs ++ evs') = (X.run evs).run evs' := by simp [JSys.run]

/-- What an event does to a call. -/
theorem step_call {X : JSys} {i : Nat} {c : JCall} (hc : X.calls[i]? = some c) (ev : JEv) :
    (X.step ev).calls[i]? = some (match ev with
      | .step j extra => if j = i then { c with st := (c.advance X.mem extra).2.1 } else c
      | _ => c) := by
  have hil : i < X.calls.length := by
    rcases Nat.lt_or_ge i X.calls.length with h' | h'
    · exact h'
    · rw [List.getElem?_eq_none h'] at hc; cases hc
  cases ev with
  | call enc isPretty pick => simp only [JSys.step]; rw [List.getElem?_append_left hil]; exact hc
  | step j extra =>
    simp only [JSys.step]
    by_cases hj : j = i
    · subst hj
      rw [hc]
      simp [hil]
    · cases hj' : X.calls[j]? with
      | none => simp [hj, hc]
      | some d => simp [hj, List.getElem?_set_ne hj, hc]
  | take j => exact hc
  | give s => exact hc
  | write s d => exact hc
  | alloc d => exact hc

theorem step_ended {X : JSys} {i : Nat} {c : JCall} (hc : X.calls[i]? = some c) (he : c.st.Ended) (ev : JEv) : (X.step ev).calls[i]? = some c := by
  rw [step_call hc]
  cases ev <;> try rfl
  simp only
  split
  · cases c with
    | mk enc isPretty st => cases st <;> simp [JSt.Ended] at he <;> rfl
  · rfl

theorem run_ended {X : JSys} {i : Nat} {c : JCall} (hc : X.calls[i]? = some c) (he : c.st.Ended) (evs : List JEv) : (X.run evs).calls[i]? = some c := by
  induction evs generalizing X with
  | nil => exact hc
  | cons ev evs ih => exact ih (step_ended hc he ev)

/-- **C61.**  The calls are those that were asked for. -/
theorem C61_calls (m : BMem) (evs : List JEv) :
    (JSys.run { mem := m } evs).calls.map (fun c => (c.enc, c.isPretty)) = JEv.asked evs := by
  have key : ∀ (evs : List JEv) (X : JSys),
      (X.run evs).calls.map (fun c => (c.enc, c.isPretty)) = X.calls.map (fun c => (c.enc, c.isPretty)) ++ JEv.asked evs := by
    intro evs
    induction evs with
    | nil => intro X; simp [JSys.run, JEv.asked]
    | cons ev evs ih =>
      intro X
      show ((X.step ev).run evs).calls.map _ = _
      rw [ih]
      cases ev with
      | call enc isPretty pick => simp [JSys.step, JEv.asked]
      | step i extra =>
        simp only [JSys.step, JEv.asked, List.filterMap_cons_none]
        congr 1
        cases hc : X.calls[i]? with
        | none => rfl
        | some c =>
          simp only [List.map_set]
          exact set_self (by simp [hc])
      | take j => rfl
      | give s => rfl
      | write s d => rfl
      | alloc d => rfl
  simpa using key evs { mem := m }

/-- **C61.**  Once a call has made a Body, and whatever happens then in the pool and elsewhere, the content of the Body is the encoding of the value of that
call, with CRLF line ends (and, for `FromJSON`, nothing: see C24).  The memory of the Body was allocated in the right size. -/
theorem C61_content (m : BMem) (evs evs' : List JEv) (hl : JSys.LegalRun { mem := m } (evs ++ evs')) (i : Nat) (c : JCall) (data : BSlice)
    (hc : (JSys.run { mem := m } evs).calls[i]? = some c) (hst : c.st = .done data) :
    (JSys.run { mem := m } (evs ++ evs')).calls[i]? = some c ∧
    ∃ src, c.enc = .ok (.ok src) ∧ (JSys.run { mem := m } (evs ++ evs')).mem.bytes data = (if c.isPretty then crlf src else []) ∧ data.cap = data.len := by
  have h := Inv_run (Inv_init m) (evs ++ evs') hl
  have hc' : (JSys.run { mem := m } (evs ++ evs')).calls[i]? = some c := by
    rw [jrun_append]
    exact run_ended hc (by rw [hst]; trivial) evs'
  refine ⟨hc', ?_⟩
  have hok := h.ok i c hc'
  unfold JCall.Ok at hok
  rw [hst] at hok
  obtain ⟨src, e1, e2, e3⟩ := hok
  refine ⟨src, e1, e2, ?_⟩
  have hv := h.valid (.dst i) data (by rw [(at_calls hc').2, hst]; rfl)
  have := BMem.length_bytes _ _ hv
  rw [e2] at this
  omega

/-- **C61.**  A call panics only with the error of the encoder, or with what the encoder panicked with. -/
theorem C61_panics (m : BMem) (evs : List JEv) (hl : JSys.LegalRun { mem := m } evs) (i : Nat) (c : JCall) (p : Panic)
    (hc : (JSys.run { mem := m } evs).calls[i]? = some c) (hst : c.st = .panicked p) : c.enc = .panics p ∨ ∃ e, c.enc = .ok (.error e) ∧ p = .error e := by
  have hok := (Inv_run (Inv_init m) evs hl).ok i c hc
  unfold JCall.Ok at hok
  rw [hst] at hok
  exact hok

/-- **C61.**  The memory of a Body that was made is in no buffer, whether in the pool or held by a call, and in no other Body. -/
theorem C61_own (m : BMem) (evs : List JEv) (hl : JSys.LegalRun { mem := m } evs) (i : Nat) (c : JCall) (data : BSlice)
    (hc : (JSys.run { mem := m } evs).calls[i]? = some c) (hst : c.st = .done data) (p : Place) (hp : p ≠ .dst i) (t : BSlice)
    (ht : (JSys.run { mem := m } evs).at p = some t) (a : Nat) (ha : data.Has a) : ¬ t.Has a :=
  (Inv_run (Inv_init m) evs hl).excl (.dst i) p data t a (Ne.symm hp) (by rw [(at_calls hc).2, hst]; rfl) ht ha

/-- **C61.**  No two users have the same buffer: places of the pool and running calls. -/
theorem C61_exclusive (m : BMem) (evs : List JEv) (hl : JSys.LegalRun { mem := m } evs) (p q : Place) (hne : p ≠ q) (t u : BSlice)
    (hp : (JSys.run { mem := m } evs).at p = some t) (hq : (JSys.run { mem := m } evs).at q = some u) (a : Nat) (ha : t.Has a) : ¬ u.Has a :=
  (Inv_run (Inv_init m) evs hl).excl p q t u a hne hp hq ha

/-- **C61.**  When a call ends, and be it with a panic, it puts back the buffer that it held; at no other time does it put anything. -/
theorem C61_put (X : JSys) (i extra : Nat) (c : JCall) (hc : X.calls[i]? = some c) :
    ∃ c', (X.step (.step i extra)).calls[i]? = some c' ∧
      ((¬ c.st.Ended ∧ c'.st.Ended ∧ ∃ buf, c.st.held = some buf ∧ (X.step (.step i extra)).free = X.free ++ [some buf]) ∨
       ((c.st.Ended ↔ c'.st.Ended) ∧ (X.step (.step i extra)).free = X.free)) := by
  refine ⟨_, step_call hc _, ?_⟩
  simp only [if_true, JSys.step, hc]
  cases c with
  | mk enc isPretty st =>
    cases st with
    | got buf =>
      cases enc with
      | panics p => left; exact ⟨id, trivial, buf, rfl, rfl⟩
      | ok x =>
        cases x with
        | error e => left; exact ⟨id, trivial, buf, rfl, rfl⟩
        | ok src => right; exact ⟨Iff.rfl, rfl⟩
    | encoded buf =>
      cases isPretty with
      | true => right; exact ⟨Iff.rfl, rfl⟩
      | false => left; exact ⟨id, trivial, buf, rfl, rfl⟩
    | conv buf pos dst =>
      simp only [JCall.advance]
      cases hch : (X.mem.bytes buf)[pos]? with
      | some ch => right; exact ⟨Iff.rfl, rfl⟩
      | none => left; exact ⟨id, trivial, buf, rfl, rfl⟩
    | done data => right; exact ⟨Iff.rfl, rfl⟩
    | panicked p => right; exact ⟨Iff.rfl, rfl⟩

theorem countP_set {α : Type} (f : α → Bool) : ∀ (l : List α) (i : Nat) (a b : α), l[i]? = some a →
    (l.set i b).countP f + (if f a then 1 else 0) = l.countP f + (if f b then 1 else 0)
  | [], _, _, _, h => by simp at h
  | x :: l, 0, a, b, h => by
    simp only [List.getElem?_cons_zero, Option.some.injEq] at h
    subst h
    simp only [List.set_cons_zero, List.countP_cons]
    omega
  | x :: l, i + 1, a, b, h => by
    have ih := countP_set f l i a b (by simpa using h)
    simp only [List.set_cons_succ, List.countP_cons]
    omega

theorem countP_getBuffer (X : JSys) (pick : Nat) :
    (getBuffer X.free pick).1.countP (fun o => o.isSome) + (if (X.at (.free pick)).isSome then 1 else 0) = X.free.countP (fun o => o.isSome) := by
  cases hf : X.free[pick]? with
  | none =>
    rw [show X.at (.free pick) = none by simp [JSys.at, hf], show getBuffer X.free pick = (X.free, .nil) by simp [getBuffer, hf]]
    simp
  | some o =>
    rw [show X.at (.free pick) = o by simp [JSys.at, hf]]
    cases o with
    | none =>
      rw [show getBuffer X.free pick = (X.free, .nil) by simp [getBuffer, hf]]
      simp
    | some s =>
      rw [show getBuffer X.free pick = (X.free.set pick none, { s with len := 0 }) by simp [getBuffer, hf]]
      have := countP_set (fun o => o.isSome) X.free pick (some s) none hf
      simpa using this

/-- **C61.**  The pool loses no buffer and invents none: calls take buffers from it or make new ones if it has none for them, and put back all of them. -/
theorem C61_pool (X : JSys) (evs : List JEv) : ((X.run evs).buffers : Int) = X.buffers + X.addsAll evs := by
  induction evs generalizing X with
  | nil => simp [JSys.run, JSys.addsAll]
  | cons ev evs ih =>
    show (((X.step ev).run evs).buffers : Int) = _
    rw [ih]
    suffices h : ((X.step ev).buffers : Int) = X.buffers + X.adds ev by
      simp only [JSys.addsAll]; omega
    cases ev with
    | call enc isPretty pick =>
      have hg := countP_getBuffer X pick
      simp only [JSys.step, JSys.buffers, JSys.adds, List.countP_append, List.countP_singleton]
      cases hb : (X.at (.free pick)).isSome <;> rw [hb] at hg <;> simp [JSt.held] at hg ⊢ <;> omega
    | step i extra =>
      simp only [JSys.adds]
      cases hc : X.calls[i]? with
      | none => simp [JSys.step, hc]
      | some c =>
        have k := countP_set (fun c : JCall => c.st.held.isSome) X.calls i c { c with st := (c.advance X.mem extra).2.1 } hc
        obtain ⟨c', h1, h2⟩ := C61_put X i extra c hc
        rw [step_call hc] at h1
        simp only [if_true, Option.some.injEq] at h1
        have he : ∀ st : JSt, st.held.isSome = true ↔ ¬ st.Ended := by intro st; cases st <;> simp [JSt.held, JSt.Ended]
        have hcalls : (X.step (.step i extra)).calls = X.calls.set i { c with st := (c.advance X.mem extra).2.1 } := by simp [JSys.step, hc]
        unfold JSys.buffers
        rw [hcalls]
        rw [h1] at k ⊢
        rcases h2 with ⟨a1, a2, buf, _, a3⟩ | ⟨a1, a2⟩
        · rw [a3]
          have e1 := (he c.st).2 a1
          have e2 : c'.st.held.isSome = false := by
            cases h : c'.st.held.isSome with
            | false => rfl
            | true => exact absurd a2 ((he _).1 h)
          rw [e1, e2] at k
          simp only [List.countP_append, List.countP_singleton]
          simp at k ⊢
          omega
        · rw [a2]
          have e : c'.st.held.isSome = c.st.held.isSome := by
            rw [Bool.eq_iff_iff, he, he, a1]
          rw [e] at k
          omega
    | take j =>
      simp only [JSys.step, JSys.buffers, JSys.adds]
      cases hf : X.free[j]? with
      | none =>
        rw [show X.at (.free j) = none by simp [JSys.at, hf]]
        have : X.free.set j none = X.free := List.set_eq_of_length_le (by simpa using hf)
        rw [this]; simp
      | some o =>
        rw [show X.at (.free j) = o by simp [JSys.at, hf]]
        have := countP_set (fun o => o.isSome) X.free j o none hf
        cases o <;> simp at this ⊢ <;> omega
    | give s => simp only [JSys.step, JSys.buffers, JSys.adds, putBuffer, List.countP_append, List.countP_singleton]; simp; omega
    | write s d => simp [JSys.step, JSys.buffers, JSys.adds]
    | alloc d => simp [JSys.step, JSys.buffers, JSys.adds]

theorem todo_ended (c : JCall) : c.todo = 0 ↔ c.st.Ended := by
  cases c with
  | mk enc isPretty st =>
    cases st with
    | got buf =>
      cases enc with
      | panics p => simp [JCall.todo, JSt.Ended]
      | ok x => cases x <;> cases isPretty <;> simp [JCall.todo, JSt.Ended]
    | encoded buf => cases isPretty <;> simp [JCall.todo, JSt.Ended]
    | conv buf pos dst => simp [JCall.todo, JSt.Ended]
    | done data => simp [JCall.todo, JSt.Ended]
    | panicked p => simp [JCall.todo, JSt.Ended]

theorem todo_advance {m : BMem} {c : JCall} (hok : c.Ok m) (extra : Nat) : ({ c with st := (c.advance m extra).2.1 } : JCall).todo = c.todo - 1 := by
  cases c with
  | mk enc isPretty st =>
    cases st with
    | got buf =>
      cases enc with
      | panics p => rfl
      | ok x => cases x <;> cases isPretty <;> rfl
    | encoded buf =>
      obtain ⟨src, e, _⟩ := hok
      simp only at e
      subst e
      cases isPretty <;> simp [JCall.todo, JCall.advance]
    | conv buf pos dst =>
      obtain ⟨_, src, e, hb, hpos, _⟩ := hok
      simp only at e
      subst e
      simp only [JCall.advance, hb]
      cases hch : src[pos]? with
      | some ch =>
        have : pos < src.length := by
          rcases Nat.lt_or_ge pos src.length with h' | h'
          · exact h'
          · rw [List.getElem?_eq_none h'] at hch; cases hch
        simp [JCall.todo]
        omega
      | none =>
        have := List.getElem?_eq_none_iff.1 hch
        simp [JCall.todo]
        omega
    | done data => rfl
    | panicked p => rfl

/-- **C61.**  A call ends: it makes as many steps as it has to, whatever happens between them. -/
theorem C61_ends (m : BMem) (evs evs' : List JEv) (hl : JSys.LegalRun { mem := m } (evs ++ evs')) (i : Nat) (c : JCall)
    (hc : (JSys.run { mem := m } evs).calls[i]? = some c) :
    ∃ c', (JSys.run { mem := m } (evs ++ evs')).calls[i]? = some c' ∧ (c'.st.Ended ↔ c.todo ≤ JEv.stepsOf i evs') := by
  obtain ⟨hl1, hl2⟩ := LegalRun_append.1 hl
  have h := Inv_run (Inv_init m) evs hl1
  rw [jrun_append]
  generalize JSys.run { mem := m } evs = X at *
  suffices H : ∃ c', (X.run evs').calls[i]? = some c' ∧ c'.todo = c.todo - JEv.stepsOf i evs' by
    obtain ⟨c', h1, h2⟩ := H
    exact ⟨c', h1, by rw [← todo_ended, h2]; omega⟩
  clear hl hl1
  induction evs' generalizing X c with
  | nil => exact ⟨c, hc, rfl⟩
  | cons ev evs' ih =>
    have hs := step_call hc ev
    obtain ⟨c', h1, h2⟩ := ih _ _ hs hl2.2 (Inv_step h ev hl2.1)
    refine ⟨c', h1, ?_⟩
    rw [h2]
    cases ev with
    | step j extra =>
      by_cases hj : j = i
      · subst hj
        simp only [if_true, JEv.stepsOf, List.countP_cons, decide_true]
        rw [todo_advance (h.ok _ c hc)]
        omega
      · simp [hj, JEv.stepsOf]
    | _ => simp [JEv.stepsOf]

/-- **C61.**  The calls do what they do in the model without a pool, where slices are lists. -/
theorem C61_as_lists (m : BMem) (evs : List JEv) (hl : JSys.LegalRun { mem := m } evs) (i : Nat) (c : JCall)
    (hc : (JSys.run { mem := m } evs).calls[i]? = some c) (x : Except Err (List Byte)) (he : c.enc = .ok x) (hst : c.st.Ended) :
    fromJSONImpl (fun _ => x) c.isPretty =
      match c.st with
      | .done data => .ret (fromBytes ((JSys.run { mem := m } evs).mem.bytes data))
      | .panicked p => .panic p
      | _ => .hang := by
  have hok := (Inv_run (Inv_init m) evs hl).ok i c hc
  unfold JCall.Ok at hok
  cases hs : c.st with
  | done data =>
    rw [hs] at hok
    obtain ⟨src, e1, e2, _⟩ := hok
    rw [he] at e1
    cases e1
    simp only
    rw [e2]
    cases hp : c.isPretty with
    | true => simp only [fromJSONImpl, if_true]; rw [crlf_foldl]; rfl
    | false => simp [fromJSONImpl, goCopy]
  | panicked p =>
    rw [hs] at hok
    rw [he] at hok
    rcases hok with h1 | ⟨e, h1, h2⟩
    · cases h1
    · cases h1; rw [h2]; rfl
  | got buf => rw [hs] at hst; exact absurd hst id
  | encoded buf => rw [hs] at hst; exact absurd hst id
  | conv buf pos dst => rw [hs] at hst; exact absurd hst id

theorem mem_moments {X : JSys} (h : X.Inv) {i : Nat} {c : JCall} {data : BSlice} (hc : X.calls[i]? = some c) (hst : c.st = .done data)
    (l : List (List JEv × Op × BSlice)) (hl : X.LegalRun (JEv.between l)) (x : MCall) (hx : x ∈ X.moments l) :
    data.Valid x.mem ∧ ∃ src, c.enc = .ok (.ok src) ∧ x.mem.bytes data = (if c.isPretty then crlf src else []) := by
  induction l generalizing X with
  | nil => simp [JSys.moments] at hx
  | cons y l ih =>
    obtain ⟨evs, op, p⟩ := y
    have hl' : X.LegalRun (evs ++ JEv.between l) := hl
    obtain ⟨l1, l2⟩ := LegalRun_append.1 hl'
    have h' := Inv_run h evs l1
    have hc' := run_ended hc (by rw [hst]; trivial) evs
    simp only [JSys.moments, List.mem_cons] at hx
    rcases hx with hx | hx
    · subst hx
      have hok := h'.ok i c hc'
      unfold JCall.Ok at hok
      rw [hst] at hok
      obtain ⟨src, e1, e2, _⟩ := hok
      exact ⟨h'.valid (.dst i) data (by rw [(at_calls hc').2, hst]; rfl), src, e1, e2⟩
    · exact ih h' hc' l2 hx

/-- **C61.**  A Body made by `FromPrettyJSON`, and its copies, behave, in any history, like a Body over the bytes of the encoding: nothing that other users
of the pool do, or other calls, comes through. -/
theorem C61_body (m : BMem) (evs : List JEv) (i : Nat) (c : JCall) (data : BSlice) (src : List Byte)
    (hc : (JSys.run { mem := m } evs).calls[i]? = some c) (hst : c.st = .done data) (he : c.enc = .ok (.ok src)) (hp : c.isPretty = true)
    (l : List (List JEv × Op × BSlice)) (hl : JSys.LegalRun { mem := m } (evs ++ JEv.between l))
    (hx : ∀ x ∈ (JSys.run { mem := m } evs).moments l, x.Ok) :
    ((run SBytesBody.next (SBytesBody.init data) ((JSys.run { mem := m } evs).moments l)).2.zip ((JSys.run { mem := m } evs).moments l)).map
        (fun o => o.1.2.seen o.1.1 o.2.p) =
      (run BytesBody.step [{ data := crlf src }] (l.map (·.2.1))).2 := by
  obtain ⟨hl1, hl2⟩ := LegalRun_append.1 hl
  have h := Inv_run (Inv_init m) evs hl1
  have ho : ∀ (l : List (List JEv × Op × BSlice)) (X : JSys), (X.moments l).map MCall.op = l.map (·.2.1) := by
    intro l
    induction l with
    | nil => intro X; rfl
    | cons y l ih => intro X; simp only [JSys.moments, List.map_cons, ih]
  rw [C54_as_lists data (crlf src) _ ?_, ho]
  intro x hxm
  obtain ⟨k1, src', k2, k3⟩ := mem_moments h hc hst l hl2 x hxm
  rw [he] at k2
  cases k2
  rw [hp] at k3
  exact ⟨hx x hxm, k1, k3⟩

/-! ## Example

Call 0 makes a Body from `"a\n"`, while the encoder of call 1 panics.  The buffer of call 0 goes back to the pool, somebody scribbles on it, call 2 gets it and
makes a Body from `"bc\n"`. -/

def poolEvs : List JEv :=
  [.call (.ok (.ok (lit "a\n"))) true 0, .call (.panics .nilDeref) true 0, .step 0 6, .step 1 0, .step 0 0, .step 0 0, .step 0 0, .step 0 0,
    .write ⟨0, 0, 8, 8⟩ (lit "xxxxxxxx"), .call (.ok (.ok (lit "bc\n"))) true 1, .step 2 0, .step 2 0, .step 2 0, .step 2 0, .step 2 0, .step 2 0]

example : (JSys.run { mem := [] } poolEvs).calls.map (·.st) = [.done ⟨1, 0, 3, 3⟩, .panicked .nilDeref, .done ⟨2, 0, 4, 4⟩] ∧
    (JSys.run { mem := [] } poolEvs).mem.bytes ⟨1, 0, 3, 3⟩ = lit "a\r\n" ∧ (JSys.run { mem := [] } poolEvs).mem.bytes ⟨2, 0, 4, 4⟩ = lit "bc\r\n" ∧
    (JSys.run { mem := [] } poolEvs).free = [some .nil, none, some ⟨0, 0, 3, 8⟩] ∧ (JSys.run { mem := [] } poolEvs).buffers = 2 := by decide +kernel

example : JSys.LegalRun { mem := [] } poolEvs := by
  refine ⟨trivial, trivial, trivial, trivial, trivial, trivial, trivial, trivial, ⟨by decide, by decide +kernel, ?_⟩, trivial, trivial, trivial, trivial, trivial, trivial,
    trivial, trivial⟩
  intro i t h
  have hall : ∀ i < 2, ∀ t, (JSys.at (JSys.run { mem := [] } (poolEvs.take 8)) (.buf i) = some t ∨
      JSys.at (JSys.run { mem := [] } (poolEvs.take 8)) (.dst i) = some t) → t.arr = 1 := by
    have e : ∀ i < 2, JSys.at (JSys.run { mem := [] } (poolEvs.take 8)) (.buf i) = none ∧
      (JSys.at (JSys.run { mem := [] } (poolEvs.take 8)) (.dst i) = none ∨ JSys.at (JSys.run { mem := [] } (poolEvs.take 8)) (.dst i) = some ⟨1, 0, 3, 3⟩) := by
      decide +kernel
    intro i hi t ht
    obtain ⟨e1, e2⟩ := e i hi
    rcases ht with ht | ht
    · rw [e1] at ht; cases ht
    · rcases e2 with e2 | e2
      · rw [e2] at ht; cases ht
      · rw [e2] at ht; cases ht; rfl
  have hlen : (JSys.run { mem := [] } (poolEvs.take 8)).calls.length = 2 := by decide +kernel
  intro ht
  rcases Nat.lt_or_ge i 2 with hi | hi
  · have := hall i hi t h
    have := ht.2
    simp_all
  · have hn : (JSys.run { mem := [] } (poolEvs.take 8)).calls[i]? = none := List.getElem?_eq_none (by omega)
    have h' : JSys.at (JSys.run { mem := [] } (poolEvs.take 8)) (.buf i) = some t ∨ JSys.at (JSys.run { mem := [] } (poolEvs.take 8)) (.dst i) = some t := h
    simp [JSys.at, hn] at h'

/-- A pool that keeps a buffer that is still in use would not do: here call 1 is given the buffer of call 0, which has been put too early, by hand.  It is not
a legal history. -/
example : ¬ JSys.LegalRun { mem := [] } [.call (.ok (.ok (lit "a\n"))) true 0, .step 0 6, .give ⟨0, 0, 2, 8⟩] := by
  rintro ⟨-, -, ⟨-, -, h⟩, -⟩
  exact h (.buf 0) ⟨0, 0, 2, 8⟩ (by decide +kernel) ⟨by decide, rfl⟩ ⟨by decide, rfl⟩

end Verif
