import Verif.Model.Writer
import Verif.Spec.Http
import Verif.Proofs.Sim

/-! # The invariant of a Writer -/

set_option autoImplicit false

namespace Verif
open Spec
variable {ω β : Type}

theorem statuses_append (a b : List WEv) : statuses (a ++ b) = statuses a ++ statuses b := by
  simp [statuses]

theorem accepted_append (a b : List WEv) : accepted (a ++ b) = accepted a + accepted b := by
  induction a with
  | nil => simp [accepted]
  | cons e a ih =>
    rw [List.cons_append]
    cases e with
    | write d r => cases r <;> simp only [accepted, ih] <;> omega
    | readFromDone n e => simp only [accepted, ih]; omega
    | _ => simp only [accepted, ih]

theorem Spec.StatusFirst.snoc_send {log : List WEv} (h : StatusFirst log) (hs : statuses log ≠ []) (e : WEv)
    (he : statuses [e] = []) : StatusFirst (log ++ [e]) := by
  obtain ⟨pre, post, rfl, h1, h2, h3⟩ := h
  refine ⟨pre, post ++ [e], by simp, h1, h2, ?_⟩
  rcases h3 with rfl | ⟨c, rest, rfl, h4⟩
  · simp [h2] at hs
  · exact .inr ⟨c, rest ++ [e], by simp, by rw [statuses_append, h4, he]; rfl⟩

theorem Spec.StatusFirst.snoc_quiet {log : List WEv} (h : StatusFirst log) (e : WEv) (he : statuses [e] = [])
    (hq : sends e = false) : StatusFirst (log ++ [e]) := by
  obtain ⟨pre, post, rfl, h1, h2, h3⟩ := h
  rcases h3 with rfl | ⟨c, rest, rfl, h4⟩
  · refine ⟨pre ++ [e], [], by simp, ?_, by rw [statuses_append, h2, he]; rfl, .inl rfl⟩
    intro x hx
    rcases List.mem_append.1 hx with hx | hx
    · exact h1 x hx
    · simp at hx; subst hx; exact hq
  · exact ⟨pre, .status c :: rest ++ [e], by simp, h1, h2, .inr ⟨c, rest ++ [e], by simp, by rw [statuses_append, h4, he]; rfl⟩⟩

theorem Spec.StatusFirst.snoc_status {log : List WEv} (h : StatusFirst log) (hs : statuses log = []) (c : Int) :
    StatusFirst (log ++ [.status c]) := by
  obtain ⟨pre, post, rfl, h1, h2, h3⟩ := h
  rcases h3 with rfl | ⟨c', rest, rfl, h4⟩
  · exact ⟨pre, [.status c], by simp, h1, h2, .inr ⟨c, [], rfl, rfl⟩⟩
  · simp [statuses] at hs

/-- Appending several sending events. -/
theorem Spec.StatusFirst.append_send {log ext : List WEv} (h : StatusFirst log) (hs : statuses log ≠ [])
    (he : statuses ext = []) : StatusFirst (log ++ ext) := by
  obtain ⟨pre, post, rfl, h1, h2, h3⟩ := h
  refine ⟨pre, post ++ ext, by simp, h1, h2, ?_⟩
  rcases h3 with rfl | ⟨c, rest, rfl, h4⟩
  · simp [h2] at hs
  · exact .inr ⟨c, rest ++ ext, by simp, by rw [statuses_append, h4, he]; rfl⟩

/-- What holds of a Writer over a recording ResponseWriter at any time. -/
structure WInvariant (s : WState (Logged WEv ω)) : Prop where
  first : StatusFirst s.next.log
  status : (s.status = 0 ∧ statuses s.next.log = []) ∨
    (100 ≤ s.status ∧ s.status ≤ 999 ∧ statuses s.next.log = [s.status])
  bytes : s.bytes = accepted s.next.log
  nobody : s.isHEAD = true ∨ s.status = 204 → ∀ e ∈ s.next.log, passesBody e = false

theorem winvariant_init (w : ω) (isHEAD : Bool) : WInvariant (Writer.init (⟨w, []⟩ : Logged WEv ω) isHEAD) := by
  refine ⟨⟨[], [], rfl, by simp, rfl, .inl rfl⟩, .inl ⟨rfl, rfl⟩, rfl, by simp [Writer.init]⟩

/-- `MaybeWriteHeader`: what it does to the log. -/
theorem maybe_spec (N : RW ω) (s : WState (Logged WEv ω)) (hs : WInvariant s) (st : Int) :
    WInvariant (Writer.maybeWriteHeader N.record s st).1 ∧
    (Writer.maybeWriteHeader N.record s st).1.sawError = s.sawError ∧
    (Writer.maybeWriteHeader N.record s st).1.isHEAD = s.isHEAD ∧
    (Writer.maybeWriteHeader N.record s st).1.bytes = s.bytes ∧
    (∃ ext, (Writer.maybeWriteHeader N.record s st).1.next.log = s.next.log ++ ext ∧ (ext = [] ∨ ext = [.status st])) ∧
    ((Writer.maybeWriteHeader N.record s st).2 = .ret () → (Writer.maybeWriteHeader N.record s st).1.status ≠ 0 ∧
      (Writer.maybeWriteHeader N.record s st).1.status = if s.status = 0 then st else s.status) := by
  unfold Writer.maybeWriteHeader
  by_cases h1 : st ≥ 100
  · rw [if_neg (by omega)]
    by_cases h2 : st ≤ 999
    · rw [if_neg (by omega)]
      by_cases h3 : s.status ≠ 0
      · rw [if_pos h3]
        exact ⟨hs, rfl, rfl, rfl, ⟨[], by simp, .inl rfl⟩, fun _ => ⟨h3, by rw [if_neg h3]⟩⟩
      · rw [if_neg h3]
        have h3 : s.status = 0 := by simpa using h3
        simp only [Writer.writeHeaderImpl, RW.record]
        have hst : statuses s.next.log = [] := by
          rcases hs.status with h | h
          · exact h.2
          · omega
        refine ⟨⟨hs.first.snoc_status hst st, .inr ⟨by simpa using h1, h2, by rw [statuses_append, hst]; rfl⟩, ?_, ?_⟩,
          trivial, trivial, trivial, ⟨[.status st], rfl, .inr rfl⟩, fun _ => ⟨by simp; omega, by simp [h3]⟩⟩
        · simp [accepted_append, accepted, hs.bytes]
        · intro hd e he
          simp only [List.mem_append, List.mem_singleton] at he
          rcases he with he | rfl
          · obtain ⟨pre, post, hl, q1, q2, q3⟩ := hs.first
            rcases q3 with rfl | ⟨c, rest, rfl, q4⟩
            · rw [hl] at he; simp at he
              have := q1 e he
              revert this; cases e <;> simp [sends, passesBody]
            · rw [hl] at hst; simp [statuses] at hst
          · rfl
    · rw [if_pos h2]
      exact ⟨hs, rfl, rfl, rfl, ⟨[], by simp, .inl rfl⟩, by simp⟩
  · rw [if_pos h1]
    exact ⟨hs, rfl, rfl, rfl, ⟨[], by simp, .inl rfl⟩, by simp⟩

/-- The wrapped `ReadFrom`. -/
theorem wrapRF_spec (B : BodyOps β) (fuel : Nat) (s : WState (Logged WEv ω)) (t : RF ω) (l : List WEv) (b : β) :
    ∃ ext w, (runRF B fuel (Writer.wrapRF s (t.record l)) b).2.1 =
        { s with next := ⟨w, l ++ ext⟩, bytes := s.bytes + accepted ext } ∧
      (∀ e ∈ ext, ∃ d, e = .took d ∨ ∃ n err, e = .readFromDone n err) := by
  induction t generalizing l b with
  | done w n err =>
    simp only [RF.record, Writer.wrapRF]
    by_cases hn : n ≥ 0
    · rw [if_neg (by omega)]
      refine ⟨[.readFromDone n err], w, ?_, by simp⟩
      simp only [runRF, accepted]
      rw [if_pos hn]
      simp
    · rw [if_pos hn]
      refine ⟨[.readFromDone n err], w, ?_, by simp⟩
      simp only [runRF, accepted]
      rw [if_neg hn]
      simp
  | read w k cont ih =>
    simp only [RF.record, Writer.wrapRF, runRF]
    rcases B.read b k with ⟨b', r⟩
    cases r with
    | ret a =>
      obtain ⟨d, e⟩ := a
      obtain ⟨ext, w', h1, h2⟩ := ih d e (l ++ [.took d]) b'
      refine ⟨.took d :: ext, w', ?_, ?_⟩
      · simp only [h1]; simp [accepted]
      · intro x hx
        rcases List.mem_cons.1 hx with rfl | hx
        · exact ⟨d, .inl rfl⟩
        · exact h2 x hx
    | panic p => exact ⟨[], w, by simp [accepted], by simp⟩
    | hang => exact ⟨[], w, by simp [accepted], by simp⟩
  | drain w cont ih =>
    simp only [RF.record, Writer.wrapRF, runRF]
    rcases discardAll B fuel b with ⟨b', r⟩
    cases r with
    | ret a => obtain ⟨n, e⟩ := a; exact ih n e l b'
    | panic p => exact ⟨[], w, by simp [accepted], by simp⟩
    | hang => exact ⟨[], w, by simp [accepted], by simp⟩
  | panic w p => exact ⟨[], w, by simp [RF.record, Writer.wrapRF, runRF, accepted], by simp⟩
  | hang w => exact ⟨[], w, by simp [RF.record, Writer.wrapRF, runRF, accepted], by simp⟩

theorem statuses_took {ext : List WEv} (h : ∀ e ∈ ext, ∃ d, e = .took d ∨ ∃ n err, e = .readFromDone n err) :
    statuses ext = [] := by
  simp only [statuses, List.filterMap_eq_nil_iff]
  intro e he
  obtain ⟨d, rfl | ⟨n, err, rfl⟩⟩ := h e he <;> rfl

/-- A call on the Writer is an explicit `WriteHeader` with a legal code after the status was sent. -/
def Repeated (s : WState ω) : WOp → Prop
  | .writeHeader st => 100 ≤ st ∧ st ≤ 999 ∧ s.status ≠ 0
  | _ => False

/-- What one call does. -/
structure WStep (s : WState (Logged WEv ω)) (op : WOp) (s' : WState (Logged WEv ω)) : Prop where
  inv : WInvariant s'
  head : s'.isHEAD = s.isHEAD
  log : ∃ ext, s'.next.log = s.next.log ++ ext ∧
    (s'.sawError = true ↔ s.sawError = true ∨ WriteFailed ext ∨ Repeated s op)

theorem not_failed_nil : ¬ WriteFailed [] := by simp [WriteFailed]

theorem writer_step_aux (N : RW ω) (s : WState (Logged WEv ω)) (s1 : WState (Logged WEv ω)) (h1 : WInvariant s1)
    (e1 : s1.sawError = s.sawError) (e2 : s1.isHEAD = s.isHEAD) {ext : List WEv} (e3 : s1.next.log = s.next.log ++ ext)
    (hext : ext = [] ∨ ∃ st, ext = [.status st]) (op : WOp) (hr : ¬ Repeated s op) : WStep s op s1 := by
  refine ⟨h1, e2, ext, e3, ?_⟩
  have : ¬ WriteFailed ext := by
    rcases hext with rfl | ⟨st, rfl⟩ <;> simp [WriteFailed]
  simp [e1, this, hr]

theorem writer_step (N : RW ω) (raises : Bool) (kind : WKind) (fuel : Nat) (s : WState (Logged WEv ω)) (hs : WInvariant s)
    (op : WOp) : WStep s op (Writer.step N.record raises kind fuel s op).1 := by
  have same : ∀ op : WOp, ¬ Repeated s op → WStep s op s := fun op hr =>
    writer_step_aux N s s hs rfl rfl (ext := []) (by simp) (.inl rfl) op hr
  cases op with
  | setHeader k v =>
    simp only [Writer.step, Writer.ops, RW.record]
    refine ⟨⟨hs.first.snoc_quiet _ rfl rfl, ?_, ?_, ?_⟩, rfl, [.set k v], rfl, by simp [WriteFailed, Repeated]⟩
    · simpa [statuses_append, statuses] using hs.status
    · simp [accepted_append, accepted, hs.bytes]
    · intro hd e he
      simp only [List.mem_append, List.mem_singleton] at he
      rcases he with he | rfl
      · exact hs.nobody hd e he
      · rfl
  | maybeWriteHeader st =>
    simp only [Writer.step]
    obtain ⟨a1, a2, a3, a4, ⟨ext, a5, a6⟩, a7⟩ := maybe_spec N s hs st
    exact writer_step_aux N s _ a1 a2 a3 a5 (a6.imp id (fun h => ⟨st, h⟩)) _ (by simp [Repeated])
  | writeHeader st =>
    simp only [Writer.step]
    by_cases hr : Repeated s (.writeHeader st)
    · have e : (Writer.writeHeader N.record raises s st).1 = { s with sawError := true } := by
        obtain ⟨h1, h2, h3⟩ := hr
        unfold Writer.writeHeader
        rw [if_neg (by omega), if_neg (by omega), if_pos h3]
      rw [e]
      exact ⟨⟨hs.first, hs.status, hs.bytes, hs.nobody⟩, rfl, [], by simp, by simp [hr]⟩
    · have e : (Writer.writeHeader N.record raises s st).1 = (Writer.maybeWriteHeader N.record s st).1 := by
        unfold Writer.writeHeader Writer.maybeWriteHeader
        by_cases h1 : st ≥ 100
        · by_cases h2 : st ≤ 999
          · have h3 : s.status = 0 := by
              simp only [Repeated, not_and] at hr
              have := hr h1 h2
              omega
            simp [h1, h2, h3]
          · simp [h1, h2]
        · simp [h1]
      rw [e]
      obtain ⟨a1, a2, a3, a4, ⟨ext, a5, a6⟩, a7⟩ := maybe_spec N s hs st
      exact writer_step_aux N s _ a1 a2 a3 a5 (a6.imp id (fun h => ⟨st, h⟩)) _ hr
  | push url =>
    simp only [Writer.step, Writer.push]
    by_cases hp : N.record.isPusher = true
    · rw [if_pos hp]
      simp only [RW.record]
      refine ⟨⟨hs.first.snoc_quiet _ rfl rfl, ?_, ?_, ?_⟩, rfl, [.push url (N.push s.next.inner url).2], rfl,
        by simp [WriteFailed, Repeated]⟩
      · simpa [statuses_append, statuses] using hs.status
      · simp [accepted_append, accepted, hs.bytes]
      · intro hd e he
        simp only [List.mem_append, List.mem_singleton] at he
        rcases he with he | rfl
        · exact hs.nobody hd e he
        · rfl
    · rw [if_neg hp]
      exact same _ (by simp [Repeated])
  | closeNotify => simp only [Writer.step]; split <;> exact same _ (by simp [Repeated])
  | hijack => simp only [Writer.step]; split <;> exact same _ (by simp [Repeated])
  | write p =>
    simp only [Writer.step, Writer.write]
    obtain ⟨a1, a2, a3, a4, ⟨ext, a5, a6⟩, a7⟩ := maybe_spec N s hs 200
    rcases hm : Writer.maybeWriteHeader N.record s 200 with ⟨s1, r⟩
    rw [hm] at a1 a2 a3 a4 a5 a7
    dsimp only at a1 a2 a3 a4 a5 a7
    have aux := fun op hr => writer_step_aux N s s1 a1 a2 a3 a5 (a6.imp id (fun h => ⟨200, h⟩)) op hr
    cases r with
    | panic q => exact aux _ (by simp [Repeated])
    | hang => exact aux _ (by simp [Repeated])
    | ret u =>
      simp only
      by_cases hh : (s1.isHEAD || decide (s1.status = 204)) = true
      · rw [if_pos hh]; exact aux _ (by simp [Repeated])
      · rw [if_neg hh]
        have hst : statuses s1.next.log ≠ [] := by
          have h0 := (a7 rfl).1
          rcases a1.status with h | h
          · exact absurd h.1 h0
          · simp [h.2.2]
        have hh' : ¬ (s1.isHEAD = true ∨ s1.status = 204) := by simpa using hh
        simp only [RW.record]
        have hf := a1.first.snoc_send hst (.write p (N.write s1.next.inner p).2) rfl
        have hstat : ∀ r : WAns, (s1.status = 0 ∧ statuses (s1.next.log ++ [.write p r]) = []) ∨
            (100 ≤ s1.status ∧ s1.status ≤ 999 ∧ statuses (s1.next.log ++ [.write p r]) = [s1.status]) := by
          intro r
          simpa [statuses_append, statuses] using a1.status
        have hnf : ¬ WriteFailed ext := by
          rcases a6 with rfl | rfl <;> simp [WriteFailed]
        rcases hw : N.write s1.next.inner p with ⟨w', ans⟩
        rw [hw] at hf
        dsimp only at hf
        cases ans with
        | panic q =>
          refine ⟨⟨hf, hstat _, ?_, fun h => absurd h hh'⟩, a3, ext ++ [.write p (.panic q)], by simp [a5], ?_⟩
          · simp [accepted_append, accepted, a1.bytes]
          · simp only [a2]
            have : ¬ WriteFailed (ext ++ [.write p (.panic q)]) := by
              rintro ⟨d, n, e, h, _⟩
              simp at h
              exact hnf ⟨d, n, e, h, by assumption⟩
            simp [this, Repeated]
        | hang =>
          refine ⟨⟨hf, hstat _, ?_, fun h => absurd h hh'⟩, a3, ext ++ [.write p .hang], by simp [a5], ?_⟩
          · simp [accepted_append, accepted, a1.bytes]
          · simp only [a2]
            have : ¬ WriteFailed (ext ++ [.write p .hang]) := by
              rintro ⟨d, n, e, h, _⟩
              simp at h
              exact hnf ⟨d, n, e, h, by assumption⟩
            simp [this, Repeated]
        | ret a =>
          obtain ⟨n, err⟩ := a
          simp only
          by_cases hn : n ≥ 0
          · rw [if_neg (by omega)]
            have hwf : WriteFailed (ext ++ [.write p (.ret (n, err))]) ↔ err ≠ none := by
              constructor
              · rintro ⟨d, n', e, h, _⟩
                simp at h
                rcases h with h | h
                · exact absurd ⟨d, n', e, h, by assumption⟩ hnf
                · simp [← h.2.2]
              · intro he
                obtain ⟨e, rfl⟩ := Option.ne_none_iff_exists'.1 he
                exact ⟨p, n, e, by simp, hn⟩
            by_cases he : err = none
            · simp only [he, ne_eq, not_true_eq_false, if_false]
              refine ⟨⟨?_, ?_, ?_, fun h => absurd h hh'⟩, a3, ext ++ [.write p (.ret (n, err))], by simp [a5, he], ?_⟩
              · simpa [he] using hf
              · exact hstat _
              · have : accepted [WEv.write p (.ret (n, none))] = n := by simp [accepted]; omega
                simp only [accepted_append, this, a1.bytes]
              · rw [hwf]; simp [he, a2, Repeated]
            · simp only [ne_eq, he, not_false_eq_true, if_true]
              refine ⟨⟨?_, ?_, ?_, fun h => absurd h hh'⟩, a3, ext ++ [.write p (.ret (n, err))], by simp [a5], ?_⟩
              · exact hf
              · exact hstat _
              · have : accepted [WEv.write p (.ret (n, err))] = n := by simp [accepted]; omega
                simp only [accepted_append, this, a1.bytes]
              · simp [hwf, he]
          · rw [if_pos hn]
            refine ⟨⟨hf, hstat _, ?_, fun h => absurd h hh'⟩, a3, ext ++ [.write p (.ret (n, err))], by simp [a5], ?_⟩
            · have : accepted [WEv.write p (.ret (n, err))] = 0 := by simp [accepted]; omega
              simp only [accepted_append, this, a1.bytes]; omega
            · have : ¬ WriteFailed (ext ++ [.write p (.ret (n, err))]) := by
                rintro ⟨d, n', e, h, h'⟩
                simp at h
                rcases h with h | h
                · exact hnf ⟨d, n', e, h, h'⟩
                · omega
              simp [this, a2, Repeated]
  | flush =>
    simp only [Writer.step]
    split
    · exact same _ (by simp [Repeated])
    · simp only [Writer.flush]
      obtain ⟨a1, a2, a3, a4, ⟨ext, a5, a6⟩, a7⟩ := maybe_spec N s hs 200
      rcases hm : Writer.maybeWriteHeader N.record s 200 with ⟨s1, r⟩
      rw [hm] at a1 a2 a3 a4 a5 a7
      dsimp only at a1 a2 a3 a4 a5 a7
      have aux := fun op hr => writer_step_aux N s s1 a1 a2 a3 a5 (a6.imp id (fun h => ⟨200, h⟩)) op hr
      cases r with
      | panic q => exact aux _ (by simp [Repeated])
      | hang => exact aux _ (by simp [Repeated])
      | ret u =>
        simp only
        split
        · exact aux _ (by simp [Repeated])
        · have hst : statuses s1.next.log ≠ [] := by
            have h0 := (a7 rfl).1
            rcases a1.status with h | h
            · exact absurd h.1 h0
            · simp [h.2.2]
          simp only [RW.record]
          refine ⟨⟨a1.first.snoc_send hst .flush rfl, ?_, ?_, ?_⟩, a3, ext ++ [.flush], by simp [a5], ?_⟩
          · simpa [statuses_append, statuses] using a1.status
          · simp [accepted_append, accepted, a1.bytes]
          · intro hd e he
            simp only [List.mem_append, List.mem_singleton] at he
            rcases he with he | rfl
            · exact a1.nobody hd e he
            · rfl
          · have : ¬ WriteFailed (ext ++ [.flush]) := by
              rcases a6 with rfl | rfl <;> simp [WriteFailed]
            simp [this, a2, Repeated]
  | readFrom src =>
    simp only [Writer.step]
    split
    · simp only [Writer.readFrom]
      obtain ⟨a1, a2, a3, a4, ⟨ext, a5, a6⟩, a7⟩ := maybe_spec N s hs 200
      rcases hm : Writer.maybeWriteHeader N.record s 200 with ⟨s1, r⟩
      rw [hm] at a1 a2 a3 a4 a5 a7
      dsimp only at a1 a2 a3 a4 a5 a7
      have aux := fun op hr => writer_step_aux N s s1 a1 a2 a3 a5 (a6.imp id (fun h => ⟨200, h⟩)) op hr
      cases r with
      | panic q => exact aux _ (by simp [Repeated])
      | hang => exact aux _ (by simp [Repeated])
      | ret u =>
        simp only
        by_cases hh : (s1.isHEAD || decide (s1.status = 204)) = true
        · rw [if_pos hh]
          have : (runRF scriptOps fuel (RF.drain s1 fun n err => RF.done s1 n err) src).2.1 = s1 := by
            simp only [runRF]
            rcases discardAll scriptOps fuel src with ⟨b, r⟩
            cases r <;> rfl
          rw [this]; exact aux _ (by simp [Repeated])
        · rw [if_neg hh]
          have hh' : ¬ (s1.isHEAD = true ∨ s1.status = 204) := by simpa using hh
          split
          · exact aux _ (by simp [Repeated])
          · have hst : statuses s1.next.log ≠ [] := by
              have h0 := (a7 rfl).1
              rcases a1.status with h | h
              · exact absurd h.1 h0
              · simp [h.2.2]
            simp only [RW.record]
            obtain ⟨ex, w', e1, e2⟩ := wrapRF_spec scriptOps fuel s1 (N.readFrom s1.next.inner) (s1.next.log ++ [.readFrom]) src
            rw [e1]
            have hst2 : statuses (WEv.readFrom :: ex) = [] := by
              have := statuses_took e2
              simpa [statuses] using this
            refine ⟨⟨?_, ?_, ?_, fun h => absurd h hh'⟩, a3, ext ++ .readFrom :: ex, by simp [a5], ?_⟩
            · have := a1.first.append_send hst hst2
              simpa using this
            · have : statuses (s1.next.log ++ [.readFrom] ++ ex) = statuses s1.next.log := by
                rw [List.append_assoc, List.singleton_append, statuses_append, hst2]; simp
              simp only [this]
              exact a1.status
            · simp [accepted_append, accepted, a1.bytes]
            · have : ¬ WriteFailed (ext ++ .readFrom :: ex) := by
                rintro ⟨d, n, e, h, _⟩
                simp at h
                rcases h with h | h
                · rcases a6 with rfl | rfl <;> simp at h
                · obtain ⟨_, h' | ⟨_, _, h'⟩⟩ := e2 _ h <;> simp at h'
              simp [this, a2, Repeated]
    · exact same _ (by simp [Repeated])

end Verif
