import Verif.Proofs.JsonAccepts
import Verif.Spec.Construct

/-!
# What `compact`, `Indent` and the carriage returns make of a text is a text

The scanner accepts what they put out because it accepts what they read: they add and leave out blanks only where the scanner skips them.
-/

set_option autoImplicit false

namespace Verif.Json
open Spec.Json (Ws Digs IsInt IsFrac IsExp IsNumber Hexdig IsChars IsValue IsElements IsMembers IsText)

/-- The states the scanner gets to without an error. -/
def Inner (s : Scan) : Prop := s.endTop = false ∧ s.step ≠ .endTop ∨ s = ⟨.endTop, [], true⟩

theorem inner_pop {s : Scan} (h : s.endTop = false) (hs : s.step ≠ .endTop) : Inner s.pop := by
  obtain ⟨st, ps, e⟩ := s
  rcases ps with _ | ⟨p, _ | ⟨q, ps⟩⟩
  · exact .inl ⟨h, hs⟩
  · exact .inr rfl
  · exact .inl ⟨h, by simp [Scan.pop]⟩

theorem inner_end {s : Scan} (h : s.endTop = false) (hs : s.step ≠ .endTop) (c : Byte) : Inner (stateEndValue s c).1 := by
  obtain ⟨st, ps, e⟩ := s
  cases h
  rcases ps with _ | ⟨p, ps⟩
  · exact .inr rfl
  · unfold stateEndValue
    simp only
    split
    · exact .inl ⟨rfl, by simp⟩
    · cases p <;> simp only
      · split
        · exact .inl ⟨rfl, by simp⟩
        · exact .inl ⟨rfl, hs⟩
      · split
        · exact .inl ⟨rfl, by simp⟩
        · split
          · exact inner_pop rfl hs
          · exact .inl ⟨rfl, hs⟩
      · split
        · exact .inl ⟨rfl, by simp⟩
        · split
          · exact inner_pop rfl hs
          · exact .inl ⟨rfl, hs⟩

theorem inner_begin {s : Scan} (h : s.endTop = false) (hs : s.step ≠ .endTop) (c : Byte) : Inner (stateBeginValue s c).1 := by
  unfold stateBeginValue
  repeat' split
  all_goals exact .inl ⟨h, by first | exact hs | simp [Scan.push]⟩

theorem inner_string {s : Scan} (h : s.endTop = false) (hs : s.step ≠ .endTop) (c : Byte) : Inner (stateBeginString s c).1 := by
  unfold stateBeginString
  repeat' split
  all_goals exact .inl ⟨h, by first | exact hs | simp⟩

theorem inner_want {s : Scan} (h : s.endTop = false) (hs : s.step ≠ .endTop) (ok : Bool) {st : St} (hst : st ≠ .endTop) : Inner (want s ok st).1 := by
  unfold want
  split
  · exact .inl ⟨h, hst⟩
  · exact .inl ⟨h, hs⟩

theorem inner_state0 {s : Scan} (h : s.endTop = false) (hs : s.step ≠ .endTop) (c : Byte) : Inner (state0 s c).1 := by
  unfold state0
  split
  · exact .inl ⟨h, by simp⟩
  · split
    · exact .inl ⟨h, by simp⟩
    · exact inner_end h hs c

theorem inner_next {s : Scan} (hi : Inner s) (c : Byte) : Inner (s.next c).1 := by
  rcases hi with ⟨h, hs⟩ | rfl
  · obtain ⟨st, ps, e⟩ := s
    have hs' : (⟨st, ps, e⟩ : Scan).step ≠ .endTop := hs
    cases st <;> unfold Scan.next <;> simp only
    all_goals
      repeat' split
      all_goals
        first
        | exact .inl ⟨h, by first | exact hs | simp⟩
        | exact inner_end h (by first | exact hs | simp) c
        | exact inner_begin h (by first | exact hs | simp) c
        | exact inner_string h (by first | exact hs | simp) c
        | exact inner_want h (by first | exact hs | simp) _ (by simp)
        | exact inner_state0 h (by first | exact hs | simp) c
        | (unfold stateESign; split <;> exact .inl ⟨h, by first | exact hs | simp⟩)
        | exact inner_end (s := ⟨.beginStringOrEmpty, .objectValue :: ps.tail, e⟩) h (by simp) c
        | exact absurd rfl hs
  · exact .inr rfl

/-- The states after a number that may have ended. -/
def Numeric (st : St) : Prop := st = .zero ∨ st = .one ∨ st = .dot0 ∨ st = .e0

/-- A number may end where a value may have ended. -/
theorem acc_numeric {st : St} (h : Numeric st) (ps : List Ps) {x : GoStr} (hx : (S .endValue ps).acc x = true) : (S st ps).acc x = true := by
  rcases h with rfl | rfl | rfl | rfl
  · exact (acc_zero' ps x).2 ⟨[], [], x, rfl, .no, .no, hx⟩
  · exact (acc_one ps x).2 ⟨[], [], [], x, rfl, digs_nil, .no, .no, hx⟩
  · exact (acc_dot0 ps x).2 ⟨[], [], x, rfl, digs_nil, .no, hx⟩
  · exact (acc_e0 ps x).2 ⟨[], x, rfl, digs_nil, hx⟩

/-- No blank. -/
def Solid (k : Code) : Prop := k ≠ .skipSpace ∧ k ≠ .end

theorem solid_end {c : Byte} (hc : isSpace c = false) (s : Scan) : Solid (stateEndValue s c).2 := by
  unfold stateEndValue
  split
  · simp [stateEndTop, hc, Solid]
  · simp only [hc, Bool.false_eq_true, if_false]
    repeat' split
    all_goals (refine ⟨?_, ?_⟩ <;> (intro hx; cases hx))

theorem solid_begin {c : Byte} (hc : isSpace c = false) (s : Scan) : Solid (stateBeginValue s c).2 := by
  unfold stateBeginValue
  simp only [hc, Bool.false_eq_true, if_false, Scan.push]
  repeat' split
  all_goals
    first
    | (refine ⟨?_, ?_⟩ <;> (intro hx; cases hx))
    | (simp only; split <;> (refine ⟨?_, ?_⟩ <;> (intro hx; cases hx)))

theorem solid_string {c : Byte} (hc : isSpace c = false) (s : Scan) : Solid (stateBeginString s c).2 := by
  unfold stateBeginString
  simp only [hc, Bool.false_eq_true, if_false]
  split <;> (refine ⟨?_, ?_⟩ <;> (intro hx; cases hx))

theorem solid_want (s : Scan) (ok : Bool) (st : St) : Solid (want s ok st).2 := by
  unfold want
  split <;> (refine ⟨?_, ?_⟩ <;> (intro hx; cases hx))

theorem solid_eSign (s : Scan) (c : Byte) : Solid (stateESign s c).2 := by
  unfold stateESign
  split <;> (refine ⟨?_, ?_⟩ <;> (intro hx; cases hx))

theorem solid_next {c : Byte} (hc : isSpace c = false) (s : Scan) : Solid (s.next c).2 := by
  obtain ⟨st, ps, e⟩ := s
  cases st <;> unfold Scan.next <;> simp only [hc, Bool.false_eq_true, if_false]
  all_goals
    repeat' split
    all_goals
      first
      | (refine ⟨?_, ?_⟩ <;> (intro hx; cases hx))
      | exact solid_end hc _
      | exact solid_begin hc _
      | exact solid_string hc _
      | exact solid_want _ _ _
      | exact solid_eSign _ _
      | (unfold state0; repeat' split
         all_goals first
           | (refine ⟨?_, ?_⟩ <;> (intro hx; cases hx))
           | exact solid_end hc _)
      | simp [stateEndTop, hc, Solid]

theorem space_not {c : Byte} (hc : isSpace c = true) : digit c = false ∧ c ≠ 101 ∧ c ≠ 69 ∧ c ≠ 46 ∧ isHex c = false := by
  revert hc
  exact forall_byte (P := fun c => isSpace c = true → digit c = false ∧ c ≠ 101 ∧ c ≠ 69 ∧ c ≠ 46 ∧ isHex c = false) (by decide +kernel) c

/-- The states in which a value may have ended. -/
def Ended (st : St) : Prop := st = .endValue ∨ Numeric st

theorem next_ended {st : St} (h : Ended st) (ps : List Ps) {c : Byte} (hc : ender c = true) : (S st ps).next c = stateEndValue (S st ps) c := by
  obtain ⟨h1, h2, h3, h4⟩ := ender_not hc
  rcases h with rfl | rfl | rfl | rfl | rfl
  · rfl
  · simp [Scan.next, state0, h1, h2, h3, h4]
  · simp [Scan.next, state0, h1, h2, h3, h4]
  · simp [Scan.next, state0, h1, h2, h3, h4]
  · simp [Scan.next, state0, h1, h2, h3, h4]

theorem ender_space {c : Byte} (hc : isSpace c = true) : ender c = true := by simp [ender, hc]

/-- What becomes of a state in which the scanner skips a blank. -/
theorem next_blank {s : Scan} (hi : Inner s) {c : Byte} (h : ¬ Solid (s.next c).2) : isSpace c = true ∧
    ((∃ st ps, s = S st ps ∧ Skips st ∧ (s.next c).1 = s) ∨ (s = ⟨.endTop, [], true⟩ ∧ (s.next c).1 = s) ∨
      (∃ st, s = S st [] ∧ Ended st ∧ (s.next c).1 = ⟨.endTop, [], true⟩) ∨ ∃ st p ps, s = S st (p :: ps) ∧ Ended st ∧ (s.next c).1 = S .endValue (p :: ps)) := by
  have hc : isSpace c = true := by
    cases hc : isSpace c
    · exact absurd (solid_next hc s) h
    · rfl
  refine ⟨hc, ?_⟩
  rcases hi with ⟨he, hs⟩ | rfl
  · obtain ⟨st, ps, e⟩ := s
    cases he
    by_cases hsk : Skips st
    · refine .inl ⟨st, ps, rfl, hsk, ?_⟩
      rcases hsk with rfl | rfl | rfl | rfl <;> simp [Scan.next, stateBeginValue, stateBeginString, hc]
    · by_cases hen : Ended st
      · refine .inr (.inr ?_)
        have hn := next_ended hen ps (ender_space hc)
        cases ps with
        | nil => exact .inl ⟨st, rfl, hen, by rw [hn]; rfl⟩
        | cons p ps => exact .inr ⟨st, p, ps, rfl, hen, by rw [hn]; simp [stateEndValue, hc]⟩
      · exfalso
        apply h
        cases st
        all_goals
          first
          | (exfalso; apply hsk; simp only [Skips, reduceCtorEq, or_true, true_or, or_false, false_or]; done)
          | (exfalso; apply hen; simp only [Ended, Numeric, reduceCtorEq, or_true, true_or, or_false, false_or]; done)
          | exact absurd rfl hs
          | exact solid_want _ _ _
          | exact solid_eSign _ _
          | (unfold Scan.next; simp only; repeat' split
             all_goals first
               | (refine ⟨?_, ?_⟩ <;> (intro hx; cases hx))
               | exact solid_want _ _ _
               | exact solid_eSign _ _)
  · exact .inr (.inl ⟨rfl, rfl⟩)

theorem acc_ended {st : St} (h : Ended st) (ps : List Ps) {x : GoStr} (hx : (S .endValue ps).acc x = true) : (S st ps).acc x = true := by
  rcases h with rfl | h
  · exact hx
  · exact acc_numeric h ps hx

/-- A blank may be left out. -/
theorem acc_drop {s : Scan} (hi : Inner s) {c : Byte} (h : ¬ Solid (s.next c).2) {x : GoStr} (hx : (s.next c).1.acc x = true) : s.acc x = true := by
  obtain ⟨hc, ⟨st, ps, rfl, h1, h2⟩ | ⟨rfl, h2⟩ | ⟨st, rfl, h1, h2⟩ | ⟨st, p, ps, rfl, h1, h2⟩⟩ := next_blank hi h
  · rwa [h2] at hx
  · rwa [h2] at hx
  · rw [h2] at hx
    exact acc_ended h1 [] ((acc_end_top x).2 ((acc_top x).1 hx))
  · rw [h2] at hx
    exact acc_ended h1 _ hx

/-- After a blank there may be another. -/
theorem acc_again {s : Scan} (hi : Inner s) {c : Byte} (h : ¬ Solid (s.next c).2) {b : Byte} (hb : isSpace b = true) {x : GoStr} (hx : (s.next c).1.acc x = true) :
    (s.next c).1.acc (b :: x) = true := by
  have hb' : Ws [b] := ws_cons.2 ⟨hb, ws_nil⟩
  obtain ⟨hc, ⟨st, ps, rfl, h1, h2⟩ | ⟨rfl, h2⟩ | ⟨st, rfl, h1, h2⟩ | ⟨st, p, ps, rfl, h1, h2⟩⟩ := next_blank hi h
  · rw [h2] at hx ⊢; rw [acc_blank h1 ps hb]; exact hx
  · rw [h2] at hx ⊢; rw [acc_top] at hx ⊢; exact ws_cons.2 ⟨hb, hx⟩
  · rw [h2] at hx ⊢; rw [acc_top] at hx ⊢; exact ws_cons.2 ⟨hb, hx⟩
  · rw [h2] at hx ⊢
    exact (acc_end_ws p ps hb' x).trans hx

/-! ## `compact` -/

theorem squeeze_acc : ∀ (t : GoStr) {s s' : Scan} {u : GoStr}, s.squeeze t = some (s', u) → s.acc t = s'.eof
  | [], s, s', u, h => by
    rw [Scan.squeeze] at h
    obtain ⟨rfl, rfl⟩ := Prod.mk.inj (Option.some.inj h); rfl
  | c :: t, s, s', u, h => by
    rw [Scan.squeeze] at h
    by_cases he : (s.next c).2 = .error
    · rw [if_pos he] at h; cases h
    · rw [if_neg he] at h
      obtain ⟨q, h1, h2⟩ := Option.map_eq_some_iff.1 h
      rw [acc_cons, accr, decide_eq_true he, Bool.true_and, squeeze_acc t h1]
      rw [← (Prod.mk.inj h2).1]

theorem squeeze_none : ∀ (t : GoStr) {s : Scan}, s.squeeze t = none → s.acc t = false
  | [], s, h => by rw [Scan.squeeze] at h; cases h
  | c :: t, s, h => by
    rw [Scan.squeeze] at h
    by_cases he : (s.next c).2 = .error
    · rw [acc_cons, accr]; simp [he]
    · rw [if_neg he] at h
      rw [acc_cons, accr, squeeze_none t (Option.map_eq_none_iff.1 h)]; simp

/-- `compact` has an error exactly if the scanner does not accept. -/
theorem squeezed_acc (t : GoStr) : (∃ u, squeezed t = .ok u) ↔ ({} : Scan).acc t = true := by
  unfold squeezed
  cases h : ({} : Scan).squeeze t with
  | none => rw [squeeze_none t h]; simp
  | some q =>
    rw [squeeze_acc t (s' := q.1) (u := q.2) h]
    simp only
    by_cases he : q.1.eof = true
    · simp [he]
    · simp [he]

theorem squeeze_out : ∀ (t : GoStr) {s s' : Scan} {u : GoStr}, Inner s → s.squeeze t = some (s', u) → s'.eof = true → s.acc u = true
  | [], s, s', u, _, h, he => by
    rw [Scan.squeeze] at h
    obtain ⟨rfl, rfl⟩ := Prod.mk.inj (Option.some.inj h); exact he
  | c :: t, s, s', u, hi, h, hf => by
    rw [Scan.squeeze] at h
    by_cases he : (s.next c).2 = .error
    · rw [if_pos he] at h; cases h
    · rw [if_neg he] at h
      obtain ⟨q, h1, h2⟩ := Option.map_eq_some_iff.1 h
      obtain ⟨h3, h4⟩ := Prod.mk.inj h2
      have ih := squeeze_out t (inner_next hi c) (s' := q.1) (u := q.2) h1 (by rw [h3]; exact hf)
      by_cases hk : (s.next c).2 = .skipSpace ∨ (s.next c).2 = .end
      · rw [if_pos hk] at h4
        subst h4
        exact acc_drop hi (fun hs => hk.elim hs.1 hs.2) ih
      · rw [if_neg hk] at h4
        subst h4
        rw [acc_cons, accr, ih, decide_eq_true he]; rfl

theorem inner_start : Inner {} := .inl ⟨rfl, by decide⟩

/-- What `compact` puts out is a text. -/
theorem squeezed_out {t u : GoStr} (h : squeezed t = .ok u) : ({} : Scan).acc u = true := by
  unfold squeezed at h
  cases hq : ({} : Scan).squeeze t with
  | none => rw [hq] at h; cases h
  | some q =>
    rw [hq] at h
    simp only at h
    by_cases he : q.1.eof = true
    · rw [if_pos he] at h
      cases h
      exact squeeze_out t inner_start hq he
    · rw [if_neg he] at h; cases h

/-! ## Carriage returns -/

theorem next_cr {s : Scan} (hi : Inner s) (h : (s.next 10).2 ≠ .error) : ¬ Solid (s.next 10).2 ∧ s.next 13 = s.next 10 := by
  rcases hi with ⟨he, hs⟩ | rfl
  · obtain ⟨st, ps, e⟩ := s
    cases he
    by_cases hsk : Skips st
    · rcases hsk with rfl | rfl | rfl | rfl <;> exact ⟨fun h => h.1 rfl, rfl⟩
    · by_cases hen : Ended st
      · rw [next_ended hen ps rfl, next_ended hen ps rfl]
        cases ps with
        | nil => exact ⟨fun h => h.2 rfl, rfl⟩
        | cons p ps => exact ⟨fun h => h.1 rfl, rfl⟩
      · exfalso
        cases st
        all_goals
          first
          | (exfalso; apply hsk; simp only [Skips, reduceCtorEq, or_true, true_or, or_false, false_or]; done)
          | (exfalso; apply hen; simp only [Ended, Numeric, reduceCtorEq, or_true, true_or, or_false, false_or]; done)
          | exact absurd rfl hs
          | exact h rfl
          | exact h (by simp [Scan.next, want]; decide)
  · exact ⟨fun h => h.2 rfl, rfl⟩

/-- A line may end in CRLF instead of LF. -/
theorem crlf_acc : ∀ (t : GoStr) {s : Scan}, Inner s → s.acc t = true → s.acc (Spec.crlf t) = true
  | [], s, _, h => h
  | c :: t, s, hi, h => by
    rw [acc_cons, accr] at h
    simp only [Bool.and_eq_true, decide_eq_true_eq] at h
    have ih := crlf_acc t (inner_next hi c) h.2
    show s.acc ((if c = 10 then [13, 10] else [c]) ++ Spec.crlf t) = true
    by_cases hc : c = 10
    · subst hc
      rw [if_pos rfl]
      obtain ⟨h1, h2⟩ := next_cr hi h.1
      show s.acc (13 :: 10 :: Spec.crlf t) = true
      rw [acc_cons, h2, accr, decide_eq_true h.1, Bool.true_and]
      exact acc_again hi h1 (by decide) ih
    · rw [if_neg hc]
      show s.acc (c :: Spec.crlf t) = true
      rw [acc_cons, accr, decide_eq_true h.1, Bool.true_and]; exact ih

end Verif.Json
