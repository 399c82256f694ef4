import Verif.Proofs.JsonSteps

/-!
# `Indent` makes a text of a text
-/

set_option autoImplicit false

namespace Verif.Json
open Spec.Json (Ws Digs IsInt IsFrac IsExp IsNumber Hexdig IsChars IsValue IsElements IsMembers IsText)

theorem ws_append {a b : GoStr} (ha : Ws a) (hb : Ws b) : Ws (a ++ b) := by
  intro c hc
  rcases List.mem_append.1 hc with h | h
  · exact ha c h
  · exact hb c h

theorem ws_newline {ind : GoStr} (h : Ws ind) (d : Int) : Ws (newline ind d) := by
  refine ws_cons.2 ⟨rfl, ?_⟩
  generalize d.toNat = n
  induction n with
  | zero => exact ws_nil
  | succ n ih => rw [List.replicate_succ, List.flatten_cons]; exact ws_append h ih

theorem acc_skip_ws {s : Scan} (hi : Inner s) (hs : Skips s.step) {w : GoStr} (hw : Ws w) (x : GoStr) : s.acc (w ++ x) = s.acc x := by
  rcases hi with ⟨he, _⟩ | rfl
  · obtain ⟨st, ps, e⟩ := s
    cases he
    exact acc_ws hs ps hw x
  · rcases hs with h | h | h | h <;> cases h

/-- The states in the middle of something know only two answers. -/
theorem lit_code {st : St} (h1 : ¬ Skips st) (h2 : ¬ Ended st) (h3 : st ≠ .endTop) (ps : List Ps) (c : Byte) :
    ((S st ps).next c).2 = .continue ∨ ((S st ps).next c).2 = .error := by
  have hwant (s : Scan) (ok : Bool) (st : St) : (want s ok st).2 = .continue ∨ (want s ok st).2 = .error := by
    unfold want; split
    · exact .inl rfl
    · exact .inr rfl
  have hsign (s : Scan) : (stateESign s c).2 = .continue ∨ (stateESign s c).2 = .error := by
    unfold stateESign; split
    · exact .inl rfl
    · exact .inr rfl
  cases st
  all_goals
    first
    | (exfalso; apply h1; simp only [Skips, reduceCtorEq, or_true, true_or, or_false, false_or]; done)
    | (exfalso; apply h2; simp only [Ended, Numeric, reduceCtorEq, or_true, true_or, or_false, false_or]; done)
    | exact absurd rfl h3
    | exact hwant _ _ _
    | exact hsign _
    | (unfold Scan.next; simp only; repeat' split
       all_goals first
         | exact .inl rfl
         | exact .inr rfl
         | exact hwant _ _ _
         | exact hsign _)

/-- Punctuation, not in a string. -/
def Mark (k : Code) : Prop := k ≠ .continue ∧ k ≠ .skipSpace ∧ k ≠ .error

theorem mark_states {s : Scan} (hi : Inner s) {c : Byte} (hc : isSpace c = false) (hm : Mark (s.next c).2) : ∃ st ps, s = S st ps ∧ (Skips st ∨ (Ended st ∧ ps ≠ [])) := by
  rcases hi with ⟨he, hs⟩ | rfl
  · obtain ⟨st, ps, e⟩ := s
    cases he
    refine ⟨st, ps, rfl, ?_⟩
    by_cases h1 : Skips st
    · exact .inl h1
    · by_cases h2 : Ended st
      · refine .inr ⟨h2, ?_⟩
        rintro rfl
        by_cases hx : ender c = true
        · rw [next_ended h2 [] hx] at hm
          exact hm.2.2 (by simp [stateEndValue, stateEndTop, hc])
        · rcases h2 with rfl | rfl | rfl | rfl | rfl
          all_goals
            revert hm
            simp only [Scan.next, state0, stateEndValue, stateEndTop, hc, Mark]
            repeat' split
            all_goals first
              | (simp; done)
              | (rename_i h; exact absurd h (by decide))
      · rcases lit_code h1 h2 hs ps c with h | h
        · exact absurd h hm.1
        · exact absurd h hm.2.2
  · exact absurd (by simp [Scan.next, stateEndTop, hc]) hm.2.2

/-- After what opens or separates, blanks are skipped. -/
theorem mark_open {s : Scan} (hi : Inner s) {c : Byte} (hc : c = 123 ∨ c = 91 ∨ c = 44 ∨ c = 58) (hm : Mark (s.next c).2) : Skips (s.next c).1.step := by
  have hc' : isSpace c = false := by rcases hc with rfl | rfl | rfl | rfl <;> rfl
  obtain ⟨st, ps, rfl, h⟩ := mark_states hi hc' hm
  obtain ⟨m1, m2, m3⟩ := hm
  rcases h with h | ⟨h, hp⟩
  · rcases h with rfl | rfl | rfl | rfl <;> rcases hc with rfl | rfl | rfl | rfl
    all_goals
      first
      | (simp only [Skips]; exact .inl rfl)
      | (simp only [Skips]; exact .inr (.inl rfl))
      | (simp only [Skips]; exact .inr (.inr (.inl rfl)))
      | (simp only [Skips]; exact .inr (.inr (.inr rfl)))
      | exact absurd rfl m3
  · cases ps with
    | nil => exact absurd rfl hp
    | cons p ps =>
      by_cases he : ender c = true
      · rw [next_ended h _ he] at m3 ⊢
        cases p <;> rcases hc with rfl | rfl | rfl | rfl
        all_goals
          first
          | (simp only [Skips]; exact .inl rfl)
          | (simp only [Skips]; exact .inr (.inr (.inl rfl)))
          | exact absurd rfl m3
      · rcases hc with rfl | rfl | rfl | rfl
        · exfalso; rcases h with rfl | rfl | rfl | rfl | rfl <;> cases p <;> exact m3 rfl
        · exfalso; rcases h with rfl | rfl | rfl | rfl | rfl <;> cases p <;> exact m3 rfl
        · exact absurd rfl he
        · exact absurd rfl he

/-- Before what closes, blanks are skipped. -/
theorem mark_close {s : Scan} (hi : Inner s) {c : Byte} (hc : c = 125 ∨ c = 93) (hm : Mark (s.next c).2) {w : GoStr} (hw : Ws w) {y : GoStr} (hy : s.acc (c :: y) = true) :
    s.acc (w ++ c :: y) = true := by
  have hc' : isSpace c = false := by rcases hc with rfl | rfl <;> rfl
  obtain ⟨st, ps, rfl, h | ⟨h, hp⟩⟩ := mark_states hi hc' hm
  · rw [acc_skip_ws hi h hw]; exact hy
  · cases ps with
    | nil => exact absurd rfl hp
    | cons p ps =>
      refine acc_ended h _ ?_
      rw [acc_end_ws p ps hw, acc_cons]
      have he : ender c = true := by rcases hc with rfl | rfl <;> rfl
      rw [acc_cons, next_ended h _ he] at hy
      rw [show (S .endValue (p :: ps)).next c = stateEndValue (S .endValue (p :: ps)) c from rfl, accr_end_same .endValue st]
      exact hy

theorem close_byte {s : Scan} {c : Byte} (h : (s.next c).2 = .endObject ∨ (s.next c).2 = .endArray) : c = 125 ∨ c = 93 := by
  have hend (s : Scan) (h : (stateEndValue s c).2 = .endObject ∨ (stateEndValue s c).2 = .endArray) : c = 125 ∨ c = 93 := by
    unfold stateEndValue at h
    repeat' split at h
    all_goals
      first
      | (rcases h with h | h <;> (simp at h; done))
      | (first | exact .inl (by assumption) | exact .inr (by assumption))
      | (unfold stateEndTop at h; split at h <;> rcases h with h | h <;> simp at h)
  have hbegin (s : Scan) (h : (stateBeginValue s c).2 = .endObject ∨ (stateBeginValue s c).2 = .endArray) : c = 125 ∨ c = 93 := by
    exfalso
    unfold stateBeginValue Scan.push at h
    repeat' split at h
    all_goals rcases h with h | h <;> simp at h
    all_goals split at h <;> cases h
  have hstring (s : Scan) (h : (stateBeginString s c).2 = .endObject ∨ (stateBeginString s c).2 = .endArray) : c = 125 ∨ c = 93 := by
    exfalso
    unfold stateBeginString at h
    repeat' split at h
    all_goals rcases h with h | h <;> simp at h
  have h0 (s : Scan) (h : (state0 s c).2 = .endObject ∨ (state0 s c).2 = .endArray) : c = 125 ∨ c = 93 := by
    unfold state0 at h
    repeat' split at h
    all_goals
      first
      | exact hend _ h
      | (rcases h with h | h <;> (simp at h; done))
  have hwant {s : Scan} {ok : Bool} {st : St} (h : (want s ok st).2 = .endObject ∨ (want s ok st).2 = .endArray) : c = 125 ∨ c = 93 := by
    exfalso
    unfold want at h
    split at h <;> rcases h with h | h <;> simp at h
  have hsign (s : Scan) (h : (stateESign s c).2 = .endObject ∨ (stateESign s c).2 = .endArray) : c = 125 ∨ c = 93 := by
    exfalso
    unfold stateESign at h
    split at h <;> rcases h with h | h <;> simp at h
  obtain ⟨st, ps, e⟩ := s
  cases st <;> unfold Scan.next at h <;> simp only at h <;> repeat' split at h
  all_goals
    first
    | exact hend _ h
    | exact hbegin _ h
    | exact hstring _ h
    | exact h0 _ h
    | exact hwant h
    | exact hsign _ h
    | (exfalso; rcases h with h | h <;> cases h; done)
    | (exfalso; unfold stateEndTop at h; split at h <;> rcases h with h | h <;> cases h)

/-- One turn of the loop. -/
theorem ind_chunk {ind : GoStr} (hind : Ws ind) {i i' : Ind} {c : Byte} (hi : Inner i.scan) (hn : i.needIndent = true → Skips i.scan.step) (h : i.next ind c = some i') :
    i'.scan = (i.scan.next c).1 ∧ (i.scan.next c).2 ≠ .error ∧ (i'.needIndent = true → Skips i'.scan.step) ∧
      ∃ g, i'.dst = i.dst ++ g ∧ ∀ x, i'.scan.acc x = true → i.scan.acc (g ++ x) = true := by
  unfold Ind.next at h
  simp only at h
  by_cases hk : (i.scan.next c).2 = .skipSpace
  · rw [if_pos hk] at h
    cases h
    have hb : ¬ Solid (i.scan.next c).2 := fun hs => hs.1 hk
    refine ⟨rfl, by rw [hk]; decide, ?_, [], by simp, fun x hx => acc_drop hi hb hx⟩
    intro hx
    have hs := hn hx
    obtain ⟨_, ⟨st, ps, h1, h2, h3⟩ | ⟨h1, h3⟩ | ⟨st, h1, h2, h3⟩ | ⟨st, p, ps, h1, h2, h3⟩⟩ := next_blank hi hb
    · show Skips (i.scan.next c).1.step
      rw [h3]; exact hs
    · rw [h1] at hs; rcases hs with h | h | h | h <;> cases h
    · rw [h1] at hs; rcases h2 with rfl | rfl | rfl | rfl | rfl <;> rcases hs with h | h | h | h <;> cases h
    · rw [h1] at hs; rcases h2 with rfl | rfl | rfl | rfl | rfl <;> rcases hs with h | h | h | h <;> cases h
  rw [if_neg hk] at h
  by_cases he : (i.scan.next c).2 = .error
  · rw [if_pos he] at h; cases h
  rw [if_neg he] at h
  generalize hi1 : (if i.needIndent && decide ((i.scan.next c).2 ≠ .endObject) && decide ((i.scan.next c).2 ≠ .endArray) then
      ({ scan := (i.scan.next c).1, needIndent := false, depth := i.depth + 1, dst := i.dst ++ newline ind (i.depth + 1) } : Ind)
    else { scan := (i.scan.next c).1, needIndent := i.needIndent, depth := i.depth, dst := i.dst }) = i1 at h
  have h1 : ∃ pre, Ws pre ∧ i1.dst = i.dst ++ pre ∧ i1.scan = (i.scan.next c).1 ∧ (pre = [] ∨ Skips i.scan.step) ∧
      (i1.needIndent = true → (i.scan.next c).2 = .endObject ∨ (i.scan.next c).2 = .endArray) := by
    subst hi1
    split
    · rename_i hx
      simp only [Bool.and_eq_true] at hx
      exact ⟨newline ind (i.depth + 1), ws_newline hind _, rfl, rfl, .inr (hn hx.1.1), by simp⟩
    · rename_i hx
      refine ⟨[], ws_nil, by simp, rfl, .inl rfl, fun hy => ?_⟩
      replace hy : i.needIndent = true := hy
      simp only [hy, Bool.true_and, Bool.and_eq_true, decide_eq_true_eq] at hx
      by_cases h2 : (i.scan.next c).2 = .endObject
      · exact .inl h2
      · exact .inr (Decidable.of_not_not fun h3 => hx ⟨h2, h3⟩)
  obtain ⟨pre, hpre, hd, hs, hp, hni⟩ := h1
  clear hi1
  have step {x : GoStr} (hx : (i.scan.next c).1.acc x = true) : i.scan.acc (c :: x) = true := by
    rw [acc_cons, accr, decide_eq_true he, hx]; rfl
  have before {y : GoStr} (hy : i.scan.acc y = true) : i.scan.acc (pre ++ y) = true := by
    rcases hp with rfl | hp
    · exact hy
    · rw [acc_skip_ws hi hp hpre]; exact hy
  have after {post : GoStr} (hpost : Ws post) (hq : Skips (i.scan.next c).1.step) {x : GoStr} (hx : (i.scan.next c).1.acc x = true) : (i.scan.next c).1.acc (post ++ x) = true := by
    rw [acc_skip_ws (inner_next hi c) hq hpost]; exact hx
  by_cases hc : (i.scan.next c).2 = .continue
  · rw [if_pos hc] at h
    cases h
    refine ⟨hs, he, ?_, pre ++ [c], by simp [hd], fun x hx => ?_⟩
    · intro hx
      rcases hni hx with h | h <;> rw [hc] at h <;> cases h
    · rw [List.append_assoc]; exact before (step (hs ▸ hx))
  rw [if_neg hc] at h
  have hm : Mark (i.scan.next c).2 := ⟨hc, hk, he⟩
  by_cases h1 : c = 123 ∨ c = 91
  · rw [if_pos h1] at h
    cases h
    have hq := mark_open hi (by rcases h1 with h | h <;> simp [h]) hm
    refine ⟨hs, he, fun _ => by show Skips i1.scan.step; rw [hs]; exact hq, pre ++ [c], by simp [hd], fun x hx => ?_⟩
    rw [List.append_assoc]; exact before (step (hs ▸ hx))
  rw [if_neg h1] at h
  by_cases h2 : c = 44
  · rw [if_pos h2] at h
    cases h
    have hq := mark_open hi (.inr (.inr (.inl h2))) hm
    refine ⟨hs, he, fun _ => by show Skips i1.scan.step; rw [hs]; exact hq, pre ++ [c] ++ newline ind i1.depth, by simp [hd], fun x hx => ?_⟩
    rw [List.append_assoc, List.append_assoc]
    exact before (step (after (ws_newline hind _) hq (hs ▸ hx)))
  rw [if_neg h2] at h
  by_cases h3 : c = 58
  · rw [if_pos h3] at h
    cases h
    have hq := mark_open hi (.inr (.inr (.inr h3))) hm
    refine ⟨hs, he, fun _ => by show Skips i1.scan.step; rw [hs]; exact hq, pre ++ [c] ++ [32], by simp [hd], fun x hx => ?_⟩
    rw [List.append_assoc, List.append_assoc]
    exact before (step (after (ws_cons.2 ⟨rfl, ws_nil⟩) hq (hs ▸ hx)))
  rw [if_neg h3] at h
  by_cases h4 : c = 125 ∨ c = 93
  · rw [if_pos h4] at h
    cases hb : i1.needIndent
    · rw [hb] at h
      simp only [Bool.false_eq_true, if_false] at h
      cases h
      refine ⟨hs, he, fun hx => (by cases hx), pre ++ newline ind (i1.depth - 1) ++ [c], by simp [hd], fun x hx => ?_⟩
      rw [List.append_assoc, List.append_assoc]
      exact before (mark_close hi h4 hm (ws_newline hind _) (step (hs ▸ hx)))
    · rw [hb] at h
      simp only [if_true] at h
      cases h
      refine ⟨hs, he, fun hx => (by cases hx), pre ++ [c], by simp [hd], fun x hx => ?_⟩
      rw [List.append_assoc]; exact before (step (hs ▸ hx))
  · rw [if_neg h4] at h
    cases h
    refine ⟨hs, he, fun hx => absurd (close_byte (hni hx)) h4, pre ++ [c], by simp [hd], fun x hx => ?_⟩
    rw [List.append_assoc]; exact before (step (hs ▸ hx))

theorem ind_none {ind : GoStr} {i : Ind} {c : Byte} (h : i.next ind c = none) : (i.scan.next c).2 = .error := by
  unfold Ind.next at h
  simp only at h
  by_cases hk : (i.scan.next c).2 = .skipSpace
  · rw [if_pos hk] at h; cases h
  rw [if_neg hk] at h
  by_cases he : (i.scan.next c).2 = .error
  · exact he
  rw [if_neg he] at h
  repeat' split at h
  all_goals cases h

theorem ind_run {ind : GoStr} (hind : Ws ind) : ∀ (t : GoStr) {i i' : Ind}, Inner i.scan → (i.needIndent = true → Skips i.scan.step) → i.run ind t = some i' →
    i.scan.acc t = i'.scan.eof ∧ ∃ g, i'.dst = i.dst ++ g ∧ (i'.scan.eof = true → i.scan.acc g = true)
  | [], i, i', _, _, h => by
    rw [Ind.run] at h; cases h
    exact ⟨rfl, [], by simp, id⟩
  | c :: t, i, i', hi, hn, h => by
    rw [Ind.run] at h
    cases hs : i.next ind c with
    | none => rw [hs] at h; cases h
    | some j =>
      rw [hs] at h
      obtain ⟨h1, h2, h3, g, h4, h5⟩ := ind_chunk hind hi hn hs
      obtain ⟨h6, g', h7, h8⟩ := ind_run hind t (by rw [h1]; exact inner_next hi c) h3 h
      refine ⟨?_, g ++ g', by rw [h7, h4, List.append_assoc], fun he => h5 _ (h8 he)⟩
      rw [acc_cons, accr, decide_eq_true h2, ← h1, h6]; rfl

theorem ind_run_none {ind : GoStr} (hind : Ws ind) : ∀ (t : GoStr) {i : Ind}, Inner i.scan → (i.needIndent = true → Skips i.scan.step) → i.run ind t = none → i.scan.acc t = false
  | [], i, _, _, h => by rw [Ind.run] at h; cases h
  | c :: t, i, hi, hn, h => by
    rw [Ind.run] at h
    cases hs : i.next ind c with
    | none => rw [acc_cons, accr, ind_none hs]; simp
    | some j =>
      rw [hs] at h
      obtain ⟨h1, h2, h3, _⟩ := ind_chunk hind hi hn hs
      rw [acc_cons, accr, ← h1, ind_run_none hind t (by rw [h1]; exact inner_next hi c) h3 h]; simp

/-- `Indent` has an error exactly if the scanner does not accept. -/
theorem indent_acc {ind : GoStr} (hind : Ws ind) (t : GoStr) : (∃ u, indent t ind = .ok u) ↔ ({} : Scan).acc t = true := by
  unfold indent
  cases h : ({} : Ind).run ind t with
  | none => rw [show ({} : Scan).acc t = false from ind_run_none hind t (i := {}) inner_start (by intro h; cases h) h]; simp
  | some i =>
    rw [show ({} : Scan).acc t = i.scan.eof from (ind_run hind t (i := {}) inner_start (by intro h; cases h) h).1]
    simp only
    by_cases he : i.scan.eof = true
    · simp [he]
    · simp [he]

/-- What `Indent` puts out is a text. -/
theorem indent_out {ind : GoStr} (hind : Ws ind) {t u : GoStr} (h : indent t ind = .ok u) : ({} : Scan).acc u = true := by
  unfold indent at h
  cases hq : ({} : Ind).run ind t with
  | none => rw [hq] at h; cases h
  | some i =>
    rw [hq] at h
    simp only at h
    obtain ⟨_, g, h1, h2⟩ := ind_run hind t (i := {}) inner_start (by intro h; cases h) hq
    by_cases he : i.scan.eof = true
    · rw [if_pos he] at h
      cases h
      rw [h1]; exact h2 he
    · rw [if_neg he] at h; cases h

end Verif.Json
