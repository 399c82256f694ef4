import Verif.Proofs.JsonGrammar

/-!
# Values, arrays and objects
-/

set_option autoImplicit false

namespace Verif.Json
open Spec.Json (Ws Digs IsInt IsFrac IsExp IsNumber Hexdig IsChars IsValue IsElements IsMembers IsText)

/-- The states in which blanks are skipped. -/
def Skips (st : St) : Prop := st = .beginValue ∨ st = .beginValueOrEmpty ∨ st = .beginString ∨ st = .beginStringOrEmpty

theorem acc_blank {st : St} (hs : Skips st) (ps : List Ps) {c : Byte} (hc : isSpace c = true) (t : GoStr) : (S st ps).acc (c :: t) = (S st ps).acc t := by
  rcases hs with rfl | rfl | rfl | rfl <;> simp [acc_cons, Scan.next, stateBeginValue, stateBeginString, hc, accr]

theorem acc_ws {st : St} (hs : Skips st) (ps : List Ps) {w : GoStr} (hw : Ws w) (t : GoStr) : (S st ps).acc (w ++ t) = (S st ps).acc t := by
  induction w with
  | nil => rfl
  | cons c w ih => rw [List.cons_append, acc_blank hs ps (ws_cons.1 hw).1, ih (ws_cons.1 hw).2]

theorem acc_end_ws (p : Ps) (ps : List Ps) {w : GoStr} (hw : Ws w) (t : GoStr) : (S .endValue (p :: ps)).acc (w ++ t) = (S .endValue (p :: ps)).acc t := by
  induction w with
  | nil => rfl
  | cons c w ih =>
    rw [List.cons_append, ← ih (ws_cons.1 hw).2, acc_cons]
    have h := (ws_cons.1 hw).1
    simp [Scan.next, stateEndValue, h, accr]

/-- The first byte that is not blank. -/
theorem split_ws : ∀ t : GoStr, ∃ w r, t = w ++ r ∧ Ws w ∧ ∀ c r', r = c :: r' → isSpace c = false
  | [] => ⟨[], [], rfl, ws_nil, by intro c r' h; cases h⟩
  | c :: t => by
    cases hc : isSpace c
    · exact ⟨[], c :: t, rfl, ws_nil, by intro c' r' h; obtain ⟨rfl, _⟩ := List.cons.inj h; exact hc⟩
    · obtain ⟨w, r, rfl, hw, h⟩ := split_ws t
      exact ⟨c :: w, r, rfl, ws_cons.2 ⟨hc, hw⟩, h⟩

/-- What may come after an element of an array. -/
theorem acc_after_element (ps : List Ps) (t : GoStr) : (S .endValue (.arrayValue :: ps)).acc t = true ↔
    ∃ w r, Ws w ∧ ((t = w ++ 44 :: r ∧ (S .beginValue (.arrayValue :: ps)).acc r = true) ∨ (t = w ++ 93 :: r ∧ (S .endValue ps).acc r = true)) := by
  have comma (r : GoStr) : (S .endValue (.arrayValue :: ps)).acc (44 :: r) = (S .beginValue (.arrayValue :: ps)).acc r := rfl
  have bracket (r : GoStr) : (S .endValue (.arrayValue :: ps)).acc (93 :: r) = (S .endValue ps).acc r := by
    exact acc_pop .endValue .arrayValue ps r
  constructor
  · intro h
    obtain ⟨w, r, rfl, hw, hr⟩ := split_ws t
    rw [acc_end_ws _ _ hw] at h
    cases r with
    | nil => cases h
    | cons c r =>
      have hc := hr c r rfl
      by_cases h1 : c = 44
      · subst h1; exact ⟨w, r, hw, .inl ⟨rfl, by rw [← comma]; exact h⟩⟩
      · by_cases h2 : c = 93
        · subst h2; exact ⟨w, r, hw, .inr ⟨rfl, by rw [← bracket]; exact h⟩⟩
        · simp [acc_cons, Scan.next, stateEndValue, hc, h1, h2, accr] at h
  · rintro ⟨w, r, hw, ⟨rfl, h⟩ | ⟨rfl, h⟩⟩
    · rw [acc_end_ws _ _ hw, comma]; exact h
    · rw [acc_end_ws _ _ hw, bracket]; exact h

/-- What may come after a member of an object. -/
theorem acc_after_member (ps : List Ps) (t : GoStr) : (S .endValue (.objectValue :: ps)).acc t = true ↔
    ∃ w r, Ws w ∧ ((t = w ++ 44 :: r ∧ (S .beginString (.objectKey :: ps)).acc r = true) ∨ (t = w ++ 125 :: r ∧ (S .endValue ps).acc r = true)) := by
  have comma (r : GoStr) : (S .endValue (.objectValue :: ps)).acc (44 :: r) = (S .beginString (.objectKey :: ps)).acc r := rfl
  have brace (r : GoStr) : (S .endValue (.objectValue :: ps)).acc (125 :: r) = (S .endValue ps).acc r := by
    exact acc_pop .endValue .objectValue ps r
  constructor
  · intro h
    obtain ⟨w, r, rfl, hw, hr⟩ := split_ws t
    rw [acc_end_ws _ _ hw] at h
    cases r with
    | nil => cases h
    | cons c r =>
      have hc := hr c r rfl
      by_cases h1 : c = 44
      · subst h1; exact ⟨w, r, hw, .inl ⟨rfl, by rw [← comma]; exact h⟩⟩
      · by_cases h2 : c = 125
        · subst h2; exact ⟨w, r, hw, .inr ⟨rfl, by rw [← brace]; exact h⟩⟩
        · simp [acc_cons, Scan.next, stateEndValue, hc, h1, h2, accr] at h
  · rintro ⟨w, r, hw, ⟨rfl, h⟩ | ⟨rfl, h⟩⟩
    · rw [acc_end_ws _ _ hw, comma]; exact h
    · rw [acc_end_ws _ _ hw, brace]; exact h

/-- What may come after a name. -/
theorem acc_after_name (ps : List Ps) (t : GoStr) : (S .endValue (.objectKey :: ps)).acc t = true ↔
    ∃ w r, Ws w ∧ t = w ++ 58 :: r ∧ (S .beginValue (.objectValue :: ps)).acc r = true := by
  have colon (r : GoStr) : (S .endValue (.objectKey :: ps)).acc (58 :: r) = (S .beginValue (.objectValue :: ps)).acc r := rfl
  constructor
  · intro h
    obtain ⟨w, r, rfl, hw, hr⟩ := split_ws t
    rw [acc_end_ws _ _ hw] at h
    cases r with
    | nil => cases h
    | cons c r =>
      have hc := hr c r rfl
      by_cases h1 : c = 58
      · subst h1; exact ⟨w, r, hw, rfl, by rw [← colon]; exact h⟩
      · simp [acc_cons, Scan.next, stateEndValue, hc, h1, accr] at h
  · rintro ⟨w, r, hw, rfl, h⟩
    rw [acc_end_ws _ _ hw, colon]; exact h

theorem begin_same (st st' : St) (ps : List Ps) {c : Byte} (hc : isSpace c = false) (t : GoStr) : accr (stateBeginValue (S st ps) c) t = accr (stateBeginValue (S st' ps) c) t := by
  unfold stateBeginValue
  simp only [hc, Bool.false_eq_true, if_false]
  iterate 9
    first
      | rfl
      | (split; · rfl)
  rfl

theorem begin_string_same (st st' : St) (ps : List Ps) {c : Byte} (hc : isSpace c = false) (t : GoStr) : accr (stateBeginString (S st ps) c) t = accr (stateBeginString (S st' ps) c) t := by
  unfold stateBeginString
  simp only [hc, Bool.false_eq_true, if_false]
  split <;> rfl

/-- After an opening bracket: nothing, or elements. -/
theorem acc_open (ps : List Ps) (t : GoStr) : (S .beginValueOrEmpty (.arrayValue :: ps)).acc t = true ↔
    (∃ w r, t = w ++ 93 :: r ∧ Ws w ∧ (S .endValue ps).acc r = true) ∨ (S .beginValue (.arrayValue :: ps)).acc t = true := by
  induction t with
  | nil =>
    constructor
    · intro h; cases h
    · rintro (⟨w, r, h, _⟩ | h)
      · simp at h
      · cases h
  | cons c t ih =>
    by_cases hc : isSpace c = true
    · rw [acc_blank (.inr (.inl rfl)) _ hc, acc_blank (.inl rfl) _ hc, ih]
      refine or_congr ⟨?_, ?_⟩ Iff.rfl
      · rintro ⟨w, r, rfl, hw, h⟩; exact ⟨c :: w, r, rfl, ws_cons.2 ⟨hc, hw⟩, h⟩
      · rintro ⟨w, r, h, hw, h'⟩
        cases w with
        | nil => obtain ⟨rfl, _⟩ := List.cons.inj h; cases hc
        | cons b w => obtain ⟨_, rfl⟩ := List.cons.inj h; exact ⟨w, r, rfl, (ws_cons.1 hw).2, h'⟩
    · replace hc : isSpace c = false := by simpa using hc
      have hn : (S .beginValueOrEmpty (.arrayValue :: ps)).next c = if isSpace c then (S .beginValueOrEmpty (.arrayValue :: ps), .skipSpace)
        else if c = 93 then stateEndValue (S .beginValueOrEmpty (.arrayValue :: ps)) c else stateBeginValue (S .beginValueOrEmpty (.arrayValue :: ps)) c := rfl
      rw [acc_cons, hn, if_neg (by simp [hc])]
      by_cases h1 : c = 93
      · subst h1
        rw [if_pos rfl]
        have hb : accr (stateEndValue (S .beginValueOrEmpty (.arrayValue :: ps)) 93) t = (S .endValue ps).acc t := acc_pop _ .arrayValue ps t
        rw [hb]
        constructor
        · intro h; exact .inl ⟨[], t, rfl, ws_nil, h⟩
        · rintro (⟨w, r, h, hw, h'⟩ | h)
          · cases w with
            | nil => obtain ⟨_, rfl⟩ := List.cons.inj h; exact h'
            | cons b w => obtain ⟨rfl, _⟩ := List.cons.inj h; have := (ws_cons.1 hw).1; cases this
          · cases h
      · rw [if_neg h1, begin_same .beginValueOrEmpty .beginValue _ hc]
        constructor
        · intro h; exact .inr h
        · rintro (⟨w, r, h, hw, h'⟩ | h)
          · cases w with
            | nil => obtain ⟨rfl, _⟩ := List.cons.inj h; exact absurd rfl h1
            | cons b w => obtain ⟨rfl, _⟩ := List.cons.inj h; rw [(ws_cons.1 hw).1] at hc; cases hc
          · exact h

/-- After an opening brace: nothing, or members. -/
theorem acc_openObj (ps : List Ps) (t : GoStr) : (S .beginStringOrEmpty (.objectKey :: ps)).acc t = true ↔
    (∃ w r, t = w ++ 125 :: r ∧ Ws w ∧ (S .endValue ps).acc r = true) ∨ (S .beginString (.objectKey :: ps)).acc t = true := by
  induction t with
  | nil =>
    constructor
    · intro h; cases h
    · rintro (⟨w, r, h, _⟩ | h)
      · simp at h
      · cases h
  | cons c t ih =>
    by_cases hc : isSpace c = true
    · rw [acc_blank (.inr (.inr (.inr rfl))) _ hc, acc_blank (.inr (.inr (.inl rfl))) _ hc, ih]
      refine or_congr ⟨?_, ?_⟩ Iff.rfl
      · rintro ⟨w, r, rfl, hw, h⟩; exact ⟨c :: w, r, rfl, ws_cons.2 ⟨hc, hw⟩, h⟩
      · rintro ⟨w, r, h, hw, h'⟩
        cases w with
        | nil => obtain ⟨rfl, _⟩ := List.cons.inj h; cases hc
        | cons b w => obtain ⟨_, rfl⟩ := List.cons.inj h; exact ⟨w, r, rfl, (ws_cons.1 hw).2, h'⟩
    · replace hc : isSpace c = false := by simpa using hc
      have hn : (S .beginStringOrEmpty (.objectKey :: ps)).next c = if isSpace c then (S .beginStringOrEmpty (.objectKey :: ps), .skipSpace)
        else if c = 125 then stateEndValue (S .beginStringOrEmpty (.objectValue :: ps)) c else stateBeginString (S .beginStringOrEmpty (.objectKey :: ps)) c := rfl
      rw [acc_cons, hn, if_neg (by simp [hc])]
      by_cases h1 : c = 125
      · subst h1
        rw [if_pos rfl]
        have hb : accr (stateEndValue (S .beginStringOrEmpty (.objectValue :: ps)) 125) t = (S .endValue ps).acc t := acc_pop _ .objectValue ps t
        rw [hb]
        constructor
        · intro h; exact .inl ⟨[], t, rfl, ws_nil, h⟩
        · rintro (⟨w, r, h, hw, h'⟩ | h)
          · cases w with
            | nil => obtain ⟨_, rfl⟩ := List.cons.inj h; exact h'
            | cons b w => obtain ⟨rfl, _⟩ := List.cons.inj h; have := (ws_cons.1 hw).1; cases this
          · cases h
      · rw [if_neg h1, begin_string_same .beginStringOrEmpty .beginString _ hc]
        constructor
        · intro h; exact .inr h
        · rintro (⟨w, r, h, hw, h'⟩ | h)
          · cases w with
            | nil => obtain ⟨rfl, _⟩ := List.cons.inj h; exact absurd rfl h1
            | cons b w => obtain ⟨rfl, _⟩ := List.cons.inj h; rw [(ws_cons.1 hw).1] at hc; cases hc
          · exact h

/-! ## Texts of the grammar are accepted -/

theorem acc_begin_ws (ps : List Ps) {w : GoStr} (hw : Ws w) (t : GoStr) : (S .beginValue ps).acc (w ++ t) = (S .beginValue ps).acc t := acc_ws (.inl rfl) ps hw t

theorem acc_quote (ps : List Ps) (t : GoStr) : (S .beginValue ps).acc (34 :: t) = (S .inString ps).acc t := rfl

theorem acc_name_quote (ps : List Ps) (t : GoStr) : (S .beginString ps).acc (34 :: t) = (S .inString ps).acc t := rfl

theorem acc_array (ps : List Ps) (t : GoStr) : (S .beginValue ps).acc (91 :: t) = true ↔ ps.length + 1 ≤ maxNesting ∧ (S .beginValueOrEmpty (.arrayValue :: ps)).acc t = true := by
  have : (S .beginValue ps).acc (91 :: t) = accr (S .beginValueOrEmpty (.arrayValue :: ps), if ps.length + 1 ≤ maxNesting then .beginArray else .error) t := rfl
  rw [this]
  by_cases h : ps.length + 1 ≤ maxNesting
  · simp [accr, h]
  · simp [accr, h]

theorem acc_object (ps : List Ps) (t : GoStr) : (S .beginValue ps).acc (123 :: t) = true ↔ ps.length + 1 ≤ maxNesting ∧ (S .beginStringOrEmpty (.objectKey :: ps)).acc t = true := by
  have : (S .beginValue ps).acc (123 :: t) = accr (S .beginStringOrEmpty (.objectKey :: ps), if ps.length + 1 ≤ maxNesting then .beginObject else .error) t := rfl
  rw [this]
  by_cases h : ps.length + 1 ≤ maxNesting
  · simp [accr, h]
  · simp [accr, h]

theorem begin_digit (ps : List Ps) {c : Byte} (hc : digit c = true) (t : GoStr) : (S .beginValue ps).acc (c :: t) =
    accr (if c = 48 then (S .zero ps, .beginLiteral) else if 49 ≤ c && c ≤ 57 then (S .one ps, .beginLiteral) else (S .beginValue ps, .error)) t := by
  have h : isSpace c = false ∧ c ≠ 123 ∧ c ≠ 91 ∧ c ≠ 34 ∧ c ≠ 45 ∧ c ≠ 116 ∧ c ≠ 102 ∧ c ≠ 110 := by
    revert hc
    exact forall_byte (P := fun c => digit c = true → isSpace c = false ∧ c ≠ 123 ∧ c ≠ 91 ∧ c ≠ 34 ∧ c ≠ 45 ∧ c ≠ 116 ∧ c ≠ 102 ∧ c ≠ 110) (by decide +kernel) c
  obtain ⟨h1, h2, h3, h4, h5, h6, h7, h8⟩ := h
  have : (S .beginValue ps).next c = stateBeginValue (S .beginValue ps) c := rfl
  rw [acc_cons, this]
  unfold stateBeginValue
  simp only [h1, h2, h3, h4, h5, h6, h7, h8, Bool.false_eq_true, if_false]

theorem int_cons {i : GoStr} (h : IsInt i) : ∃ c d, i = c :: d ∧ digit c = true := by
  cases h with
  | zero => exact ⟨48, [], rfl, rfl⟩
  | @pos b d h1 h2 h3 => exact ⟨b, d, rfl, (digit_iff b).2 ⟨by omega, h2⟩⟩

theorem acc_number (ps : List Ps) {t : GoStr} (h : IsNumber t) {r : GoStr} (hr : (S .endValue ps).acc r = true) : (S .beginValue ps).acc (t ++ r) = true := by
  obtain ⟨s, i, f, x, rfl, hs, hi, hf, hx⟩ := h
  rcases hs with rfl | rfl
  · obtain ⟨c, d, rfl, hc⟩ := int_cons hi
    show (S .beginValue ps).acc (c :: (d ++ f ++ x ++ r)) = true
    rw [begin_digit ps hc, accr_int ps _ _ (by decide)]
    exact ⟨c :: d, f, x, r, rfl, hi, hf, hx, hr⟩
  · show (S .beginValue ps).acc (45 :: (i ++ f ++ x ++ r)) = true
    have : (S .beginValue ps).acc (45 :: (i ++ f ++ x ++ r)) = (S .neg ps).acc (i ++ f ++ x ++ r) := rfl
    rw [this, acc_neg]
    exact ⟨i, f, x, r, rfl, hi, hf, hx, hr⟩

mutual

theorem acc_value : ∀ {n : Nat} {v : GoStr}, IsValue n v → ∀ (ps : List Ps) (r : GoStr), ps.length + n ≤ maxNesting → (S .endValue ps).acc r = true →
    (S .beginValue ps).acc (v ++ r) = true
  | _, _, .null, ps, r, _, hr => (acc_ull ps _).2 ⟨r, rfl, hr⟩
  | _, _, .yes, ps, r, _, hr => (acc_rue ps _).2 ⟨r, rfl, hr⟩
  | _, _, .no, ps, r, _, hr => (acc_alse ps _).2 ⟨r, rfl, hr⟩
  | _, _, .number h, ps, r, _, hr => acc_number ps h hr
  | _, _, .string (t := t) h, ps, r, _, hr => by
    rw [show ([34] ++ t ++ [34] ++ r : GoStr) = 34 :: (t ++ 34 :: r) by simp, acc_quote]
    exact chars_acc ps h hr
  | _, _, .noElement (w := w) hw, ps, r, hn, hr => by
    rw [show ([91] ++ w ++ [93] ++ r : GoStr) = 91 :: (w ++ 93 :: r) by simp, acc_array, acc_open]
    exact ⟨hn, .inl ⟨w, r, rfl, hw, hr⟩⟩
  | _, _, .array (t := t) h, ps, r, hn, hr => by
    rw [show ([91] ++ t ++ [93] ++ r : GoStr) = 91 :: (t ++ 93 :: r) by simp, acc_array, acc_open]
    exact ⟨by omega, .inr (acc_elements h ps r (by omega) hr)⟩
  | _, _, .noMember (w := w) hw, ps, r, hn, hr => by
    rw [show ([123] ++ w ++ [125] ++ r : GoStr) = 123 :: (w ++ 125 :: r) by simp, acc_object, acc_openObj]
    exact ⟨hn, .inl ⟨w, r, rfl, hw, hr⟩⟩
  | _, _, .object (t := t) h, ps, r, hn, hr => by
    rw [show ([123] ++ t ++ [125] ++ r : GoStr) = 123 :: (t ++ 125 :: r) by simp, acc_object, acc_openObj]
    exact ⟨by omega, .inr (acc_members h ps r (by omega) hr)⟩

theorem acc_elements : ∀ {n : Nat} {t : GoStr}, IsElements n t → ∀ (ps : List Ps) (r : GoStr), ps.length + 1 + n ≤ maxNesting → (S .endValue ps).acc r = true →
    (S .beginValue (.arrayValue :: ps)).acc (t ++ 93 :: r) = true
  | _, _, .one (w := w) (v := v) (w' := w') h1 h2 h3, ps, r, hn, hr => by
    rw [show (w ++ v ++ w' ++ 93 :: r : GoStr) = w ++ (v ++ (w' ++ 93 :: r)) by simp, acc_begin_ws _ h1]
    exact acc_value h2 _ _ hn ((acc_after_element ps _).2 ⟨w', r, h3, .inr ⟨rfl, hr⟩⟩)
  | _, _, .more (w := w) (v := v) (w' := w') (t := t) h1 h2 h3 h4, ps, r, hn, hr => by
    rw [show (w ++ v ++ w' ++ [44] ++ t ++ 93 :: r : GoStr) = w ++ (v ++ (w' ++ 44 :: (t ++ 93 :: r))) by simp, acc_begin_ws _ h1]
    exact acc_value h2 _ _ (by show ps.length + 1 + _ ≤ _; omega) ((acc_after_element ps _).2 ⟨w', _, h3, .inl ⟨rfl, acc_elements h4 ps r (by omega) hr⟩⟩)

theorem acc_members : ∀ {n : Nat} {t : GoStr}, IsMembers n t → ∀ (ps : List Ps) (r : GoStr), ps.length + 1 + n ≤ maxNesting → (S .endValue ps).acc r = true →
    (S .beginString (.objectKey :: ps)).acc (t ++ 125 :: r) = true
  | _, _, .one (w := w) (k := k) (w1 := w1) (w2 := w2) (v := v) (w' := w') h1 h2 h3 h4 h5 h6, ps, r, hn, hr => by
    rw [show (w ++ ([34] ++ k ++ [34]) ++ w1 ++ [58] ++ w2 ++ v ++ w' ++ 125 :: r : GoStr) = w ++ 34 :: (k ++ 34 :: (w1 ++ 58 :: (w2 ++ (v ++ (w' ++ 125 :: r))))) by simp,
      acc_ws (.inr (.inr (.inl rfl))) _ h1, acc_name_quote]
    refine chars_acc _ h2 ((acc_after_name ps _).2 ⟨w1, _, h3, rfl, ?_⟩)
    rw [acc_begin_ws _ h4]
    exact acc_value h5 _ _ hn ((acc_after_member ps _).2 ⟨w', r, h6, .inr ⟨rfl, hr⟩⟩)
  | _, _, .more (w := w) (k := k) (w1 := w1) (w2 := w2) (v := v) (w' := w') (t := t) h1 h2 h3 h4 h5 h6 h7, ps, r, hn, hr => by
    rw [show (w ++ ([34] ++ k ++ [34]) ++ w1 ++ [58] ++ w2 ++ v ++ w' ++ [44] ++ t ++ 125 :: r : GoStr) =
        w ++ 34 :: (k ++ 34 :: (w1 ++ 58 :: (w2 ++ (v ++ (w' ++ 44 :: (t ++ 125 :: r)))))) by simp,
      acc_ws (.inr (.inr (.inl rfl))) _ h1, acc_name_quote]
    refine chars_acc _ h2 ((acc_after_name ps _).2 ⟨w1, _, h3, rfl, ?_⟩)
    rw [acc_begin_ws _ h4]
    exact acc_value h5 _ _ (by show ps.length + 1 + _ ≤ _; omega) ((acc_after_member ps _).2 ⟨w', _, h6, .inl ⟨rfl, acc_members h7 ps r (by omega) hr⟩⟩)

end

/-! ## What is accepted is of the grammar -/

def ValueAt (L : Nat) : Prop := ∀ (t : GoStr), t.length ≤ L → ∀ ps : List Ps, (S .beginValue ps).acc t = true → ps.length ≤ maxNesting →
  ∃ n w v r, t = w ++ v ++ r ∧ Ws w ∧ IsValue n v ∧ v ≠ [] ∧ ps.length + n ≤ maxNesting ∧ (S .endValue ps).acc r = true

def ElementsAt (L : Nat) : Prop := ∀ (t : GoStr), t.length ≤ L → ∀ ps : List Ps, (S .beginValue (.arrayValue :: ps)).acc t = true → ps.length + 1 ≤ maxNesting →
  ∃ n e r, t = e ++ 93 :: r ∧ IsElements n e ∧ ps.length + 1 + n ≤ maxNesting ∧ (S .endValue ps).acc r = true

def MembersAt (L : Nat) : Prop := ∀ (t : GoStr), t.length ≤ L → ∀ ps : List Ps, (S .beginString (.objectKey :: ps)).acc t = true → ps.length + 1 ≤ maxNesting →
  ∃ n e r, t = e ++ 125 :: r ∧ IsMembers n e ∧ ps.length + 1 + n ≤ maxNesting ∧ (S .endValue ps).acc r = true

theorem valueAt_first {L : Nat} (he : ElementsAt L) (hm : MembersAt L) (c : Byte) (t : GoStr) (hl : t.length ≤ L) (hc : isSpace c = false) (ps : List Ps)
    (h : (S .beginValue ps).acc (c :: t) = true) (hps : ps.length ≤ maxNesting) :
    ∃ n v r, c :: t = v ++ r ∧ IsValue n v ∧ v ≠ [] ∧ ps.length + n ≤ maxNesting ∧ (S .endValue ps).acc r = true := by
  by_cases h1 : c = 123
  · subst h1
    rw [acc_object, acc_openObj] at h
    rcases h with ⟨hn, ⟨w, r, rfl, hw, hr⟩ | h⟩
    · exact ⟨1, [123] ++ w ++ [125], r, by simp, .noMember hw, by simp, hn, hr⟩
    · obtain ⟨n, e, r, rfl, h2, h3, h4⟩ := hm t hl ps h hn
      exact ⟨n + 1, [123] ++ e ++ [125], r, by simp, .object h2, by simp, by omega, h4⟩
  by_cases h2 : c = 91
  · subst h2
    rw [acc_array, acc_open] at h
    rcases h with ⟨hn, ⟨w, r, rfl, hw, hr⟩ | h⟩
    · exact ⟨1, [91] ++ w ++ [93], r, by simp, .noElement hw, by simp, hn, hr⟩
    · obtain ⟨n, e, r, rfl, h2, h3, h4⟩ := he t hl ps h hn
      exact ⟨n + 1, [91] ++ e ++ [93], r, by simp, .array h2, by simp, by omega, h4⟩
  by_cases h3 : c = 34
  · subst h3
    obtain ⟨q, r, rfl, hq, hr⟩ := acc_chars ps _ t (Nat.le_refl _) h
    exact ⟨0, [34] ++ q ++ [34], r, by simp, .string hq, by simp, by omega, hr⟩
  by_cases h4 : c = 45
  · subst h4
    obtain ⟨i, f, x, r, rfl, hi, hf, hx, hr⟩ := (acc_neg ps t).1 h
    exact ⟨0, [45] ++ i ++ f ++ x, r, by simp, .number ⟨[45], i, f, x, rfl, .inr rfl, hi, hf, hx⟩, by simp, by omega, hr⟩
  by_cases h5 : digit c = true
  · rw [begin_digit ps h5, accr_int ps _ _ (by decide)] at h
    obtain ⟨i, f, x, r, h, hi, hf, hx, hr⟩ := h
    obtain ⟨b, d, rfl, _⟩ := int_cons hi
    exact ⟨0, (b :: d) ++ f ++ x, r, h, .number ⟨[], b :: d, f, x, rfl, .inl rfl, hi, hf, hx⟩, by simp, by omega, hr⟩
  by_cases h6 : c = 116
  · subst h6
    obtain ⟨r, rfl, hr⟩ := (acc_rue ps t).1 h
    exact ⟨0, lit "true", r, rfl, .yes, by decide, by omega, hr⟩
  by_cases h7 : c = 102
  · subst h7
    obtain ⟨r, rfl, hr⟩ := (acc_alse ps t).1 h
    exact ⟨0, lit "false", r, rfl, .no, by decide, by omega, hr⟩
  by_cases h8 : c = 110
  · subst h8
    obtain ⟨r, rfl, hr⟩ := (acc_ull ps t).1 h
    exact ⟨0, lit "null", r, rfl, .null, by decide, by omega, hr⟩
  exfalso
  have hn : (S .beginValue ps).next c = stateBeginValue (S .beginValue ps) c := rfl
  have h0 : c ≠ 48 := by rintro rfl; exact h5 rfl
  have h9 : (49 ≤ c && c ≤ 57) = false := by
    rcases hq : (49 ≤ c && c ≤ 57 : Bool) with _ | _
    · rfl
    · exfalso; apply h5
      simp only [Bool.and_eq_true, decide_eq_true_eq, UInt8.le_iff_toNat_le] at hq
      exact (digit_iff c).2 ⟨Nat.le_trans (by decide) hq.1, hq.2⟩
  rw [acc_cons, hn] at h
  unfold stateBeginValue at h
  simp only [hc, h1, h2, h3, h4, h6, h7, h8, h0, h9, Bool.false_eq_true, if_false] at h
  simp [accr] at h

theorem inverse : ∀ L : Nat, ValueAt L ∧ ElementsAt L ∧ MembersAt L := by
  have val : ∀ L, ElementsAt L → MembersAt L → ValueAt (L + 1) := by
    intro L he hm t hl ps h hps
    obtain ⟨w, r, rfl, hw, hr⟩ := split_ws t
    rw [acc_begin_ws _ hw] at h
    cases r with
    | nil => cases ps <;> cases h
    | cons c r =>
      simp only [List.length_append, List.length_cons] at hl
      obtain ⟨n, v, r', h1, h2, h3, h4⟩ := valueAt_first he hm c r (by omega) (hr c r rfl) ps h hps
      exact ⟨n, w, v, r', by rw [h1, List.append_assoc], hw, h2, h3, h4⟩
  have els : ∀ L, ValueAt (L + 1) → ElementsAt L → ElementsAt (L + 1) := by
    intro L hv he t hl ps h hps
    obtain ⟨n, w, v, r, rfl, h1, h2, h3, h4, h5⟩ := hv t hl _ h hps
    obtain ⟨w', r', hw', ⟨rfl, h6⟩ | ⟨rfl, h6⟩⟩ := (acc_after_element ps r).1 h5
    · simp only [List.length_append, List.length_cons] at hl
      obtain ⟨m, e, r'', rfl, h7, h8, h9⟩ := he r' (by omega) ps h6 hps
      exact ⟨max n m, w ++ v ++ w' ++ [44] ++ e, r'', by simp, .more h1 h2 hw' h7, by have : ps.length + 1 + n ≤ maxNesting := h4; omega, h9⟩
    · exact ⟨n, w ++ v ++ w', r', by simp, .one h1 h2 hw', h4, h6⟩
  have mems : ∀ L, ValueAt L → MembersAt L → MembersAt (L + 1) := by
    intro L hv hm t hl ps h hps
    obtain ⟨w, r, rfl, hw, hr⟩ := split_ws t
    rw [acc_ws (.inr (.inr (.inl rfl))) _ hw] at h
    cases r with
    | nil => cases h
    | cons c r =>
      have hc := hr c r rfl
      by_cases h1 : c = 34
      · subst h1
        rw [acc_name_quote] at h
        obtain ⟨k, r1, rfl, hk, hx⟩ := acc_chars _ _ r (Nat.le_refl _) h
        obtain ⟨w1, r2, hw1, rfl, hy⟩ := (acc_after_name ps r1).1 hx
        simp only [List.length_append, List.length_cons] at hl
        obtain ⟨n, w2, v, r, rfl, hw2, h2, h3, h4, h5⟩ := hv r2 (by omega) _ hy hps
        obtain ⟨w', r', hw', ⟨rfl, h6⟩ | ⟨rfl, h6⟩⟩ := (acc_after_member ps r).1 h5
        · simp only [List.length_append, List.length_cons] at hl
          obtain ⟨m, e, r'', rfl, h7, h8, h9⟩ := hm r' (by omega) ps h6 hps
          exact ⟨max n m, w ++ ([34] ++ k ++ [34]) ++ w1 ++ [58] ++ w2 ++ v ++ w' ++ [44] ++ e, r'', by simp, .more hw hk hw1 hw2 h2 hw' h7,
            by have : ps.length + 1 + n ≤ maxNesting := h4; omega, h9⟩
        · exact ⟨n, w ++ ([34] ++ k ++ [34]) ++ w1 ++ [58] ++ w2 ++ v ++ w', r', by simp, .one hw hk hw1 hw2 h2 hw', h4, h6⟩
      · exfalso
        have hn : (S .beginString (.objectKey :: ps)).next c = stateBeginString (S .beginString (.objectKey :: ps)) c := rfl
        rw [acc_cons, hn] at h
        unfold stateBeginString at h
        simp [hc, h1, accr] at h
  intro L
  induction L with
  | zero =>
    refine ⟨?_, ?_, ?_⟩
    · intro t hl ps h
      rw [List.eq_nil_of_length_eq_zero (by omega : t.length = 0)] at h
      cases ps <;> cases h
    · intro t hl ps h
      rw [List.eq_nil_of_length_eq_zero (by omega : t.length = 0)] at h
      cases h
    · intro t hl ps h
      rw [List.eq_nil_of_length_eq_zero (by omega : t.length = 0)] at h
      cases h
  | succ L ih =>
    have hv := val L ih.2.1 ih.2.2
    exact ⟨hv, els L hv ih.2.1, mems L ih.1 ih.2.2⟩

/-- The scanner accepts exactly the texts that are not nested too deep. -/
theorem acc_text (t : GoStr) : ({} : Scan).acc t = true ↔ ∃ n, n ≤ maxNesting ∧ IsText n t := by
  constructor
  · intro h
    obtain ⟨n, w, v, r, rfl, h1, h2, _, h4, h5⟩ := (inverse t.length).1 t (Nat.le_refl _) [] h (by decide)
    exact ⟨n, by simpa using h4, w, v, r, rfl, h1, h2, (acc_end_top r).1 h5⟩
  · rintro ⟨n, hn, w, v, w', rfl, h1, h2, h3⟩
    show (S .beginValue []).acc (w ++ v ++ w') = true
    rw [List.append_assoc, acc_begin_ws _ h1]
    exact acc_value h2 [] w' (by simpa using hn) ((acc_end_top w').2 h3)

end Verif.Json
