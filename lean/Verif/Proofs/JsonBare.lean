import Verif.Proofs.JsonIndent

/-!
# `compact`, `Indent` and the carriage returns change nothing but blanks outside of strings
-/

set_option autoImplicit false

namespace Verif.Json
open Spec.Json (Ws IsText Place bare SameButBlanks)

/-! ## `bare` -/

def Blank1 (c : Byte) : Prop := c = 32 ∨ c = 9 ∨ c = 10 ∨ c = 13

instance (c : Byte) : Decidable (Blank1 c) := by unfold Blank1; infer_instance

theorem bare_cons (p : Place) (c : Byte) (t : GoStr) : bare p (c :: t) = if p = .out ∧ Blank1 c then bare (p.next c) t else c :: bare (p.next c) t := rfl

theorem space_blank {c : Byte} : isSpace c = true ↔ Blank1 c := by
  unfold isSpace Blank1
  simp only [Bool.or_eq_true, decide_eq_true_eq]
  constructor
  · rintro (((h | h) | h) | h) <;> simp [h]
  · rintro (h | h | h | h) <;> simp [h]

theorem next_blank1 {c : Byte} (h : Blank1 c) : Place.out.next c = .out := by
  rcases h with rfl | rfl | rfl | rfl <;> rfl

theorem bare_ws {w : GoStr} (hw : Ws w) (x : GoStr) : bare .out (w ++ x) = bare .out x := by
  induction w with
  | nil => rfl
  | cons c w ih =>
    have hc : Blank1 c := hw c List.mem_cons_self
    rw [List.cons_append, bare_cons, if_pos ⟨rfl, hc⟩, next_blank1 hc]
    exact ih fun b hb => hw b (List.mem_cons_of_mem _ hb)

theorem bare_append (p : Place) (t x : GoStr) : bare p (t ++ x) = bare p t ++ bare (t.foldl Place.next p) x := by
  induction t generalizing p with
  | nil => rfl
  | cons c t ih =>
    rw [List.cons_append, bare_cons, bare_cons, List.foldl_cons, ih]
    split <;> rfl

theorem bare_bare (p : Place) (t : GoStr) : bare p (bare p t) = bare p t := by
  induction t generalizing p with
  | nil => rfl
  | cons c t ih =>
    rw [bare_cons]
    split
    · rename_i h
      obtain ⟨rfl, hc⟩ := h
      rw [next_blank1 hc]; exact ih _
    · rename_i h
      rw [bare_cons, if_neg h, ih]

/-! ## The scanner -/

/-- Where the scanner is. -/
def place : St → Place
  | .inString | .inStringEscU | .inStringEscU1 | .inStringEscU12 | .inStringEscU123 => .inside
  | .inStringEsc => .escaped
  | _ => .out

theorem place_skips {st : St} (h : Skips st) : place st = .out := by
  rcases h with rfl | rfl | rfl | rfl <;> rfl

theorem place_ended {st : St} (h : Ended st) : place st = .out := by
  rcases h with rfl | rfl | rfl | rfl | rfl <;> rfl

theorem hex_inside {c : Byte} (h : isHex c = true) : Place.inside.next c = .inside := by
  revert h
  exact forall_byte (P := fun c => isHex c = true → Place.inside.next c = .inside) (by decide +kernel) c

theorem out_next {c : Byte} (h : c ≠ 34) : Place.out.next c = .out := by
  simp [Place.next, h]

theorem place_end {s : Scan} {c : Byte} (hs : place s.step = .out) (h : (stateEndValue s c).2 ≠ .error) : place (stateEndValue s c).1.step = .out ∧ c ≠ 34 := by
  obtain ⟨st, ps, e⟩ := s
  unfold stateEndValue at h ⊢
  rcases ps with _ | ⟨p, ps⟩
  · simp only at h ⊢
    refine ⟨rfl, ?_⟩
    rintro rfl
    exact h rfl
  · simp only at h ⊢
    by_cases hc : isSpace c = true
    · rw [if_pos hc]
      exact ⟨rfl, by rintro rfl; cases hc⟩
    · rw [if_neg hc] at h ⊢
      cases p <;> simp only at h ⊢ <;> (repeat' split at h) <;> (repeat' split)
      all_goals
        first
        | exact absurd rfl h
        | contradiction
        | (subst c; exact ⟨rfl, by decide⟩)
        | (subst c; refine ⟨?_, by decide⟩; unfold Scan.pop; rcases ps with _ | ⟨q, ps⟩ <;> rfl)

theorem place_begin {s : Scan} {c : Byte} (hs : place s.step = .out) (h : (stateBeginValue s c).2 ≠ .error) : place (stateBeginValue s c).1.step = Place.out.next c := by
  unfold stateBeginValue at h ⊢
  by_cases h0 : isSpace c = true
  · rw [if_pos h0, next_blank1 (space_blank.1 h0)]; exact hs
  rw [if_neg h0] at h ⊢
  by_cases h34 : c = 34
  · subst h34; rfl
  rw [out_next h34]
  repeat' split
  all_goals
    first
    | contradiction
    | rfl
    | exact hs

theorem place_string {s : Scan} {c : Byte} (hs : place s.step = .out) (h : (stateBeginString s c).2 ≠ .error) : place (stateBeginString s c).1.step = Place.out.next c := by
  unfold stateBeginString at h ⊢
  by_cases h0 : isSpace c = true
  · rw [if_pos h0, next_blank1 (space_blank.1 h0)]; exact hs
  rw [if_neg h0] at h ⊢
  by_cases h34 : c = 34
  · subst h34; rfl
  · rw [if_neg h34] at h; exact absurd rfl h

theorem place_state0 {s : Scan} {c : Byte} (hs : place s.step = .out) (h : (state0 s c).2 ≠ .error) : place (state0 s c).1.step = .out ∧ c ≠ 34 := by
  unfold state0 at h ⊢
  by_cases h1 : c = 46
  · subst h1; exact ⟨rfl, by decide⟩
  rw [if_neg h1] at h ⊢
  by_cases h2 : c = 101 ∨ c = 69
  · rw [if_pos h2]; exact ⟨rfl, by rcases h2 with rfl | rfl <;> decide⟩
  rw [if_neg h2] at h ⊢
  exact place_end hs h

theorem want_ok {s : Scan} {ok : Bool} {st : St} (h : (want s ok st).2 ≠ .error) : ok = true ∧ (want s ok st).1.step = st := by
  cases ok with
  | true => exact ⟨rfl, rfl⟩
  | false => exact absurd rfl h

theorem digit_ne {c : Byte} (h : digit c = true) : c ≠ 34 := by rintro rfl; cases h

theorem place_sign {s : Scan} {c : Byte} (h : (stateESign s c).2 ≠ .error) : place (stateESign s c).1.step = .out ∧ c ≠ 34 := by
  unfold stateESign at h ⊢
  by_cases hd : digit c = true
  · rw [if_pos hd]; exact ⟨rfl, digit_ne hd⟩
  · rw [if_neg hd] at h; exact absurd rfl h

theorem both {p : Place} {c : Byte} (h : p = .out ∧ c ≠ 34) : p = Place.out.next c := h.1.trans (out_next h.2).symm

theorem place_next {s : Scan} {c : Byte} (h : (s.next c).2 ≠ .error) : place (s.next c).1.step = (place s.step).next c := by
  obtain ⟨st, ps, e⟩ := s
  cases st
  case beginValueOrEmpty =>
    unfold Scan.next at h ⊢
    simp only at h ⊢
    by_cases h0 : isSpace c = true
    · rw [if_pos h0]; exact (next_blank1 (space_blank.1 h0)).symm
    rw [if_neg h0] at h ⊢
    by_cases h1 : c = 93
    · rw [if_pos h1] at h ⊢; exact both (place_end rfl h)
    · rw [if_neg h1] at h ⊢; exact place_begin rfl h
  case beginValue => exact place_begin rfl h
  case beginStringOrEmpty =>
    unfold Scan.next at h ⊢
    simp only at h ⊢
    by_cases h0 : isSpace c = true
    · rw [if_pos h0]; exact (next_blank1 (space_blank.1 h0)).symm
    rw [if_neg h0] at h ⊢
    by_cases h1 : c = 125
    · rw [if_pos h1] at h ⊢; exact both (place_end (s := ⟨.beginStringOrEmpty, .objectValue :: ps.tail, e⟩) rfl h)
    · rw [if_neg h1] at h ⊢; exact place_string rfl h
  case beginString => exact place_string rfl h
  case endValue => exact both (place_end rfl h)
  case endTop =>
    refine both ⟨rfl, ?_⟩
    rintro rfl
    exact h rfl
  case inString =>
    unfold Scan.next at h ⊢
    simp only at h ⊢
    by_cases h1 : c = 34
    · subst h1; rfl
    by_cases h2 : c = 92
    · subst h2; rfl
    rw [if_neg h1, if_neg h2] at h ⊢
    show _ = Place.next .inside c
    simp only [Place.next, h1, h2, if_false]
    split <;> rfl
  case inStringEsc =>
    unfold Scan.next at h ⊢
    simp only at h ⊢
    by_cases h1 : c = 117
    · subst h1; rfl
    · rw [if_neg h1] at h ⊢; rw [(want_ok h).2]; rfl
  case one =>
    unfold Scan.next at h ⊢
    simp only at h ⊢
    by_cases h1 : digit c = true
    · rw [if_pos h1]; exact both ⟨rfl, digit_ne h1⟩
    · rw [if_neg h1] at h ⊢; exact both (place_state0 rfl h)
  case zero => exact both (place_state0 rfl h)
  case dot0 =>
    unfold Scan.next at h ⊢
    simp only at h ⊢
    by_cases h1 : digit c = true
    · rw [if_pos h1]; exact both ⟨rfl, digit_ne h1⟩
    rw [if_neg h1] at h ⊢
    by_cases h2 : c = 101 ∨ c = 69
    · rw [if_pos h2]; exact both ⟨rfl, by rcases h2 with rfl | rfl <;> decide⟩
    · rw [if_neg h2] at h ⊢; exact both (place_end rfl h)
  case e0 =>
    unfold Scan.next at h ⊢
    simp only at h ⊢
    by_cases h1 : digit c = true
    · rw [if_pos h1]; exact both ⟨rfl, digit_ne h1⟩
    · rw [if_neg h1] at h ⊢; exact both (place_end rfl h)
  case e =>
    unfold Scan.next at h ⊢
    simp only at h ⊢
    by_cases h1 : c = 43 ∨ c = 45
    · rw [if_pos h1]; exact both ⟨rfl, by rcases h1 with rfl | rfl <;> decide⟩
    · rw [if_neg h1] at h ⊢; exact both (place_sign h)
  case eSign => exact both (place_sign h)
  case neg =>
    unfold Scan.next at h ⊢
    simp only at h ⊢
    by_cases h1 : c = 48
    · subst h1; rfl
    · rw [if_neg h1] at h ⊢
      refine both ⟨by rw [(want_ok h).2]; rfl, ?_⟩
      rintro rfl
      exact h rfl
  case inStringEscU | inStringEscU1 | inStringEscU12 | inStringEscU123 =>
    have h1 := want_ok h
    show place (want _ _ _).1.step = Place.next .inside c
    rw [h1.2, hex_inside h1.1]; rfl
  all_goals
    refine both ⟨?_, ?_⟩
    · show place (want _ _ _).1.step = .out
      rw [(want_ok h).2]; rfl
    · rintro rfl
      exact h rfl

/-- A blank is what the scanner skips, except in strings. -/
theorem blank_iff {s : Scan} (hi : Inner s) {c : Byte} (h : (s.next c).2 ≠ .error) : ¬ Solid (s.next c).2 ↔ place s.step = .out ∧ Blank1 c := by
  constructor
  · intro hs
    obtain ⟨hc, ⟨st, ps, rfl, h1, h2⟩ | ⟨rfl, h2⟩ | ⟨st, rfl, h1, h2⟩ | ⟨st, p, ps, rfl, h1, h2⟩⟩ := next_blank hi hs
    · exact ⟨place_skips h1, space_blank.1 hc⟩
    · exact ⟨rfl, space_blank.1 hc⟩
    · exact ⟨place_ended h1, space_blank.1 hc⟩
    · exact ⟨place_ended h1, space_blank.1 hc⟩
  · rintro ⟨hp, hc⟩
    have hc' := space_blank.2 hc
    rcases hi with ⟨he, hs⟩ | rfl
    · obtain ⟨st, ps, e⟩ := s
      cases he
      by_cases h1 : Skips st
      · intro hso
        rcases h1 with rfl | rfl | rfl | rfl
        · exact hso.1 (by simp [Scan.next, stateBeginValue, hc'])
        · exact hso.1 (by simp [Scan.next, stateBeginValue, hc'])
        · exact hso.1 (by simp [Scan.next, stateBeginString, hc'])
        · exact hso.1 (by simp [Scan.next, stateBeginString, hc'])
      · by_cases h2 : Ended st
        · have hen : ender c = true := by rcases hc with rfl | rfl | rfl | rfl <;> rfl
          rw [next_ended h2 ps hen]
          intro hso
          cases ps with
          | nil => exact hso.2 (by simp [stateEndValue, stateEndTop, hc'])
          | cons p ps => exact hso.1 (by simp [stateEndValue, hc'])
        · exfalso
          cases st
          all_goals
            first
            | (exfalso; apply h1; simp only [Skips, reduceCtorEq, or_true, true_or, or_false, false_or]; done)
            | (exfalso; apply h2; simp only [Ended, Numeric, reduceCtorEq, or_true, true_or, or_false, false_or]; done)
            | exact absurd rfl hs
            | (cases hp; done)
            | (apply h; rcases hc with rfl | rfl | rfl | rfl <;> rfl)
    · intro hso
      exact hso.2 (by simp [Scan.next, stateEndTop, hc'])

/-- At the end it is not in a string. -/
theorem place_eof {s : Scan} (hi : Inner s) (h : s.eof = true) : place s.step = .out := by
  rcases hi with ⟨he, hs⟩ | rfl
  · obtain ⟨st, ps, e⟩ := s
    cases he
    cases st <;> first | rfl | (cases h; done)
  · rfl

theorem acc_place : ∀ (t : GoStr) {s : Scan}, Inner s → s.acc t = true → t.foldl Place.next (place s.step) = .out
  | [], s, hi, h => place_eof hi h
  | c :: t, s, hi, h => by
    rw [acc_cons, accr] at h
    simp only [Bool.and_eq_true, decide_eq_true_eq] at h
    rw [List.foldl_cons, ← place_next h.1]
    exact acc_place t (inner_next hi c) h.2

/-! ## `compact` -/

theorem squeeze_bare : ∀ (t : GoStr) {s s' : Scan} {u : GoStr}, Inner s → s.squeeze t = some (s', u) → u = bare (place s.step) t
  | [], s, s', u, _, h => by
    rw [Scan.squeeze] at h
    obtain ⟨rfl, rfl⟩ := Prod.mk.inj (Option.some.inj h); rfl
  | c :: t, s, s', u, hi, h => by
    rw [Scan.squeeze] at h
    by_cases he : (s.next c).2 = .error
    · rw [if_pos he] at h; cases h
    · rw [if_neg he] at h
      obtain ⟨q, h1, h2⟩ := Option.map_eq_some_iff.1 h
      have ih := squeeze_bare t (inner_next hi c) (s' := q.1) (u := q.2) h1
      rw [place_next he] at ih
      rw [bare_cons, ← ih, ← (Prod.mk.inj h2).2]
      have hb := blank_iff hi he
      by_cases hk : (s.next c).2 = .skipSpace ∨ (s.next c).2 = .end
      · rw [if_pos hk, if_pos (hb.1 fun hs => hk.elim hs.1 hs.2)]
      · rw [if_neg hk, if_neg]
        intro hx
        exact hb.2 hx ⟨fun h => hk (.inl h), fun h => hk (.inr h)⟩

/-- What `compact` puts out. -/
theorem squeezed_bare {t u : GoStr} (h : squeezed t = .ok u) : u = bare .out t := by
  unfold squeezed at h
  cases hq : ({} : Scan).squeeze t with
  | none => rw [hq] at h; cases h
  | some q =>
    rw [hq] at h
    simp only at h
    by_cases he : q.1.eof = true
    · rw [if_pos he] at h
      cases h
      exact squeeze_bare t inner_start hq
    · rw [if_neg he] at h; cases h

/-! ## `Indent` -/

theorem ind_mark {ind : GoStr} (hind : Ws ind) {i i' : Ind} {c : Byte} (hi : Inner i.scan) (hn : i.needIndent = true → Skips i.scan.step) (h : i.next ind c = some i') :
    ∃ pre post, i'.dst = i.dst ++ (pre ++ (if (i.scan.next c).2 = .skipSpace then [] else [c]) ++ post) ∧ Ws pre ∧ Ws post ∧
      (pre = [] ∨ place i.scan.step = .out) ∧ (post = [] ∨ place (i.scan.next c).1.step = .out) := by
  unfold Ind.next at h
  simp only at h
  by_cases hk : (i.scan.next c).2 = .skipSpace
  · rw [if_pos hk] at h
    cases h
    exact ⟨[], [], by simp [hk], ws_nil, ws_nil, .inl rfl, .inl rfl⟩
  rw [if_neg hk] at h ⊢
  by_cases he : (i.scan.next c).2 = .error
  · rw [if_pos he] at h; cases h
  rw [if_neg he] at h
  generalize hi1 : (if i.needIndent && decide ((i.scan.next c).2 ≠ .endObject) && decide ((i.scan.next c).2 ≠ .endArray) then
      ({ scan := (i.scan.next c).1, needIndent := false, depth := i.depth + 1, dst := i.dst ++ newline ind (i.depth + 1) } : Ind)
    else { scan := (i.scan.next c).1, needIndent := i.needIndent, depth := i.depth, dst := i.dst }) = i1 at h
  have h1 : ∃ pre, Ws pre ∧ i1.dst = i.dst ++ pre ∧ (pre = [] ∨ place i.scan.step = .out) := by
    subst hi1
    split
    · rename_i hx
      simp only [Bool.and_eq_true] at hx
      exact ⟨newline ind (i.depth + 1), ws_newline hind _, rfl, .inr (place_skips (hn hx.1.1))⟩
    · exact ⟨[], ws_nil, by simp, .inl rfl⟩
  obtain ⟨pre, hpre, hd, hp⟩ := h1
  clear hi1
  by_cases hc : (i.scan.next c).2 = .continue
  · rw [if_pos hc] at h
    cases h
    exact ⟨pre, [], by simp [hd], hpre, ws_nil, hp, .inl rfl⟩
  rw [if_neg hc] at h
  have hm : Mark (i.scan.next c).2 := ⟨hc, hk, he⟩
  by_cases h1 : c = 123 ∨ c = 91
  · rw [if_pos h1] at h
    cases h
    exact ⟨pre, [], by simp [hd], hpre, ws_nil, hp, .inl rfl⟩
  rw [if_neg h1] at h
  by_cases h2 : c = 44
  · rw [if_pos h2] at h
    cases h
    exact ⟨pre, newline ind i1.depth, by simp [hd], hpre, ws_newline hind _, hp, .inr (place_skips (mark_open hi (.inr (.inr (.inl h2))) hm))⟩
  rw [if_neg h2] at h
  by_cases h3 : c = 58
  · rw [if_pos h3] at h
    cases h
    exact ⟨pre, [32], by simp [hd], hpre, ws_cons.2 ⟨rfl, ws_nil⟩, hp, .inr (place_skips (mark_open hi (.inr (.inr (.inr h3))) hm))⟩
  rw [if_neg h3] at h
  by_cases h4 : c = 125 ∨ c = 93
  · rw [if_pos h4] at h
    cases hb : i1.needIndent
    · rw [hb] at h
      simp only [Bool.false_eq_true, if_false] at h
      cases h
      obtain ⟨st, ps, hs, hst⟩ := mark_states hi (by rcases h4 with rfl | rfl <;> rfl) hm
      refine ⟨pre ++ newline ind (i1.depth - 1), [], by simp [hd], ws_append hpre (ws_newline hind _), ws_nil, .inr ?_, .inl rfl⟩
      rw [hs]
      rcases hst with h | ⟨h, _⟩
      · exact place_skips h
      · exact place_ended h
    · rw [hb] at h
      simp only [if_true] at h
      cases h
      exact ⟨pre, [], by simp [hd], hpre, ws_nil, hp, .inl rfl⟩
  · rw [if_neg h4] at h
    cases h
    exact ⟨pre, [], by simp [hd], hpre, ws_nil, hp, .inl rfl⟩

theorem ind_bare {ind : GoStr} (hind : Ws ind) : ∀ (t : GoStr) {i i' : Ind}, Inner i.scan → (i.needIndent = true → Skips i.scan.step) → i.run ind t = some i' →
    ∃ g, i'.dst = i.dst ++ g ∧ bare (place i.scan.step) g = bare (place i.scan.step) t
  | [], i, i', _, _, h => by
    rw [Ind.run] at h; cases h
    exact ⟨[], by simp, rfl⟩
  | c :: t, i, i', hi, hn, h => by
    rw [Ind.run] at h
    cases hs : i.next ind c with
    | none => rw [hs] at h; cases h
    | some j =>
      rw [hs] at h
      obtain ⟨h1, h2, h3, _⟩ := ind_chunk hind hi hn hs
      obtain ⟨pre, post, h4, h5, h6, h7, h8⟩ := ind_mark hind hi hn hs
      obtain ⟨g, h9, h10⟩ := ind_bare hind t (by rw [h1]; exact inner_next hi c) h3 h
      have hpl := place_next h2
      rw [h1, hpl] at h10
      rw [hpl] at h8
      refine ⟨pre ++ (if (i.scan.next c).2 = .skipSpace then [] else [c]) ++ post ++ g, by rw [h9, h4]; simp, ?_⟩
      have hpost : bare ((place i.scan.step).next c) (post ++ g) = bare ((place i.scan.step).next c) t := by
        rcases h8 with rfl | h8
        · exact h10
        · rw [h8, bare_ws h6, ← h8]; exact h10
      have hpre (x : GoStr) : bare (place i.scan.step) (pre ++ x) = bare (place i.scan.step) x := by
        rcases h7 with rfl | h7
        · rfl
        · rw [h7, bare_ws h5]
      rw [List.append_assoc, List.append_assoc, hpre]
      by_cases hk : (i.scan.next c).2 = .skipSpace
      · have hb := (blank_iff hi h2).1 fun hso => hso.1 hk
        rw [if_pos hk, List.nil_append, bare_cons, if_pos hb, ← hpost, hb.1, next_blank1 hb.2]
      · rw [if_neg hk, List.singleton_append, bare_cons, bare_cons, hpost]

/-- `Indent` changes nothing but blanks. -/
theorem indent_bare {ind : GoStr} (hind : Ws ind) {t u : GoStr} (h : indent t ind = .ok u) : bare .out u = bare .out t := by
  unfold indent at h
  cases hq : ({} : Ind).run ind t with
  | none => rw [hq] at h; cases h
  | some i =>
    rw [hq] at h
    simp only at h
    obtain ⟨g, h1, h2⟩ := ind_bare hind t (i := {}) inner_start (by intro h; cases h) hq
    by_cases he : i.scan.eof = true
    · rw [if_pos he] at h
      cases h
      rw [h1]; exact h2
    · rw [if_neg he] at h; cases h

/-! ## Carriage returns -/

theorem crlf_bare : ∀ (t : GoStr) {s : Scan}, Inner s → s.acc t = true → bare (place s.step) (Spec.crlf t) = bare (place s.step) t
  | [], s, _, _ => rfl
  | c :: t, s, hi, h => by
    rw [acc_cons, accr] at h
    simp only [Bool.and_eq_true, decide_eq_true_eq] at h
    have ih := crlf_bare t (inner_next hi c) h.2
    rw [place_next h.1] at ih
    show bare (place s.step) ((if c = 10 then [13, 10] else [c]) ++ Spec.crlf t) = _
    by_cases hc : c = 10
    · subst hc
      obtain ⟨h1, h2⟩ := next_cr hi h.1
      have hp := ((blank_iff hi h.1).1 h1).1
      rw [hp] at ih ⊢
      exact ih
    · rw [if_neg hc, List.singleton_append, bare_cons, bare_cons, ih]

end Verif.Json
