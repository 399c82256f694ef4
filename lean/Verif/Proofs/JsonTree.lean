import Verif.Proofs.JsonScan
import Verif.Spec.Construct

/-! # What `Indent` does to a text, and what readers make of it -/

set_option autoImplicit false

namespace Verif.Json
open Verif.Spec.Json

/-- A string, a number or a word, which means `j`. -/
structure LitOk (t : GoStr) (j : J) : Prop where
  read : ∃ s, t = utf8 s ∧ (∃ c l, s = c :: l ∧ Spec.Json.isSpace c = false ∧ c ≠ ']') ∧
    ∀ rest, Ends rest → ∀ fuel, value (fuel + 1) (s ++ rest) = some (j, rest)
  scan : ∀ ps, ∃ sc, Done sc ps ∧ Scan.over ⟨.beginValue, ps, false⟩ t = some sc
  start : ∃ b l, t = b :: l ∧ isSpace b = false ∧ b ≠ 93
  line : ∀ b ∈ t, b ≠ 10

/-- A name. -/
def KeyOk (k : GoStr) (cs : List Char) : Prop := ∃ q, StrText q cs ∧ k = [34] ++ utf8 q ++ [34]

mutual

/-- A tree that means `j`. -/
inductive Reads : Tree → J → Prop
  | lit {t : GoStr} {j : J} : LitOk t j → Reads (.lit t) j
  | arr {l : List Tree} {js : List J} : ReadsAll l js → Reads (.arr l) (.arr js)
  | obj {l : List (GoStr × Tree)} {js : List (List Char × J)} : ReadsMems l js → Reads (.obj l) (.obj js)

inductive ReadsAll : List Tree → List J → Prop
  | nil : ReadsAll [] []
  | cons {v : Tree} {l : List Tree} {j : J} {js : List J} : Reads v j → ReadsAll l js → ReadsAll (v :: l) (j :: js)

inductive ReadsMems : List (GoStr × Tree) → List (List Char × J) → Prop
  | nil : ReadsMems [] []
  | cons {k : GoStr} {v : Tree} {l : List (GoStr × Tree)} {cs : List Char} {j : J} {js : List (List Char × J)} :
      KeyOk k cs → Reads v j → ReadsMems l js → ReadsMems ((k, v) :: l) ((cs, j) :: js)

end

/-- As `json.Marshal` writes it. -/
def compact (d : Int) (T : Tree) : GoStr := lay (fun _ => []) [] d T

/-- As `Indent` writes it. -/
def pretty (ind : GoStr) (d : Int) (T : Tree) : GoStr := lay (newline ind) [32] d T

/-! ## What `Indent` does -/

theorem lay_start {T : Tree} {j : J} (h : Reads T j) (nl : Int → GoStr) (sp : GoStr) (d : Int) :
    ∃ b l, lay nl sp d T = b :: l ∧ isSpace b = false ∧ b ≠ 93 := by
  cases h with
  | lit h => obtain ⟨b, l, h1, h2⟩ := h.start; exact ⟨b, l, by rw [lay]; exact h1, h2⟩
  | @arr l js h =>
    cases l with
    | nil => exact ⟨91, [93], by rw [lay], by decide, by decide⟩
    | cons v l => exact ⟨91, _, by rw [lay]; simp only [List.append_assoc, List.singleton_append, List.cons_append]; rfl, by decide, by decide⟩
  | @obj l js h =>
    cases l with
    | nil => exact ⟨123, [125], by rw [lay], by decide, by decide⟩
    | cons p l => obtain ⟨k, v⟩ := p; exact ⟨123, _, by rw [lay]; simp only [List.append_assoc, List.singleton_append, List.cons_append]; rfl, by decide, by decide⟩

theorem beginValue_same (ps : List Ps) {c : Byte} (h1 : isSpace c = false) (h2 : c ≠ 93) :
    ((⟨.beginValueOrEmpty, ps, false⟩ : Scan).next c).2 = ((⟨.beginValue, ps, false⟩ : Scan).next c).2 ∧
    (((⟨.beginValue, ps, false⟩ : Scan).next c).2 ≠ .error →
      ((⟨.beginValueOrEmpty, ps, false⟩ : Scan).next c).1 = ((⟨.beginValue, ps, false⟩ : Scan).next c).1) ∧
    ((⟨.beginValue, ps, false⟩ : Scan).next c).2 ≠ .endObject ∧ ((⟨.beginValue, ps, false⟩ : Scan).next c).2 ≠ .endArray := by
  simp only [Scan.next, h1, h2, Bool.false_eq_true, if_false, stateBeginValue, Scan.push]
  (repeat' split) <;> simp

/-- The first element goes to a new line. -/
theorem enter (ind : GoStr) (ps : List Ps) (d : Int) (dst : GoStr) {c : Byte} (t : GoStr) (h1 : isSpace c = false) (h2 : c ≠ 93) :
    Ind.run ind ⟨⟨.beginValueOrEmpty, ps, false⟩, true, d, dst⟩ (c :: t) =
    Ind.run ind ⟨⟨.beginValue, ps, false⟩, false, d + 1, dst ++ newline ind (d + 1)⟩ (c :: t) := by
  obtain ⟨e1, e2, e3, e4⟩ := beginValue_same ps h1 h2
  have : Ind.next ind ⟨⟨.beginValueOrEmpty, ps, false⟩, true, d, dst⟩ c =
      Ind.next ind ⟨⟨.beginValue, ps, false⟩, false, d + 1, dst ++ newline ind (d + 1)⟩ c := by
    by_cases he : ((⟨.beginValue, ps, false⟩ : Scan).next c).2 = .error
    · simp [Ind.next, e1, he]
    · have e5 := e2 he
      have hsk : ((⟨.beginValue, ps, false⟩ : Scan).next c).2 ≠ .skipSpace := by
        simp only [Scan.next, h1, Bool.false_eq_true, if_false, stateBeginValue, Scan.push]
        (repeat' split) <;> simp
      simp only [Ind.next, e1, e5, he, hsk, e3, e4, if_false, Bool.true_and, Bool.false_and, decide_true, ne_eq, not_false_eq_true, if_true, Bool.and_true, Bool.false_eq_true]
  rw [Ind.run, Ind.run, this]

theorem done_next {sc : Scan} {p : Ps} {ps : List Ps} (h : Done sc (p :: ps)) {c : Byte} (hc : c = 44 ∨ c = 58 ∨ c = 93 ∨ c = 125 ∨ c = 10 ∨ c = 32 ∨ c = 9 ∨ c = 13) :
    ∃ st, sc = ⟨st, p :: ps, false⟩ ∧ sc.next c = stateEndValue ⟨st, p :: ps, false⟩ c := by
  rcases h with ⟨h1, h2, h3⟩ | ⟨h, -⟩
  · obtain ⟨st, stack, top⟩ := sc
    simp only at h1 h2
    subst h1 h2
    exact ⟨st, rfl, h3 c hc⟩
  · cases h

theorem done_pop (st : St) (p : Ps) (ps : List Ps) : Done (Scan.pop ⟨st, p :: ps, false⟩) ps := by
  cases ps with
  | nil => exact .inr ⟨rfl, rfl⟩
  | cons q ps => exact done_endValue _

/-- A comma, a bracket, and so on, after a value. -/
theorem next_comma (ind : GoStr) {sc : Scan} {ps : List Ps} (h : Done sc (.arrayValue :: ps)) (d : Int) (dst : GoStr) :
    Ind.next ind ⟨sc, false, d, dst⟩ 44 = some ⟨⟨.beginValue, .arrayValue :: ps, false⟩, false, d, dst ++ [44] ++ newline ind d⟩ := by
  obtain ⟨st, rfl, hn⟩ := done_next h (c := 44) (by simp)
  simp [Ind.next, hn, stateEndValue, isSpace]

theorem next_bracket (ind : GoStr) {sc : Scan} {ps : List Ps} (h : Done sc (.arrayValue :: ps)) (d : Int) (dst : GoStr) :
    ∃ sc', Done sc' ps ∧ Ind.next ind ⟨sc, false, d, dst⟩ 93 = some ⟨sc', false, d - 1, dst ++ newline ind (d - 1) ++ [93]⟩ := by
  obtain ⟨st, rfl, hn⟩ := done_next h (c := 93) (by simp)
  exact ⟨_, done_pop st .arrayValue ps, by simp [Ind.next, hn, stateEndValue, isSpace]⟩

theorem next_semi (ind : GoStr) {sc : Scan} {ps : List Ps} (h : Done sc (.objectValue :: ps)) (d : Int) (dst : GoStr) :
    Ind.next ind ⟨sc, false, d, dst⟩ 44 = some ⟨⟨.beginString, .objectKey :: ps, false⟩, false, d, dst ++ [44] ++ newline ind d⟩ := by
  obtain ⟨st, rfl, hn⟩ := done_next h (c := 44) (by simp)
  simp [Ind.next, hn, stateEndValue, isSpace]

theorem next_brace (ind : GoStr) {sc : Scan} {ps : List Ps} (h : Done sc (.objectValue :: ps)) (d : Int) (dst : GoStr) :
    ∃ sc', Done sc' ps ∧ Ind.next ind ⟨sc, false, d, dst⟩ 125 = some ⟨sc', false, d - 1, dst ++ newline ind (d - 1) ++ [125]⟩ := by
  obtain ⟨st, rfl, hn⟩ := done_next h (c := 125) (by simp)
  exact ⟨_, done_pop st .objectValue ps, by simp [Ind.next, hn, stateEndValue, isSpace]⟩

theorem run_cons (ind : GoStr) {i i' : Ind} {c : Byte} (t : GoStr) (h : i.next ind c = some i') : i.run ind (c :: t) = i'.run ind t := by
  rw [Ind.run, h]

theorem run_none (ind : GoStr) {i : Ind} {c : Byte} (t : GoStr) (h : i.next ind c = none) : i.run ind (c :: t) = none := by
  rw [Ind.run, h]

/-- A name and a colon. -/
theorem run_key (ind : GoStr) {k : GoStr} {cs : List Char} (hk : KeyOk k cs) (ps : List Ps) (d : Int) (dst : GoStr) (t : GoStr) :
    Ind.run ind ⟨⟨.beginString, .objectKey :: ps, false⟩, false, d, dst⟩ (k ++ [58] ++ t) =
    Ind.run ind ⟨⟨.beginValue, .objectValue :: ps, false⟩, false, d, dst ++ k ++ [58] ++ [32]⟩ t := by
  obtain ⟨q, hq, rfl⟩ := hk
  have ho := over_string (s := ⟨.beginString, .objectKey :: ps, false⟩) (ps := .objectKey :: ps) hq (by simp [Scan.next, stateBeginString, isSpace])
  rw [List.append_assoc, run_append, run_over ind d _ _ _ dst ho, Option.bind_some, show [58] ++ t = 58 :: t from rfl]
  refine run_cons ind t ?_
  simp [Ind.next, Scan.next, stateEndValue, isSpace]

/-- The first name goes to a new line. -/
theorem enter_key (ind : GoStr) (ps : List Ps) (d : Int) (dst : GoStr) (t : GoStr) :
    Ind.run ind ⟨⟨.beginStringOrEmpty, ps, false⟩, true, d, dst⟩ (34 :: t) =
    Ind.run ind ⟨⟨.beginString, ps, false⟩, false, d + 1, dst ++ newline ind (d + 1)⟩ (34 :: t) := by
  rw [Ind.run, Ind.run]
  simp [Ind.next, Scan.next, stateBeginString, isSpace]

theorem next_open (ind : GoStr) (ps : List Ps) (d : Int) (dst : GoStr) (h : ps.length + 1 ≤ maxNesting) :
    Ind.next ind ⟨⟨.beginValue, ps, false⟩, false, d, dst⟩ 91 = some ⟨⟨.beginValueOrEmpty, .arrayValue :: ps, false⟩, true, d, dst ++ [91]⟩ := by
  simp [Ind.next, Scan.next, stateBeginValue, isSpace, Scan.push, h]

theorem next_openObj (ind : GoStr) (ps : List Ps) (d : Int) (dst : GoStr) (h : ps.length + 1 ≤ maxNesting) :
    Ind.next ind ⟨⟨.beginValue, ps, false⟩, false, d, dst⟩ 123 = some ⟨⟨.beginStringOrEmpty, .objectKey :: ps, false⟩, true, d, dst ++ [123]⟩ := by
  simp [Ind.next, Scan.next, stateBeginValue, isSpace, Scan.push, h]

theorem next_empty (ind : GoStr) (ps : List Ps) (d : Int) (dst : GoStr) :
    ∃ sc, Done sc ps ∧ Ind.next ind ⟨⟨.beginValueOrEmpty, .arrayValue :: ps, false⟩, true, d, dst⟩ 93 = some ⟨sc, false, d, dst ++ [93]⟩ :=
  ⟨_, done_pop .beginValueOrEmpty .arrayValue ps, by simp [Ind.next, Scan.next, stateEndValue, isSpace]⟩

theorem next_emptyObj (ind : GoStr) (ps : List Ps) (d : Int) (dst : GoStr) :
    ∃ sc, Done sc ps ∧ Ind.next ind ⟨⟨.beginStringOrEmpty, .objectKey :: ps, false⟩, true, d, dst⟩ 125 = some ⟨sc, false, d, dst ++ [125]⟩ :=
  ⟨_, done_pop .beginStringOrEmpty .objectValue ps, by simp [Ind.next, Scan.next, stateEndValue, isSpace]⟩

theorem key_start {k : GoStr} {cs : List Char} (h : KeyOk k cs) : ∃ l, k = 34 :: l := by
  obtain ⟨q, -, rfl⟩ := h
  exact ⟨utf8 q ++ [34], by simp⟩

mutual

theorem run_tree (ind : GoStr) : ∀ (T : Tree) (j : J), Reads T j → ∀ (ps : List Ps) (d d' : Int) (dst : GoStr), ps.length + T.nest ≤ maxNesting →
    ∃ sc, Done sc ps ∧ Ind.run ind ⟨⟨.beginValue, ps, false⟩, false, d, dst⟩ (compact d' T) = some ⟨sc, false, d, dst ++ pretty ind d T⟩
  | .lit t, j, .lit h, ps, d, d', dst, _ => by
    obtain ⟨sc, h1, h2⟩ := h.scan ps
    refine ⟨sc, h1, ?_⟩
    rw [compact, pretty, lay, lay, run_over ind d t _ _ dst h2]
  | .arr [], _, .arr h, ps, d, d', dst, hn => by
    rw [Tree.nest, nestAll] at hn
    obtain ⟨sc, h1, h2⟩ := next_empty ind ps d (dst ++ [91])
    refine ⟨sc, h1, ?_⟩
    rw [compact, pretty, lay, lay, run_cons ind _ (next_open ind ps d dst (by omega)), run_cons ind _ h2, Ind.run]
    simp
  | .arr (v :: l), _, .arr (.cons (j := j) (js := js) hv hl), ps, d, d', dst, hn => by
    rw [Tree.nest, nestAll] at hn
    obtain ⟨b, u, hs, hsp, hb⟩ := lay_start hv (fun _ => []) [] (d' + 1)
    obtain ⟨sc1, k1, r1⟩ := run_tree ind v j hv (.arrayValue :: ps) (d + 1) (d' + 1) (dst ++ [91] ++ newline ind (d + 1)) (by simp only [List.length_cons]; omega)
    obtain ⟨sc2, k2, r2⟩ := run_rest ind l js hl ps (d + 1) (d' + 1) (dst ++ [91] ++ newline ind (d + 1) ++ pretty ind (d + 1) v) sc1 k1 (by omega)
    obtain ⟨sc3, k3, r3⟩ := next_bracket ind k2 (d + 1) (dst ++ [91] ++ newline ind (d + 1) ++ pretty ind (d + 1) v ++ layRest (newline ind) [32] (d + 1) l)
    refine ⟨sc3, k3, ?_⟩
    rw [compact, pretty, lay, lay]
    have e : [91] ++ [] ++ lay (fun _ => []) [] (d' + 1) v ++ layRest (fun _ => []) [] (d' + 1) l ++ [] ++ [93] =
        91 :: (lay (fun _ => []) [] (d' + 1) v ++ (layRest (fun _ => []) [] (d' + 1) l ++ [93])) := by simp
    rw [e, run_cons ind _ (next_open ind ps d dst (by omega)), hs, List.cons_append, enter ind _ d _ _ hsp hb, ← List.cons_append, ← hs, run_append,
      show lay (fun _ => []) [] (d' + 1) v = compact (d' + 1) v from rfl, r1, Option.bind_some, run_append, r2, Option.bind_some, run_cons ind _ r3, Ind.run]
    rw [show d + 1 - 1 = d by omega]
    simp [pretty]
  | .obj [], _, .obj h, ps, d, d', dst, hn => by
    rw [Tree.nest, nestMems] at hn
    obtain ⟨sc, h1, h2⟩ := next_emptyObj ind ps d (dst ++ [123])
    refine ⟨sc, h1, ?_⟩
    rw [compact, pretty, lay, lay, run_cons ind _ (next_openObj ind ps d dst (by omega)), run_cons ind _ h2, Ind.run]
    simp
  | .obj ((k, v) :: l), _, .obj (.cons (j := j) (js := js) hk hv hl), ps, d, d', dst, hn => by
    rw [Tree.nest, nestMems] at hn
    obtain ⟨u, hu⟩ := key_start hk
    obtain ⟨sc1, k1, r1⟩ := run_tree ind v j hv (.objectValue :: ps) (d + 1) (d' + 1) (dst ++ [123] ++ newline ind (d + 1) ++ k ++ [58] ++ [32])
      (by simp only [List.length_cons]; omega)
    obtain ⟨sc2, k2, r2⟩ := run_more ind l js hl ps (d + 1) (d' + 1) (dst ++ [123] ++ newline ind (d + 1) ++ k ++ [58] ++ [32] ++ pretty ind (d + 1) v) sc1 k1 (by omega)
    obtain ⟨sc3, k3, r3⟩ := next_brace ind k2 (d + 1) (dst ++ [123] ++ newline ind (d + 1) ++ k ++ [58] ++ [32] ++ pretty ind (d + 1) v ++ layMore (newline ind) [32] (d + 1) l)
    refine ⟨sc3, k3, ?_⟩
    rw [compact, pretty, lay, lay]
    have e : [123] ++ [] ++ k ++ [58] ++ [] ++ lay (fun _ => []) [] (d' + 1) v ++ layMore (fun _ => []) [] (d' + 1) l ++ [] ++ [125] =
        123 :: (k ++ [58] ++ (compact (d' + 1) v ++ (layMore (fun _ => []) [] (d' + 1) l ++ [125]))) := by simp [compact]
    rw [e, run_cons ind _ (next_openObj ind ps d dst (by omega)),
      show k ++ [58] ++ (compact (d' + 1) v ++ (layMore (fun _ => []) [] (d' + 1) l ++ [125])) = 34 :: (u ++ [58] ++ (compact (d' + 1) v ++ (layMore (fun _ => []) [] (d' + 1) l ++ [125]))) by rw [hu]; simp,
      enter_key ind _ d, ← List.cons_append, ← List.cons_append, ← hu, run_key ind hk, run_append, r1, Option.bind_some, run_append, r2, Option.bind_some, run_cons ind _ r3, Ind.run]
    rw [show d + 1 - 1 = d by omega]
    simp [pretty]

theorem run_rest (ind : GoStr) : ∀ (l : List Tree) (js : List J), ReadsAll l js → ∀ (ps : List Ps) (d d' : Int) (dst : GoStr) (sc : Scan),
    Done sc (.arrayValue :: ps) → ps.length + (nestAll l + 1) ≤ maxNesting →
    ∃ sc', Done sc' (.arrayValue :: ps) ∧
      Ind.run ind ⟨sc, false, d, dst⟩ (layRest (fun _ => []) [] d' l) = some ⟨sc', false, d, dst ++ layRest (newline ind) [32] d l⟩
  | [], _, .nil, ps, d, d', dst, sc, h, _ => ⟨sc, h, by rw [layRest, layRest, Ind.run, List.append_nil]⟩
  | v :: l, _, .cons (j := j) (js := js) hv hl, ps, d, d', dst, sc, h, hn => by
    rw [nestAll] at hn
    obtain ⟨sc1, k1, r1⟩ := run_tree ind v j hv (.arrayValue :: ps) d d' (dst ++ [44] ++ newline ind d) (by simp only [List.length_cons]; omega)
    obtain ⟨sc2, k2, r2⟩ := run_rest ind l js hl ps d d' (dst ++ [44] ++ newline ind d ++ pretty ind d v) sc1 k1 (by omega)
    refine ⟨sc2, k2, ?_⟩
    rw [layRest, layRest]
    have e : [44] ++ [] ++ lay (fun _ => []) [] d' v ++ layRest (fun _ => []) [] d' l = 44 :: (compact d' v ++ layRest (fun _ => []) [] d' l) := by simp [compact]
    rw [e, run_cons ind _ (next_comma ind h d dst), run_append, r1, Option.bind_some, r2]
    simp [pretty]

theorem run_more (ind : GoStr) : ∀ (l : List (GoStr × Tree)) (js : List (List Char × J)), ReadsMems l js → ∀ (ps : List Ps) (d d' : Int) (dst : GoStr) (sc : Scan),
    Done sc (.objectValue :: ps) → ps.length + (nestMems l + 1) ≤ maxNesting →
    ∃ sc', Done sc' (.objectValue :: ps) ∧
      Ind.run ind ⟨sc, false, d, dst⟩ (layMore (fun _ => []) [] d' l) = some ⟨sc', false, d, dst ++ layMore (newline ind) [32] d l⟩
  | [], _, .nil, ps, d, d', dst, sc, h, _ => ⟨sc, h, by rw [layMore, layMore, Ind.run, List.append_nil]⟩
  | (k, v) :: l, _, .cons (j := j) (js := js) hk hv hl, ps, d, d', dst, sc, h, hn => by
    rw [nestMems] at hn
    obtain ⟨sc1, k1, r1⟩ := run_tree ind v j hv (.objectValue :: ps) d d' (dst ++ [44] ++ newline ind d ++ k ++ [58] ++ [32]) (by simp only [List.length_cons]; omega)
    obtain ⟨sc2, k2, r2⟩ := run_more ind l js hl ps d d' (dst ++ [44] ++ newline ind d ++ k ++ [58] ++ [32] ++ pretty ind d v) sc1 k1 (by omega)
    refine ⟨sc2, k2, ?_⟩
    rw [layMore, layMore]
    have e : [44] ++ [] ++ k ++ [58] ++ [] ++ lay (fun _ => []) [] d' v ++ layMore (fun _ => []) [] d' l =
        44 :: (k ++ [58] ++ (compact d' v ++ layMore (fun _ => []) [] d' l)) := by simp [compact]
    rw [e, run_cons ind _ (next_semi ind h d dst), run_key ind hk, run_append, r1, Option.bind_some, r2]
    simp [pretty]

end

end Verif.Json
