import Verif.Proofs.JsonTree

/-! # Values that are nested too deep; line ends; readers -/

set_option autoImplicit false

namespace Verif.Json
open Verif.Spec (crlf)
open Verif.Spec.Json

/-! ## Too deep -/

theorem deep_open (ind : GoStr) (ps : List Ps) (d : Int) (dst : GoStr) (h : ¬ ps.length + 1 ≤ maxNesting) :
    Ind.next ind ⟨⟨.beginValue, ps, false⟩, false, d, dst⟩ 91 = none := by
  simp [Ind.next, Scan.next, stateBeginValue, isSpace, Scan.push, h]

theorem deep_openObj (ind : GoStr) (ps : List Ps) (d : Int) (dst : GoStr) (h : ¬ ps.length + 1 ≤ maxNesting) :
    Ind.next ind ⟨⟨.beginValue, ps, false⟩, false, d, dst⟩ 123 = none := by
  simp [Ind.next, Scan.next, stateBeginValue, isSpace, Scan.push, h]

mutual

/-- `Indent` fails. -/
theorem deep_tree (ind : GoStr) : ∀ (T : Tree) (j : J), Reads T j → ∀ (ps : List Ps) (d d' : Int) (dst : GoStr), ps.length ≤ maxNesting →
    ¬ ps.length + T.nest ≤ maxNesting → Ind.run ind ⟨⟨.beginValue, ps, false⟩, false, d, dst⟩ (compact d' T) = none
  | .lit t, j, .lit h, ps, d, d', dst, h0, hn => by
    rw [Tree.nest] at hn
    exact absurd h0 hn
  | .arr [], _, .arr h, ps, d, d', dst, h0, hn => by
    rw [Tree.nest, nestAll] at hn
    rw [compact, lay, run_none ind _ (deep_open ind ps d dst (by omega))]
  | .arr (v :: l), _, .arr (.cons (j := j) (js := js) hv hl), ps, d, d', dst, h0, hn => by
    rw [Tree.nest, nestAll] at hn
    rw [compact, lay]
    have e : [91] ++ [] ++ lay (fun _ => []) [] (d' + 1) v ++ layRest (fun _ => []) [] (d' + 1) l ++ [] ++ [93] =
        91 :: (lay (fun _ => []) [] (d' + 1) v ++ (layRest (fun _ => []) [] (d' + 1) l ++ [93])) := by simp
    rw [e]
    by_cases h1 : ps.length + 1 ≤ maxNesting
    · obtain ⟨b, u, hs, hsp, hb⟩ := lay_start hv (fun _ => []) [] (d' + 1)
      rw [run_cons ind _ (next_open ind ps d dst h1), hs, List.cons_append, enter ind _ d _ _ hsp hb, ← List.cons_append, ← hs, run_append,
        show lay (fun _ => []) [] (d' + 1) v = compact (d' + 1) v from rfl]
      by_cases h2 : ps.length + 1 + v.nest ≤ maxNesting
      · obtain ⟨sc1, k1, r1⟩ := run_tree ind v j hv (.arrayValue :: ps) (d + 1) (d' + 1) (dst ++ [91] ++ newline ind (d + 1)) (by simp only [List.length_cons]; omega)
        rw [r1, Option.bind_some, run_append, deep_rest ind l js hl ps (d + 1) (d' + 1) _ sc1 k1 h1 (by omega)]
        rfl
      · rw [deep_tree ind v j hv (.arrayValue :: ps) (d + 1) (d' + 1) _ (by simpa using h1) (by simpa using h2)]
        rfl
    · rw [run_none ind _ (deep_open ind ps d dst h1)]
  | .obj [], _, .obj h, ps, d, d', dst, h0, hn => by
    rw [Tree.nest, nestMems] at hn
    rw [compact, lay, run_none ind _ (deep_openObj ind ps d dst (by omega))]
  | .obj ((k, v) :: l), _, .obj (.cons (j := j) (js := js) hk hv hl), ps, d, d', dst, h0, hn => by
    rw [Tree.nest, nestMems] at hn
    obtain ⟨u, hu⟩ := key_start hk
    rw [compact, lay]
    have e : [123] ++ [] ++ k ++ [58] ++ [] ++ lay (fun _ => []) [] (d' + 1) v ++ layMore (fun _ => []) [] (d' + 1) l ++ [] ++ [125] =
        123 :: (k ++ [58] ++ (compact (d' + 1) v ++ (layMore (fun _ => []) [] (d' + 1) l ++ [125]))) := by simp [compact]
    rw [e]
    by_cases h1 : ps.length + 1 ≤ maxNesting
    · rw [run_cons ind _ (next_openObj ind ps d dst h1),
        show k ++ [58] ++ (compact (d' + 1) v ++ (layMore (fun _ => []) [] (d' + 1) l ++ [125])) = 34 :: (u ++ [58] ++ (compact (d' + 1) v ++ (layMore (fun _ => []) [] (d' + 1) l ++ [125]))) by rw [hu]; simp,
        enter_key ind _ d, ← List.cons_append, ← List.cons_append, ← hu, run_key ind hk, run_append]
      by_cases h2 : ps.length + 1 + v.nest ≤ maxNesting
      · obtain ⟨sc1, k1, r1⟩ := run_tree ind v j hv (.objectValue :: ps) (d + 1) (d' + 1) (dst ++ [123] ++ newline ind (d + 1) ++ k ++ [58] ++ [32])
          (by simp only [List.length_cons]; omega)
        rw [r1, Option.bind_some, run_append, deep_more ind l js hl ps (d + 1) (d' + 1) _ sc1 k1 h1 (by omega)]
        rfl
      · rw [deep_tree ind v j hv (.objectValue :: ps) (d + 1) (d' + 1) _ (by simpa using h1) (by simpa using h2)]
        rfl
    · rw [run_none ind _ (deep_openObj ind ps d dst h1)]

theorem deep_rest (ind : GoStr) : ∀ (l : List Tree) (js : List J), ReadsAll l js → ∀ (ps : List Ps) (d d' : Int) (dst : GoStr) (sc : Scan),
    Done sc (.arrayValue :: ps) → ps.length + 1 ≤ maxNesting → ¬ ps.length + (nestAll l + 1) ≤ maxNesting →
    Ind.run ind ⟨sc, false, d, dst⟩ (layRest (fun _ => []) [] d' l) = none
  | [], _, .nil, ps, d, d', dst, sc, h, h0, hn => by rw [nestAll] at hn; omega
  | v :: l, _, .cons (j := j) (js := js) hv hl, ps, d, d', dst, sc, h, h0, hn => by
    rw [nestAll] at hn
    rw [layRest]
    have e : [44] ++ [] ++ lay (fun _ => []) [] d' v ++ layRest (fun _ => []) [] d' l = 44 :: (compact d' v ++ layRest (fun _ => []) [] d' l) := by simp [compact]
    rw [e, run_cons ind _ (next_comma ind h d dst), run_append]
    by_cases h2 : ps.length + 1 + v.nest ≤ maxNesting
    · obtain ⟨sc1, k1, r1⟩ := run_tree ind v j hv (.arrayValue :: ps) d d' (dst ++ [44] ++ newline ind d) (by simp only [List.length_cons]; omega)
      rw [r1, Option.bind_some, deep_rest ind l js hl ps d d' _ sc1 k1 h0 (by omega)]
    · rw [deep_tree ind v j hv (.arrayValue :: ps) d d' _ (by simpa using h0) (by simpa using h2)]
      rfl

theorem deep_more (ind : GoStr) : ∀ (l : List (GoStr × Tree)) (js : List (List Char × J)), ReadsMems l js → ∀ (ps : List Ps) (d d' : Int) (dst : GoStr) (sc : Scan),
    Done sc (.objectValue :: ps) → ps.length + 1 ≤ maxNesting → ¬ ps.length + (nestMems l + 1) ≤ maxNesting →
    Ind.run ind ⟨sc, false, d, dst⟩ (layMore (fun _ => []) [] d' l) = none
  | [], _, .nil, ps, d, d', dst, sc, h, h0, hn => by rw [nestMems] at hn; omega
  | (k, v) :: l, _, .cons (j := j) (js := js) hk hv hl, ps, d, d', dst, sc, h, h0, hn => by
    rw [nestMems] at hn
    rw [layMore]
    have e : [44] ++ [] ++ k ++ [58] ++ [] ++ lay (fun _ => []) [] d' v ++ layMore (fun _ => []) [] d' l =
        44 :: (k ++ [58] ++ (compact d' v ++ layMore (fun _ => []) [] d' l)) := by simp [compact]
    rw [e, run_cons ind _ (next_semi ind h d dst), run_key ind hk, run_append]
    by_cases h2 : ps.length + 1 + v.nest ≤ maxNesting
    · obtain ⟨sc1, k1, r1⟩ := run_tree ind v j hv (.objectValue :: ps) d d' (dst ++ [44] ++ newline ind d ++ k ++ [58] ++ [32]) (by simp only [List.length_cons]; omega)
      rw [r1, Option.bind_some, deep_more ind l js hl ps d d' _ sc1 k1 h0 (by omega)]
    · rw [deep_tree ind v j hv (.objectValue :: ps) d d' _ (by simpa using h0) (by simpa using h2)]
      rfl

end

/-- What is left to do at the end: a line feed. -/
theorem done_lf (ind : GoStr) {sc : Scan} (h : Done sc []) (dst : GoStr) :
    Ind.next ind ⟨sc, false, 0, dst⟩ 10 = some ⟨⟨.endTop, [], true⟩, false, 0, dst ++ [10]⟩ := by
  rcases h with ⟨h1, h2, h3⟩ | ⟨-, rfl⟩
  · obtain ⟨st, stack, top⟩ := sc
    simp only at h1 h2
    subst h1 h2
    simp [Ind.next, h3 10 (by simp), stateEndValue, stateEndTop, isSpace]
  · simp [Ind.next, Scan.next, stateEndTop, isSpace]

/-- `Indent` of a whole text. -/
theorem indent_tree (ind : GoStr) {T : Tree} {j : J} (h : Reads T j) :
    indent (compact 0 T ++ [10]) ind = if T.nest ≤ maxNesting then .ok (pretty ind 0 T ++ [10]) else .error syntaxError := by
  rw [indent, run_append, show ({} : Ind) = ⟨⟨.beginValue, [], false⟩, false, 0, []⟩ from rfl]
  by_cases hn : T.nest ≤ maxNesting
  · obtain ⟨sc, k, r⟩ := run_tree ind T j h [] 0 0 [] (by simpa using hn)
    rw [if_pos hn, r, Option.bind_some, run_cons ind _ (done_lf ind k _), Ind.run]
    simp [Scan.eof]
  · rw [if_neg hn, deep_tree ind T j h [] 0 0 [] (by simp) (by simpa using hn)]
    rfl

/-! ## Line ends -/

theorem crlf_app (a b : GoStr) : crlf (a ++ b) = crlf a ++ crlf b := by simp [crlf]

theorem crlf_same {a : GoStr} (h : ∀ b ∈ a, b ≠ 10) : crlf a = a := by
  induction a with
  | nil => rfl
  | cons c a ih =>
    have := ih fun b hb => h b (by simp [hb])
    rw [crlf] at this ⊢
    rw [List.flatMap_cons, this, if_neg (h c (by simp))]
    rfl

theorem keyOk_line {k : GoStr} {cs : List Char} (h : KeyOk k cs) : ∀ b ∈ k, b ≠ 10 := by
  obtain ⟨q, hq, rfl⟩ := h
  intro b hb he
  subst he
  simp only [List.mem_append, List.mem_singleton] at hb
  rcases hb with (hb | hb) | hb
  · exact absurd hb (by decide)
  · have := strText_bytes hq 10 hb
    exact absurd this (by decide)
  · exact absurd hb (by decide)

mutual

theorem crlf_lay (nl : Int → GoStr) {sp : GoStr} (hsp : ∀ b ∈ sp, b ≠ 10) : ∀ (T : Tree) (j : J), Reads T j → ∀ d : Int,
    crlf (lay nl sp d T) = lay (fun d => crlf (nl d)) sp d T
  | .lit t, j, .lit h, d => by rw [lay, lay, crlf_same h.line]
  | .arr [], _, .arr h, d => by rw [lay, lay]; rfl
  | .arr (v :: l), _, .arr (.cons (j := j) (js := js) hv hl), d => by
    rw [lay, lay]
    simp only [crlf_app]
    rw [crlf_lay nl hsp v j hv, crlf_rest nl hsp l js hl]
    rfl
  | .obj [], _, .obj h, d => by rw [lay, lay]; rfl
  | .obj ((k, v) :: l), _, .obj (.cons (j := j) (js := js) hk hv hl), d => by
    rw [lay, lay]
    simp only [crlf_app]
    rw [crlf_lay nl hsp v j hv, crlf_more nl hsp l js hl, crlf_same (keyOk_line hk), crlf_same hsp]
    rfl

theorem crlf_rest (nl : Int → GoStr) {sp : GoStr} (hsp : ∀ b ∈ sp, b ≠ 10) : ∀ (l : List Tree) (js : List J), ReadsAll l js → ∀ d : Int,
    crlf (layRest nl sp d l) = layRest (fun d => crlf (nl d)) sp d l
  | [], _, .nil, d => by rw [layRest, layRest]; rfl
  | v :: l, _, .cons (j := j) (js := js) hv hl, d => by
    rw [layRest, layRest]
    simp only [crlf_app]
    rw [crlf_lay nl hsp v j hv, crlf_rest nl hsp l js hl]
    rfl

theorem crlf_more (nl : Int → GoStr) {sp : GoStr} (hsp : ∀ b ∈ sp, b ≠ 10) : ∀ (l : List (GoStr × Tree)) (js : List (List Char × J)), ReadsMems l js → ∀ d : Int,
    crlf (layMore nl sp d l) = layMore (fun d => crlf (nl d)) sp d l
  | [], _, .nil, d => by rw [layMore, layMore]; rfl
  | (k, v) :: l, _, .cons (j := j) (js := js) hk hv hl, d => by
    rw [layMore, layMore]
    simp only [crlf_app]
    rw [crlf_lay nl hsp v j hv, crlf_more nl hsp l js hl, crlf_same (keyOk_line hk), crlf_same hsp]
    rfl

end

/-! ## Readers -/

/-- White space. -/
def Blank (w : List Char) : Prop := ∀ c ∈ w, Spec.Json.isSpace c = true

theorem skip_blank {w : List Char} (h : Blank w) (s : List Char) : skip (w ++ s) = skip s := by
  induction w with
  | nil => rfl
  | cons c w ih =>
    have hc := h c (by simp)
    rw [skip] at ih ⊢
    rw [List.cons_append, List.dropWhile_cons, if_pos hc]
    exact ih fun x hx => h x (by simp [hx])

theorem skip_cons {c : Char} (h : Spec.Json.isSpace c = false) (s : List Char) : skip (c :: s) = c :: s := by
  rw [skip, List.dropWhile_cons, h]
  rfl

theorem value_blank {w : List Char} (h : Blank w) (fuel : Nat) (s : List Char) : value fuel (w ++ s) = value fuel s := by
  cases fuel with
  | zero => rw [value, value]
  | succ n => rw [value, value, skip_blank h]

theorem elements_blank {w : List Char} (h : Blank w) (fuel : Nat) (s : List Char) : elements fuel (w ++ s) = elements fuel s := by
  cases fuel with
  | zero => rw [elements, elements]
  | succ n => rw [elements, elements, value_blank h]

theorem members_blank {w : List Char} (h : Blank w) (fuel : Nat) (s : List Char) : members fuel (w ++ s) = members fuel s := by
  cases fuel with
  | zero => rw [members, members]
  | succ n => rw [members, members, skip_blank h]

theorem ends_blank {w : List Char} (h : Blank w) {s : List Char} (hs : Ends s) : Ends (w ++ s) := by
  cases w with
  | nil => exact hs
  | cons c w =>
    intro x hx
    simp only [List.cons_append, List.head?_cons, Option.mem_def, Option.some.injEq] at hx
    subst hx
    have := h c (by simp)
    simp only [Spec.Json.isSpace, Bool.or_eq_true, decide_eq_true_eq] at this
    rcases this with ((rfl | rfl) | rfl) | rfl <;> decide

theorem ends_cons {c : Char} (h : c = ',' ∨ c = ']' ∨ c = '}') (s : List Char) : Ends (c :: s) := by
  intro x hx
  simp only [List.head?_cons, Option.mem_def, Option.some.injEq] at hx
  subst hx
  rcases h with rfl | rfl | rfl <;> decide

/-- A layout of white space. -/
structure Lays (nl : Int → GoStr) (sp : GoStr) (w : Int → List Char) (x : List Char) : Prop where
  nl : ∀ d, nl d = utf8 (w d)
  sp : sp = utf8 x
  blank : ∀ d, Blank (w d)
  blankSp : Blank x

theorem utf8_bracket : utf8 ['['] = [91] ∧ utf8 [']'] = [93] ∧ utf8 ['{'] = [123] ∧ utf8 ['}'] = [125] ∧ utf8 [','] = [44] ∧ utf8 [':'] = [58] ∧ utf8 ['"'] = [34] := by
  decide +kernel

mutual

/-- A reader of a layout gets the value. -/
theorem read_tree {nl : Int → GoStr} {sp : GoStr} {w : Int → List Char} {x : List Char} (H : Lays nl sp w x) :
    ∀ (T : Tree) (j : J), Reads T j → ∀ d : Int, ∃ s, lay nl sp d T = utf8 s ∧ (∃ c l, s = c :: l ∧ Spec.Json.isSpace c = false ∧ c ≠ ']') ∧
      ∀ rest, Ends rest → ∀ fuel, s.length < fuel → value fuel (s ++ rest) = some (j, rest)
  | .lit t, j, .lit h, d => by
    obtain ⟨s, h1, h2, h3⟩ := h.read
    refine ⟨s, by rw [lay, h1], h2, ?_⟩
    intro rest hr fuel hf
    cases fuel with
    | zero => omega
    | succ n => exact h3 rest hr n
  | .arr [], _, .arr .nil, d => by
    refine ⟨['[', ']'], by rw [lay]; decide +kernel, ⟨'[', [']'], rfl, by decide, by decide⟩, ?_⟩
    intro rest hr fuel hf
    cases fuel with
    | zero => omega
    | succ n => simp [value, skip_cons (c := '[') (by decide), skip_cons (c := ']') (by decide)]
  | .arr (v :: l), _, .arr (.cons (j := j) (js := js) hv hl), d => by
    obtain ⟨s1, e1, ⟨c, s1', hc, hcs, hcb⟩, r1⟩ := read_tree H v j hv (d + 1)
    obtain ⟨s2, e2, r2⟩ := read_rest H l js hl (d + 1) (w d) (H.blank d)
    refine ⟨'[' :: (w (d + 1) ++ (s1 ++ s2)), ?_, ⟨_, _, rfl, by decide, by decide⟩, ?_⟩
    · rw [lay, e1, List.append_assoc, List.append_assoc, H.nl d, e2, H.nl, utf8_cons, utf8_append, utf8_append]
      simp [show String.utf8EncodeChar '[' = [91] by decide +kernel]
    · intro rest hr fuel hf
      obtain ⟨n, rfl⟩ : ∃ n, fuel = n + 1 := ⟨fuel - 1, by omega⟩
      simp only [List.length_cons, List.length_append] at hf
      have hlen : 1 ≤ s2.length := r2.1
      have hne : ¬ (skip (w (d + 1) ++ (s1 ++ s2) ++ rest)).head? = some ']' := by
        rw [List.append_assoc, skip_blank (H.blank _), hc, List.cons_append, List.cons_append, skip_cons hcs]
        simp [hcb]
      rw [value, List.cons_append, skip_cons (by decide)]
      simp only [Char.reduceEq, if_false, if_true]
      rw [if_neg hne, List.append_assoc, elements_blank (H.blank _)]
      obtain ⟨m, rfl⟩ : ∃ m, n = m + 1 := ⟨n - 1, by omega⟩
      rw [elements, List.append_assoc, r1 (s2 ++ rest) (r2.2.1 rest) m (by omega), Option.bind_some]
      exact congrArg (Option.map _) (r2.2.2 rest m (by omega) j)
  | .obj [], _, .obj .nil, d => by
    refine ⟨['{', '}'], by rw [lay]; decide +kernel, ⟨'{', ['}'], rfl, by decide, by decide⟩, ?_⟩
    intro rest hr fuel hf
    cases fuel with
    | zero => omega
    | succ n => simp [value, skip_cons (c := '{') (by decide), skip_cons (c := '}') (by decide)]
  | .obj ((k, v) :: l), _, .obj (.cons (cs := cs) (j := j) (js := js) hk hv hl), d => by
    obtain ⟨q, hq, rfl⟩ := hk
    obtain ⟨s1, e1, -, r1⟩ := read_tree H v j hv (d + 1)
    obtain ⟨s2, e2, r2⟩ := read_more H l js hl (d + 1) (w d) (H.blank d)
    refine ⟨'{' :: (w (d + 1) ++ ('"' :: (q ++ '"' :: ':' :: (x ++ (s1 ++ s2))))), ?_, ⟨_, _, rfl, by decide, by decide⟩, ?_⟩
    · rw [lay, e1, List.append_assoc, List.append_assoc, H.nl d, e2, H.nl, H.sp]
      simp only [utf8_cons, utf8_append, show String.utf8EncodeChar '{' = [123] by decide +kernel, show String.utf8EncodeChar '"' = [34] by decide +kernel,
        show String.utf8EncodeChar ':' = [58] by decide +kernel]
      simp
    · intro rest hr fuel hf
      obtain ⟨n, rfl⟩ : ∃ n, fuel = n + 1 := ⟨fuel - 1, by omega⟩
      simp only [List.length_cons, List.length_append] at hf
      have hlen : 1 ≤ s2.length := r2.1
      have hne : ¬ (skip (w (d + 1) ++ ('"' :: (q ++ '"' :: ':' :: (x ++ (s1 ++ s2)))) ++ rest)).head? = some '}' := by
        rw [List.append_assoc, skip_blank (H.blank _), List.cons_append, skip_cons (by decide)]
        simp
      rw [value, List.cons_append, skip_cons (by decide)]
      simp only [Char.reduceEq, if_false, if_true]
      rw [if_neg hne, List.append_assoc, members_blank (H.blank _)]
      obtain ⟨m, rfl⟩ : ∃ m, n = m + 1 := ⟨n - 1, by omega⟩
      rw [members, List.cons_append, skip_cons (by decide)]
      simp only [ne_eq, not_true_eq_false, if_false]
      rw [List.append_assoc, List.cons_append, hq.read, Option.bind_some, List.cons_append, skip_cons (by decide)]
      simp only [ne_eq, not_true_eq_false, if_false]
      rw [List.append_assoc, value_blank H.blankSp, List.append_assoc, r1 (s2 ++ rest) (r2.2.1 rest) m (by omega), Option.bind_some]
      exact congrArg (Option.map _) (r2.2.2 rest m (by omega) cs j)

theorem read_rest {nl : Int → GoStr} {sp : GoStr} {w : Int → List Char} {x : List Char} (H : Lays nl sp w x) :
    ∀ (l : List Tree) (js : List J), ReadsAll l js → ∀ (d : Int) (z : List Char), Blank z →
      ∃ s, layRest nl sp d l ++ (utf8 z ++ [93]) = utf8 s ∧ 1 ≤ s.length ∧ (∀ rest, Ends (s ++ rest)) ∧
      ∀ rest fuel, s.length ≤ fuel → ∀ j : J, (match skip (s ++ rest) with
        | [] => none
        | c :: s => if c = ']' then some ([j], s) else if c = ',' then (elements fuel s).map fun r => (j :: r.1, r.2) else none) = some (j :: js, rest)
  | [], _, .nil, d, z, hz => by
    refine ⟨z ++ [']'], by rw [layRest, utf8_append, utf8_bracket.2.1]; rfl, by simp, fun rest => ?_, fun rest fuel hf j => ?_⟩
    · rw [List.append_assoc]; exact ends_blank hz (ends_cons (by simp) _)
    · rw [List.append_assoc, skip_blank hz, List.singleton_append, skip_cons (by decide)]
      simp
  | v :: l, _, .cons (j := j1) (js := js) hv hl, d, z, hz => by
    obtain ⟨s1, e1, -, r1⟩ := read_tree H v j1 hv d
    obtain ⟨s2, e2, h2, r2, r3⟩ := read_rest H l js hl d z hz
    refine ⟨',' :: (w d ++ (s1 ++ s2)), ?_, by simp, fun rest => ends_cons (by simp) _, fun rest fuel hf j => ?_⟩
    · rw [layRest, e1, List.append_assoc, e2, H.nl, utf8_cons, utf8_append, utf8_append]
      simp [show String.utf8EncodeChar ',' = [44] by decide +kernel]
    · simp only [List.length_cons, List.length_append] at hf
      obtain ⟨m, rfl⟩ : ∃ m, fuel = m + 1 := ⟨fuel - 1, by omega⟩
      rw [List.cons_append, skip_cons (by decide)]
      simp only [Char.reduceEq, if_false, if_true]
      rw [List.append_assoc, elements_blank (H.blank _), elements, List.append_assoc, r1 (s2 ++ rest) (r2 rest) m (by omega), Option.bind_some]
      exact congrArg (Option.map _) (r3 rest m (by omega) j1)

theorem read_more {nl : Int → GoStr} {sp : GoStr} {w : Int → List Char} {x : List Char} (H : Lays nl sp w x) :
    ∀ (l : List (GoStr × Tree)) (js : List (List Char × J)), ReadsMems l js → ∀ (d : Int) (z : List Char), Blank z →
      ∃ s, layMore nl sp d l ++ (utf8 z ++ [125]) = utf8 s ∧ 1 ≤ s.length ∧ (∀ rest, Ends (s ++ rest)) ∧
      ∀ rest fuel, s.length ≤ fuel → ∀ (k : List Char) (j : J), (match skip (s ++ rest) with
        | [] => none
        | c :: s => if c = '}' then some ([(k, j)], s) else if c = ',' then (members fuel s).map fun r => ((k, j) :: r.1, r.2) else none) = some ((k, j) :: js, rest)
  | [], _, .nil, d, z, hz => by
    refine ⟨z ++ ['}'], by rw [layMore, utf8_append, utf8_bracket.2.2.2.1]; rfl, by simp, fun rest => ?_, fun rest fuel hf k j => ?_⟩
    · rw [List.append_assoc]; exact ends_blank hz (ends_cons (by simp) _)
    · rw [List.append_assoc, skip_blank hz, List.singleton_append, skip_cons (by decide)]
      simp
  | (k1, v) :: l, _, .cons (cs := cs) (j := j1) (js := js) hk hv hl, d, z, hz => by
    obtain ⟨q, hq, rfl⟩ := hk
    obtain ⟨s1, e1, -, r1⟩ := read_tree H v j1 hv d
    obtain ⟨s2, e2, h2, r2, r3⟩ := read_more H l js hl d z hz
    refine ⟨',' :: (w d ++ ('"' :: (q ++ '"' :: ':' :: (x ++ (s1 ++ s2))))), ?_, by simp, fun rest => ends_cons (by simp) _, fun rest fuel hf k j => ?_⟩
    · rw [layMore, e1, List.append_assoc, e2, H.nl, H.sp]
      simp only [utf8_cons, utf8_append, show String.utf8EncodeChar ',' = [44] by decide +kernel, show String.utf8EncodeChar '"' = [34] by decide +kernel,
        show String.utf8EncodeChar ':' = [58] by decide +kernel]
      simp
    · simp only [List.length_cons, List.length_append] at hf
      obtain ⟨m, rfl⟩ : ∃ m, fuel = m + 1 := ⟨fuel - 1, by omega⟩
      rw [List.cons_append, skip_cons (by decide)]
      simp only [Char.reduceEq, if_false, if_true]
      rw [List.append_assoc, members_blank (H.blank _), members, List.cons_append, skip_cons (by decide)]
      simp only [ne_eq, not_true_eq_false, if_false]
      rw [List.append_assoc, List.cons_append, hq.read, Option.bind_some, List.cons_append, skip_cons (by decide)]
      simp only [ne_eq, not_true_eq_false, if_false]
      rw [List.append_assoc, value_blank H.blankSp, List.append_assoc, r1 (s2 ++ rest) (r2 rest) m (by omega), Option.bind_some]
      exact congrArg (Option.map _) (r3 rest m (by omega) cs j1)

end

end Verif.Json
