import Verif.Proofs.JsonRead

/-! # What `compact` does to a text -/

set_option autoImplicit false

namespace Verif.Json
open Verif.Spec.Json

/-! ## Numbers -/

theorem chr_ofDigit {c : Char} (h : Spec.Json.isDigit c = true) : ∃ b, chr b = c ∧ digit b = true := by
  have h' : 48 ≤ c.toNat ∧ c.toNat ≤ 57 := by simpa [Spec.Json.isDigit] using h
  have e : c.toNat.toUInt8.toNat = c.toNat := by simp; omega
  refine ⟨c.toNat.toUInt8, ?_, ?_⟩
  · rw [chr, e, ofNat_toNat]
  · rw [digit_iff, e]; exact h'

theorem digits_bytes : ∀ {s : List Char}, (∀ c ∈ s, Spec.Json.isDigit c = true) → ∃ d : GoStr, d.map chr = s ∧ ∀ b ∈ d, digit b = true
  | [], _ => ⟨[], rfl, fun b hb => by cases hb⟩
  | c :: s, h => by
    obtain ⟨b, h1, h2⟩ := chr_ofDigit (h c List.mem_cons_self)
    obtain ⟨d, h3, h4⟩ := digits_bytes fun x hx => h x (List.mem_cons_of_mem _ hx)
    refine ⟨b :: d, by rw [List.map_cons, h1, h3], fun x hx => ?_⟩
    rcases List.mem_cons.1 hx with rfl | hx
    · exact h2
    · exact h4 x hx

/-- The digits at the beginning. -/
theorem takeWhile_bytes (s : List Char) : ∃ d : GoStr, s.takeWhile Spec.Json.isDigit = d.map chr ∧ (∀ b ∈ d, digit b = true) ∧ s = d.map chr ++ s.dropWhile Spec.Json.isDigit := by
  obtain ⟨d, h1, h2⟩ := digits_bytes (s := s.takeWhile Spec.Json.isDigit) fun c hc => mem_takeWhile hc
  exact ⟨d, h1.symm, h2, by rw [h1]; exact takeWhile_split _ _⟩

theorem magnitude_bytes {s r : List Char} {e : Int} (h : magnitude s = some (e, r)) : ∃ d, s = d.map chr ++ r ∧ Digits d ∧ e = Spec.Json.decimal (d.map chr) := by
  obtain ⟨d, h1, h2, h3⟩ := takeWhile_bytes s
  rw [magnitude] at h
  split at h
  · cases h
  · rename_i hn
    simp only [Option.some.injEq, Prod.mk.injEq] at h
    rw [h.2] at h3
    refine ⟨d, h3, ⟨fun hd => hn (by rw [h1, hd]; rfl), h2⟩, by rw [← h1]; exact h.1.symm⟩

theorem exponent_bytes {s r : List Char} {e : Int} (h : exponent s = some (e, r)) : ∃ x, s = x.map chr ++ r ∧ ExpPart x e := by
  match s with
  | [] => cases h; exact ⟨[], rfl, .inl ⟨rfl, rfl⟩⟩
  | [c] =>
    simp only [exponent] at h
    split at h
    · cases h
    · cases h
      exact ⟨[], rfl, .inl ⟨rfl, rfl⟩⟩
  | c :: x :: s =>
    by_cases hc : c = 'e' ∨ c = 'E'
    · rw [exponent_cons hc] at h
      obtain ⟨a, ha, hac⟩ : ∃ a : Byte, (a = 101 ∨ a = 69) ∧ chr a = c := by
        rcases hc with rfl | rfl
        · exact ⟨101, .inl rfl, by decide⟩
        · exact ⟨69, .inr rfl, by decide⟩
      by_cases h1 : x = '+'
      · rw [if_pos h1] at h
        obtain ⟨d, rfl, hd, he⟩ := magnitude_bytes h
        exact ⟨a :: ([43] ++ d), by rw [h1, ← hac]; rfl, .inr ⟨a, [43], d, ha, hd, rfl, .inl ⟨.inr rfl, he⟩⟩⟩
      · rw [if_neg h1] at h
        by_cases h2 : x = '-'
        · rw [if_pos h2] at h
          cases hm : magnitude s with
          | none => rw [hm] at h; cases h
          | some q =>
            obtain ⟨m, r⟩ := q
            rw [hm] at h
            simp only [Option.map_some, Option.some.injEq, Prod.mk.injEq] at h
            obtain ⟨he, rfl⟩ := h
            obtain ⟨d, rfl, hd, hm'⟩ := magnitude_bytes hm
            exact ⟨a :: ([45] ++ d), by rw [h2, ← hac]; rfl, .inr ⟨a, [45], d, ha, hd, rfl, .inr ⟨rfl, by rw [← he, hm']⟩⟩⟩
        · rw [if_neg h2] at h
          obtain ⟨d, hx, hd, he⟩ := magnitude_bytes h
          exact ⟨a :: ([] ++ d), by rw [hx, ← hac]; rfl, .inr ⟨a, [], d, ha, hd, rfl, .inl ⟨.inl rfl, he⟩⟩⟩
    · simp only [exponent, if_neg hc] at h
      cases h
      exact ⟨[], rfl, .inl ⟨rfl, rfl⟩⟩

theorem fraction_bytes {s ds r : List Char} (h : fraction s = some (ds, r)) : ∃ f d, FracPart f d ∧ s = f.map chr ++ r ∧ ds = d.map chr := by
  match s with
  | [] => cases h; exact ⟨[], [], .inl ⟨rfl, rfl⟩, rfl, rfl⟩
  | c :: s =>
    rw [fraction] at h
    split at h
    · rename_i hc
      split at h
      · cases h
      · rename_i hn
        obtain ⟨d, h1, h2, h3⟩ := takeWhile_bytes s
        simp only [Option.some.injEq, Prod.mk.injEq] at h
        refine ⟨46 :: d, d, .inr ⟨⟨fun hd => hn (by rw [h1, hd]; rfl), h2⟩, rfl⟩, ?_, by rw [← h.1, h1]⟩
        rw [hc, ← h.2, List.map_cons, List.cons_append, ← h3]
        rfl
    · cases h
      exact ⟨[], [], .inl ⟨rfl, rfl⟩, rfl, rfl⟩

theorem unsigned_bytes {s r : List Char} {n : Nat} {e : Int} (h : unsigned s = some ((n, e), r)) :
    ∃ (int f d x : GoStr) (ex : Int), IntPart int ∧ FracPart f d ∧ ExpPart x ex ∧ s = (int ++ f ++ x).map chr ++ r ∧ n = Spec.Json.decimal ((int ++ d).map chr) ∧ e = ex - d.length := by
  obtain ⟨int, h1, h2, h3⟩ := takeWhile_bytes s
  simp only [unsigned] at h
  split at h
  · cases h
  · rename_i hn
    rw [h1] at hn h
    cases hf : fraction (s.dropWhile Spec.Json.isDigit) with
    | none => rw [hf] at h; cases h
    | some q =>
      obtain ⟨ds, r⟩ := q
      rw [hf, Option.bind_some] at h
      cases he : exponent r with
      | none => simp only [he] at h; cases h
      | some q =>
        obtain ⟨ex, r'⟩ := q
        simp only [he, Option.map_some, Option.some.injEq, Prod.mk.injEq] at h
        obtain ⟨⟨hn', he'⟩, rfl⟩ := h
        obtain ⟨f, d, k1, k2, rfl⟩ := fraction_bytes hf
        obtain ⟨x, rfl, k3⟩ := exponent_bytes he
        refine ⟨int, f, d, x, ex, ⟨⟨fun hi => hn (.inl (by rw [hi]; rfl)), h2⟩, ?_⟩, k1, k3, ?_, ?_, ?_⟩
        · intro hh
          match int, hh with
          | b :: l, hh =>
            simp only [List.head?_cons, Option.some.injEq] at hh
            subst hh
            have : ¬ ¬ (List.map chr (48 :: l) = ['0']) := fun hne => hn (.inr ⟨by simp only [List.map_cons, List.head?_cons]; decide, hne⟩)
            have := Decidable.not_not.1 this
            simp only [List.map_cons, List.cons.injEq, List.map_eq_nil_iff] at this
            rw [this.2]
        · rw [h3, k2]; simp
        · rw [← hn']; simp
        · rw [← he']; simp

theorem number_bytes {s r : List Char} {m e : Int} (h : Spec.Json.number s = some ((m, e), r)) : ∃ t, s = t.map chr ++ r ∧ NumText t m e := by
  match s with
  | [] => cases h
  | c :: s =>
    rw [Spec.Json.number] at h
    split at h
    · rename_i hc
      cases hu : unsigned s with
      | none => rw [hu] at h; cases h
      | some q =>
        obtain ⟨⟨n, e'⟩, r⟩ := q
        rw [hu] at h
        simp only [Option.map_some, Option.some.injEq, Prod.mk.injEq] at h
        obtain ⟨⟨hm, he⟩, rfl⟩ := h
        obtain ⟨int, f, d, x, ex, h1, h2, h3, rfl, h5, h6⟩ := unsigned_bytes hu
        exact ⟨[45] ++ int ++ f ++ x, by rw [hc]; rfl, true, int, f, d, x, ex, h1, h2, h3, rfl, by rw [← hm, h5]; rfl, by rw [← he, h6]⟩
    · cases hu : unsigned (c :: s) with
      | none => rw [hu] at h; cases h
      | some q =>
        obtain ⟨⟨n, e'⟩, r⟩ := q
        rw [hu] at h
        simp only [Option.map_some, Option.some.injEq, Prod.mk.injEq] at h
        obtain ⟨⟨hm, he⟩, rfl⟩ := h
        obtain ⟨int, f, d, x, ex, h1, h2, h3, h4, h5, h6⟩ := unsigned_bytes hu
        exact ⟨int ++ f ++ x, h4, false, int, f, d, x, ex, h1, h2, h3, rfl, by rw [← hm, h5]; rfl, by rw [← he, h6]⟩

/-! ## Strings, numbers, words -/

theorem strText_ok {q cs : List Char} (h : StrText q cs) : LitOk ([34] ++ utf8 q ++ [34]) (.str cs) where
  read := by
    refine ⟨'"' :: (q ++ ['"']), ?_, ⟨_, _, rfl, by decide, by decide⟩, ?_⟩
    · rw [utf8_cons, utf8_append, utf8_bracket.2.2.2.2.2.2, show String.utf8EncodeChar '"' = [34] by decide +kernel, List.append_assoc]
    · intro rest _ fuel
      rw [value, List.cons_append, skip_cons (by decide)]
      simp only [if_true]
      rw [List.append_assoc, List.singleton_append, h.read]
      rfl
  scan ps := ⟨_, done_endValue ps, over_string h (by simp [Scan.next, stateBeginValue, isSpace])⟩
  start := ⟨34, utf8 q ++ [34], by simp, by decide, by decide⟩
  line := keyOk_line ⟨q, h, rfl⟩

theorem word_ok : LitOk (lit "null") .null ∧ LitOk (lit "true") (.bool true) ∧ LitOk (lit "false") (.bool false) := by
  have key : ∀ (w : GoStr) (s : List Char) (c : Char) (l : List Char) (j : J), w ∈ [lit "null", lit "true", lit "false"] → w = utf8 s → s = c :: l →
      Spec.Json.isSpace c = false → c ≠ ']' → (∀ rest fuel, value (fuel + 1) (s ++ rest) = some (j, rest)) →
      (∃ b l, w = b :: l ∧ isSpace b = false ∧ b ≠ 93) → (∀ b ∈ w, b ≠ 10) → LitOk w j := by
    intro w s c l j h1 h2 h3 h4 h5 h6 h7 h8
    exact ⟨⟨s, h2, ⟨c, l, h3, h4, h5⟩, fun rest _ fuel => h6 rest fuel⟩, fun ps => ⟨_, done_endValue ps, over_word ps w h1⟩, h7, h8⟩
  refine ⟨key _ ['n', 'u', 'l', 'l'] _ _ _ (by simp) (by decide +kernel) rfl (by decide) (by decide) ?_ ⟨110, [117, 108, 108], by decide +kernel⟩ (by decide +kernel),
    key _ ['t', 'r', 'u', 'e'] _ _ _ (by simp) (by decide +kernel) rfl (by decide) (by decide) ?_ ⟨116, [114, 117, 101], by decide +kernel⟩ (by decide +kernel),
    key _ ['f', 'a', 'l', 's', 'e'] _ _ _ (by simp) (by decide +kernel) rfl (by decide) (by decide) ?_ ⟨102, [97, 108, 115, 101], by decide +kernel⟩ (by decide +kernel)⟩
  all_goals
    intro rest fuel
    rw [value, List.cons_append, skip_cons (by decide)]
    simp [word]

theorem number_ok {t : GoStr} {m e : Int} (h : NumText t m e) : LitOk t (.num m e) where
  read := by
    obtain ⟨b, l, rfl, hb⟩ := h.first
    have hc : chr b = '-' ∨ Spec.Json.isDigit (chr b) = true := by
      rcases hb with rfl | hb
      · exact .inl (by decide)
      · exact .inr (by rw [isDigit_chr]; exact hb)
    have hn : ∀ c : Char, c = '-' ∨ Spec.Json.isDigit c = true →
        Spec.Json.isSpace c = false ∧ c ≠ '"' ∧ c ≠ '[' ∧ c ≠ '{' ∧ c ≠ 'n' ∧ c ≠ 't' ∧ c ≠ 'f' ∧ c ≠ ']' := by
      intro c hc
      rcases hc with rfl | hc
      · decide
      · simp only [Spec.Json.isDigit, decide_eq_true_eq] at hc
        have ne : ∀ x : Char, (x.toNat < 48 ∨ 57 < x.toNat) → c ≠ x := by
          intro x hx he
          subst he
          omega
        have n1 := ne ' ' (by decide)
        have n2 := ne '\t' (by decide)
        have n3 := ne '\n' (by decide)
        have n4 := ne '\r' (by decide)
        refine ⟨by simp [Spec.Json.isSpace, n1, n2, n3, n4], ne _ (by decide), ne _ (by decide), ne _ (by decide), ne _ (by decide), ne _ (by decide), ne _ (by decide), ne _ (by decide)⟩
    obtain ⟨n1, n2, n3, n4, n5, n6, n7, n8⟩ := hn _ hc
    refine ⟨(b :: l).map chr, (utf8_chrs fun x hx => (h.ascii x hx).1).symm, ⟨chr b, l.map chr, rfl, n1, n8⟩, ?_⟩
    intro rest hr fuel
    have := h.read hr
    rw [List.map_cons, List.cons_append] at this ⊢
    rw [value, skip_cons n1]
    simp only [n2, n3, n4, n5, n6, n7, if_false]
    rw [this]
    rfl
  scan ps := by
    obtain ⟨st, h1, h2⟩ := over_number ps h
    exact ⟨_, done_num h1 ps, h2⟩
  start := by
    obtain ⟨b, l, rfl, hb⟩ := h.first
    refine ⟨b, l, rfl, ?_⟩
    rcases hb with rfl | hb
    · decide
    · exact ⟨(digit_not hb).1, (punct_false (digit_not hb).2.1).2.2.2.2.2⟩
  line b hb := (h.ascii b hb).2

theorem ends_nil : Ends [] := by intro c hc; cases hc

/-! ## Strings that are read -/

theorem hex4_some {s r : List Char} {n : Nat} (h : hex4 s = some (n, r)) : ∃ x y z w, s = x :: y :: z :: w :: r ∧ hex4 [x, y, z, w] = some (n, []) := by
  match s, h with
  | x :: y :: z :: w :: s, h =>
    refine ⟨x, y, z, w, ?_⟩
    simp only [hex4, bind] at h ⊢
    cases h1 : hex x <;> cases h2 : hex y <;> cases h3 : hex z <;> cases h4 : hex w <;> simp_all

/-- An escape, and what it stands for. -/
theorem escape_text {s r : List Char} {c : Char} (h : escape s = some (c, r)) :
    ∃ x, s = x ++ r ∧ ∀ q cs, StrText q cs → StrText ('\\' :: (x ++ q)) (c :: cs) := by
  have one : ∀ y z : Char, (y, z) ∈ simple → s = y :: r → c = z → ∃ x, s = x ++ r ∧ ∀ q cs, StrText q cs → StrText ('\\' :: (x ++ q)) (c :: cs) := by
    intro y z hm hs hc
    subst hs hc
    exact ⟨[y], rfl, fun q cs hq => .simple hm hq⟩
  match s, h with
  | x :: s, h =>
    rw [escape] at h
    split at h
    · rename_i hx
      simp only [Option.some.injEq, Prod.mk.injEq] at h
      obtain ⟨rfl, rfl⟩ := h
      exact one x x (by rcases hx with rfl | rfl | rfl <;> decide) rfl rfl
    · split at h
      · rename_i _ hx
        simp only [Option.some.injEq, Prod.mk.injEq] at h
        obtain ⟨rfl, rfl⟩ := h
        subst hx
        exact one 'b' _ (by decide) rfl rfl
      · split at h
        · rename_i _ _ hx
          simp only [Option.some.injEq, Prod.mk.injEq] at h
          obtain ⟨rfl, rfl⟩ := h
          subst hx
          exact one 'f' _ (by decide) rfl rfl
        · split at h
          · rename_i _ _ _ hx
            simp only [Option.some.injEq, Prod.mk.injEq] at h
            obtain ⟨rfl, rfl⟩ := h
            subst hx
            exact one 'n' _ (by decide) rfl rfl
          · split at h
            · rename_i _ _ _ _ hx
              simp only [Option.some.injEq, Prod.mk.injEq] at h
              obtain ⟨rfl, rfl⟩ := h
              subst hx
              exact one 'r' _ (by decide) rfl rfl
            · split at h
              · rename_i _ _ _ _ _ hx
                simp only [Option.some.injEq, Prod.mk.injEq] at h
                obtain ⟨rfl, rfl⟩ := h
                subst hx
                exact one 't' _ (by decide) rfl rfl
              · split at h
                · rename_i _ _ _ _ _ _ hx
                  subst hx
                  unfold codeUnits at h
                  cases hh : hex4 s with
                  | none => rw [hh] at h; cases h
                  | some p =>
                    obtain ⟨n, r1⟩ := p
                    obtain ⟨x, y, z, w, rfl, hx⟩ := hex4_some hh
                    rw [hh] at h
                    simp only [bind, Option.bind_some] at h
                    split at h
                    · rename_i hn
                      split at h
                      · rename_i r2
                        cases hh' : hex4 r2 with
                        | none => rw [hh'] at h; cases h
                        | some p =>
                          obtain ⟨m, r3⟩ := p
                          obtain ⟨x', y', z', w', rfl, hx'⟩ := hex4_some hh'
                          rw [hh'] at h
                          simp only [Option.bind_some] at h
                          split at h
                          · rename_i hm
                            simp only [Option.some.injEq, Prod.mk.injEq] at h
                            obtain ⟨rfl, rfl⟩ := h
                            exact ⟨['u', x, y, z, w, '\\', 'u', x', y', z', w'], rfl, fun q cs hq => .pair hx hn.1 hn.2 hx' hm.1 hm.2 hq⟩
                          · cases h
                      · cases h
                    · split at h
                      · rename_i hv
                        simp only [Option.some.injEq, Prod.mk.injEq] at h
                        obtain ⟨rfl, rfl⟩ := h
                        exact ⟨['u', x, y, z, w], rfl, fun q cs hq => .code hx hv hq⟩
                      · cases h
                · cases h

theorem stringBody_text : ∀ (fuel : Nat) {s cs rest : List Char}, stringBody fuel s = some (cs, rest) → ∃ q, s = q ++ '"' :: rest ∧ StrText q cs
  | 0, _, _, _, h => by cases h
  | fuel + 1, [], _, _, h => by cases h
  | fuel + 1, c :: s, cs, rest, h => by
    rw [stringBody] at h
    split at h
    · rename_i hc
      cases h
      exact ⟨[], by rw [hc]; rfl, .nil⟩
    · rename_i h1
      split at h
      · rename_i hc
        cases he : escape s with
        | none => rw [he] at h; cases h
        | some p =>
          obtain ⟨x, r⟩ := p
          rw [he, Option.bind_some] at h
          cases hb : stringBody fuel r with
          | none => simp only [hb] at h; cases h
          | some p =>
            obtain ⟨cs', r'⟩ := p
            simp only [hb, Option.map_some, Option.some.injEq, Prod.mk.injEq] at h
            obtain ⟨rfl, rfl⟩ := h
            obtain ⟨q, rfl, hq⟩ := stringBody_text fuel hb
            obtain ⟨e, rfl, hE⟩ := escape_text he
            exact ⟨'\\' :: (e ++ q), by rw [hc]; simp, hE q _ hq⟩
      · rename_i h2
        split at h
        · cases h
        · rename_i h3
          cases hb : stringBody fuel s with
          | none => rw [hb] at h; cases h
          | some p =>
            obtain ⟨cs', r'⟩ := p
            simp only [hb, Option.map_some, Option.some.injEq, Prod.mk.injEq] at h
            obtain ⟨rfl, rfl⟩ := h
            obtain ⟨q, rfl, hq⟩ := stringBody_text fuel hb
            exact ⟨c :: q, rfl, .raw (by omega) h1 h2 hq⟩

/-! ## What is copied -/

theorem squeeze_append (t u : GoStr) : ∀ s : Scan, s.squeeze (t ++ u) = (s.squeeze t).bind fun q => (q.1.squeeze u).map fun r => (r.1, q.2 ++ r.2) := by
  induction t with
  | nil => intro s; simp [Scan.squeeze]
  | cons c t ih =>
    intro s
    rw [List.cons_append, Scan.squeeze, Scan.squeeze]
    split
    · rfl
    · rw [ih]
      cases (s.next c).1.squeeze t with
      | none => rfl
      | some q =>
        simp only [Option.bind_some, Option.map_some]
        cases q.1.squeeze u with
        | none => rfl
        | some r =>
          simp only [Option.map_some]
          split <;> simp

theorem squeeze_over : ∀ (t : GoStr) {s s' : Scan}, s.over t = some s' → s.squeeze t = some (s', t)
  | [], s, s', h => by cases h; rfl
  | c :: t, s, s', h => by
    rw [Scan.over] at h
    split at h
    · rename_i hc
      rw [Scan.squeeze, squeeze_over t h]
      rcases hc with hc | ⟨hc, -⟩ <;> simp [hc]
    · cases h

theorem squeeze_same {s : Scan} : ∀ {t : GoStr}, (∀ b ∈ t, s.next b = (s, .skipSpace)) → s.squeeze t = some (s, [])
  | [], _ => rfl
  | b :: t, h => by
    rw [Scan.squeeze, h b (by simp), squeeze_same fun x hx => h x (by simp [hx])]
    simp

/-- One byte that is copied. -/
theorem squeeze_one {s s' : Scan} {c : Byte} {k : Code} (h : s.next c = (s', k)) (h1 : k ≠ .error) (h2 : k ≠ .skipSpace) (h3 : k ≠ .end) : s.squeeze [c] = some (s', [c]) := by
  rw [Scan.squeeze, h]
  simp [h1, h2, h3, Scan.squeeze]

theorem blank_bytes {w : List Char} (h : Blank w) : ∀ b ∈ utf8 w, isSpace b = true := by
  induction w with
  | nil => intro b hb; cases hb
  | cons c w ih =>
    intro b hb
    rw [utf8_cons] at hb
    rcases List.mem_append.1 hb with hb | hb
    · have hc := h c (by simp)
      simp only [Spec.Json.isSpace, Bool.or_eq_true, decide_eq_true_eq] at hc
      have key : ∀ c ∈ [' ', '\t', '\n', '\r'], ∀ b ∈ String.utf8EncodeChar c, isSpace b = true := by decide +kernel
      exact key c (by rcases hc with ((rfl | rfl) | rfl) | rfl <;> simp) b hb
    · exact ih (fun x hx => h x (by simp [hx])) b hb

theorem squeeze_begin {st : St} (hst : st = .beginValue ∨ st = .beginValueOrEmpty ∨ st = .beginString ∨ st = .beginStringOrEmpty) (ps : List Ps) {w : List Char} (h : Blank w) :
    Scan.squeeze ⟨st, ps, false⟩ (utf8 w) = some (⟨st, ps, false⟩, []) :=
  squeeze_same fun b hb => by
    have := blank_bytes h b hb
    rcases hst with rfl | rfl | rfl | rfl <;> simp [Scan.next, stateBeginValue, stateBeginString, this]

theorem space_cases {b : Byte} (h : isSpace b = true) : b = 10 ∨ b = 32 ∨ b = 9 ∨ b = 13 := by
  simp only [isSpace, Bool.or_eq_true, decide_eq_true_eq] at h
  rcases h with ((h | h) | h) | h <;> simp [h]

theorem squeeze_done {sc : Scan} {p : Ps} {ps : List Ps} (hd : Done sc (p :: ps)) {w : List Char} (h : Blank w) :
    ∃ sc', Done sc' (p :: ps) ∧ sc.squeeze (utf8 w) = some (sc', []) := by
  have hb := blank_bytes h
  generalize utf8 w = t at hb
  cases t with
  | nil => exact ⟨sc, hd, rfl⟩
  | cons b t =>
    have h1 := hb b (by simp)
    obtain ⟨st, rfl, hn⟩ := done_next hd (c := b) (by rcases space_cases h1 with h | h | h | h <;> simp [h])
    refine ⟨⟨.endValue, p :: ps, false⟩, done_endValue _, ?_⟩
    rw [Scan.squeeze, hn]
    simp only [stateEndValue, h1, if_true]
    rw [squeeze_same fun x hx => by simp [Scan.next, stateEndValue, hb x (by simp [hx])]]
    simp

theorem squeeze_top {sc : Scan} (hd : Done sc []) {w : List Char} (h : Blank w) : ∃ sc', sc'.eof = true ∧ sc.squeeze (utf8 w) = some (sc', []) := by
  have hb := blank_bytes h
  have hend : ∀ t : GoStr, (∀ b ∈ t, isSpace b = true) → Scan.squeeze ⟨.endTop, [], true⟩ t = some (⟨.endTop, [], true⟩, []) := by
    intro t
    induction t with
    | nil => intro _; rfl
    | cons b t ih =>
      intro ht
      rw [Scan.squeeze]
      simp only [Scan.next, stateEndTop, ht b (by simp), if_true]
      rw [ih fun x hx => ht x (by simp [hx])]
      simp
  rcases hd with ⟨h1, h2, h3⟩ | ⟨-, rfl⟩
  · obtain ⟨st, stack, top⟩ := sc
    simp only at h1 h2
    subst h1 h2
    generalize utf8 w = t at hb
    cases t with
    | nil =>
      refine ⟨_, ?_, rfl⟩
      rw [Scan.eof, h3 32 (by simp)]
      simp [stateEndValue, stateEndTop]
    | cons b t =>
      have hs := hb b (by simp)
      refine ⟨⟨.endTop, [], true⟩, rfl, ?_⟩
      rw [Scan.squeeze, h3 b (by rcases space_cases hs with h | h | h | h <;> simp [h])]
      simp only [stateEndValue, stateEndTop, hs, if_true]
      rw [hend t fun x hx => hb x (by simp [hx])]
      simp
  · exact ⟨_, rfl, hend _ hb⟩

/-- Where there may be a first element. -/
theorem squeeze_enter (ps : List Ps) {c : Byte} (t : GoStr) (h1 : isSpace c = false) (h2 : c ≠ 93) :
    Scan.squeeze ⟨.beginValueOrEmpty, ps, false⟩ (c :: t) = Scan.squeeze ⟨.beginValue, ps, false⟩ (c :: t) := by
  obtain ⟨e1, e2, -, -⟩ := beginValue_same ps h1 h2
  rw [Scan.squeeze, Scan.squeeze]
  simp only [e1]
  by_cases he : ((⟨.beginValue, ps, false⟩ : Scan).next c).2 = .error
  · simp [he]
  · simp only [he, if_false, e2 he]

theorem squeeze_enterKey (ps : List Ps) (t : GoStr) :
    Scan.squeeze ⟨.beginStringOrEmpty, ps, false⟩ (34 :: t) = Scan.squeeze ⟨.beginString, ps, false⟩ (34 :: t) := by
  rw [Scan.squeeze, Scan.squeeze]
  simp [Scan.next, stateBeginString, isSpace]

/-! ## Texts without layout do not depend on where they stand -/

mutual

theorem compact_same : ∀ (T : Tree) (d d' : Int), lay (fun _ => []) [] d T = lay (fun _ => []) [] d' T
  | .lit t, _, _ => by rw [lay, lay]
  | .arr [], _, _ => by rw [lay, lay]
  | .arr (v :: l), d, d' => by rw [lay, lay, compact_same v (d + 1) (d' + 1), rest_same l (d + 1) (d' + 1)]
  | .obj [], _, _ => by rw [lay, lay]
  | .obj ((k, v) :: l), d, d' => by rw [lay, lay, compact_same v (d + 1) (d' + 1), more_same l (d + 1) (d' + 1)]

theorem rest_same : ∀ (l : List Tree) (d d' : Int), layRest (fun _ => []) [] d l = layRest (fun _ => []) [] d' l
  | [], _, _ => by rw [layRest, layRest]
  | v :: l, d, d' => by rw [layRest, layRest, compact_same v d d', rest_same l d d']

theorem more_same : ∀ (l : List (GoStr × Tree)) (d d' : Int), layMore (fun _ => []) [] d l = layMore (fun _ => []) [] d' l
  | [], _, _ => by rw [layMore, layMore]
  | (k, v) :: l, d, d' => by rw [layMore, layMore, compact_same v d d', more_same l d d']

end

/-! ## The tree of a text -/

theorem goes_app {s s1 s2 : Scan} {t u o1 o2 : GoStr} (h1 : s.squeeze t = some (s1, o1)) (h2 : s1.squeeze u = some (s2, o2)) : s.squeeze (t ++ u) = some (s2, o1 ++ o2) := by
  rw [squeeze_append, h1, Option.bind_some, h2]
  rfl

theorem stops_app {s s1 : Scan} {t u o1 : GoStr} (h1 : s.squeeze t = some (s1, o1)) (h2 : s1.squeeze u = none) : s.squeeze (t ++ u) = none := by
  rw [squeeze_append, h1, Option.bind_some, h2]
  rfl

theorem stops_left {s : Scan} {t : GoStr} (u : GoStr) (h1 : s.squeeze t = none) : s.squeeze (t ++ u) = none := by
  rw [squeeze_append, h1]
  rfl

/-- The scanner gets through a text and copies `out`, if it is not nested too deep. -/
def Sq (s : Scan) (t out : GoStr) (ps : List Ps) (n : Nat) : Prop :=
  (n ≤ maxNesting → ∃ sc, Done sc ps ∧ s.squeeze t = some (sc, out)) ∧ (¬ n ≤ maxNesting → s.squeeze t = none)

/-- A text without space around it is a value. -/
structure ValText (pre : List Char) (T : Tree) (j : J) : Prop where
  reads : Reads T j
  nest : T.nest = j.nest
  outline : Outline j T
  start : ∃ b l, utf8 pre = b :: l ∧ isSpace b = false ∧ b ≠ 93
  scan : ∀ ps, ps.length ≤ maxNesting → Sq ⟨.beginValue, ps, false⟩ (utf8 pre) (compact 0 T) ps (ps.length + T.nest)

/-- A text is the rest of an array. -/
structure ElemText (pre : List Char) (v : Tree) (l : List Tree) (js : List J) : Prop where
  reads : ReadsAll (v :: l) js
  nest : nestAll (v :: l) = nestJs js
  outline : Outline (.arr js) (.arr (v :: l))
  start : ∃ b l, utf8 pre = b :: l ∧ isSpace b = false ∧ b ≠ 93
  scan : ∀ ps, ps.length + 1 ≤ maxNesting → Sq ⟨.beginValue, .arrayValue :: ps, false⟩ (utf8 pre) (compact 0 v ++ layRest (fun _ => []) [] 0 l ++ [93]) ps
    (ps.length + (nestAll (v :: l) + 1))

/-- A text is the rest of an object. -/
structure MemText (pre : List Char) (k : GoStr) (v : Tree) (l : List (GoStr × Tree)) (js : List (List Char × J)) : Prop where
  reads : ReadsMems ((k, v) :: l) js
  nest : nestMems ((k, v) :: l) = nestJms js
  outline : Outline (.obj js) (.obj ((k, v) :: l))
  start : ∃ l, utf8 pre = 34 :: l
  scan : ∀ ps, ps.length + 1 ≤ maxNesting → Sq ⟨.beginString, .objectKey :: ps, false⟩ (utf8 pre) (k ++ [58] ++ compact 0 v ++ layMore (fun _ => []) [] 0 l ++ [125]) ps
    (ps.length + (nestMems ((k, v) :: l) + 1))

theorem ValText.lit {pre : List Char} {j : J} (h : LitOk (utf8 pre) j) (hj : j.nest = 0) : ValText pre (.lit (utf8 pre)) j where
  reads := .lit h
  nest := by rw [Tree.nest, hj]
  outline := .lit _ hj
  start := h.start
  scan ps h0 := by
    obtain ⟨sc, hd, hs⟩ := h.scan ps
    rw [compact, lay, Tree.nest]
    exact ⟨fun _ => ⟨sc, hd, squeeze_over _ hs⟩, fun hn => absurd h0 hn⟩

theorem skip_split : ∀ {s : List Char} {c : Char} {r : List Char}, skip s = c :: r → ∃ w, Blank w ∧ s = w ++ c :: r ∧ Spec.Json.isSpace c = false
  | [], _, _, h => by cases h
  | x :: s, c, r, h => by
    cases hx : Spec.Json.isSpace x with
    | false =>
      rw [skip_cons hx] at h
      cases h
      exact ⟨[], by simp [Blank], rfl, hx⟩
    | true =>
      have : skip (x :: s) = skip s := skip_blank (w := [x]) (by simpa [Blank] using hx) s
      rw [this] at h
      obtain ⟨w, h1, h2, h3⟩ := skip_split h
      exact ⟨x :: w, fun y hy => by rcases List.mem_cons.1 hy with rfl | hy; exact hx; exact h1 y hy, by rw [h2]; rfl, h3⟩

theorem skip_nil : ∀ {s : List Char}, skip s = [] → Blank s
  | [], _ => by simp [Blank]
  | x :: s, h => by
    cases hx : Spec.Json.isSpace x with
    | false => rw [skip_cons hx] at h; cases h
    | true =>
      rw [show skip (x :: s) = skip s from skip_blank (w := [x]) (by simpa [Blank] using hx) s] at h
      intro y hy
      rcases List.mem_cons.1 hy with rfl | hy
      · exact hx
      · exact skip_nil h y hy

/-- A value, space, and the closing bracket. -/
theorem ElemText.last {pre : List Char} {T : Tree} {j : J} (h : ValText pre T j) {w : List Char} (hw : Blank w) : ElemText (pre ++ w ++ [']']) T [] [j] where
  reads := .cons h.reads .nil
  nest := by rw [nestAll, nestAll, nestJs, nestJs, h.nest]
  outline := .arrCons h.outline .arrNil
  start := by
    obtain ⟨b, l, h1, h2⟩ := h.start
    exact ⟨b, l ++ utf8 (w ++ [']']), by rw [List.append_assoc, utf8_append, h1]; rfl, h2⟩
  scan ps h0 := by
    obtain ⟨h1, h2⟩ := h.scan (.arrayValue :: ps) (by simpa using h0)
    rw [utf8_append, utf8_append, utf8_bracket.2.1]
    simp only [List.length_cons] at h1 h2
    constructor
    · intro hn
      rw [nestAll, nestAll] at hn
      obtain ⟨sc, k, r⟩ := h1 (by omega)
      obtain ⟨sc', k', r'⟩ := squeeze_done k hw
      obtain ⟨st, rfl, e⟩ := done_next k' (c := 93) (by simp)
      refine ⟨_, done_pop st .arrayValue ps, ?_⟩
      have e' : Scan.next ⟨st, .arrayValue :: ps, false⟩ 93 = (Scan.pop ⟨st, .arrayValue :: ps, false⟩, .endArray) := by rw [e]; simp [stateEndValue, isSpace]
      have := goes_app (goes_app r r') (squeeze_one e' (by decide) (by decide) (by decide))
      simpa [layRest] using this
    · intro hn
      rw [nestAll, nestAll] at hn
      exact stops_left _ (stops_left _ (h2 (by omega)))

/-- A value, space, a comma, space and the rest. -/
theorem ElemText.more {pre : List Char} {T : Tree} {j : J} (h : ValText pre T j) {w : List Char} (hw : Blank w) {w' pre' : List Char} {v : Tree} {l : List Tree} {js : List J}
    (hw' : Blank w') (h' : ElemText pre' v l js) : ElemText (pre ++ w ++ [','] ++ w' ++ pre') T (v :: l) (j :: js) where
  reads := .cons h.reads h'.reads
  nest := by rw [nestAll, nestJs, h.nest, h'.nest]
  outline := .arrCons h.outline h'.outline
  start := by
    obtain ⟨b, l, h1, h2⟩ := h.start
    exact ⟨b, l ++ utf8 (w ++ ([','] ++ (w' ++ pre'))), by simp only [List.append_assoc]; rw [utf8_append, h1]; rfl, h2⟩
  scan ps h0 := by
    obtain ⟨h1, h2⟩ := h.scan (.arrayValue :: ps) (by simpa using h0)
    obtain ⟨h3, h4⟩ := h'.scan ps h0
    rw [utf8_append, utf8_append, utf8_append, utf8_append, utf8_bracket.2.2.2.2.1]
    simp only [List.length_cons] at h1 h2
    rw [nestAll]
    by_cases hv : ps.length + 1 + T.nest ≤ maxNesting
    · obtain ⟨sc, k, r⟩ := h1 hv
      obtain ⟨sc', k', r'⟩ := squeeze_done k hw
      obtain ⟨st, rfl, e⟩ := done_next k' (c := 44) (by simp)
      have e' : Scan.next ⟨st, .arrayValue :: ps, false⟩ 44 = (⟨.beginValue, .arrayValue :: ps, false⟩, .arrayValue) := by rw [e]; simp [stateEndValue, isSpace]
      have g := goes_app (goes_app (goes_app r r') (squeeze_one e' (by decide) (by decide) (by decide))) (squeeze_begin (st := .beginValue) (by simp) (.arrayValue :: ps) hw')
      constructor
      · intro hn
        obtain ⟨sc2, k2, r2⟩ := h3 (by omega)
        exact ⟨sc2, k2, by simpa [layRest, compact] using goes_app g r2⟩
      · intro hn
        exact stops_app g (h4 (by omega))
    · exact ⟨fun hn => absurd hn (by omega), fun _ => stops_left _ (stops_left _ (stops_left _ (stops_left _ (h2 hv))))⟩

/-- A name and what follows it up to the value. -/
theorem squeeze_name {q cs : List Char} (hq : StrText q cs) {w w' : List Char} (hw : Blank w) (hw' : Blank w') (ps : List Ps) :
    Scan.squeeze ⟨.beginString, .objectKey :: ps, false⟩ (utf8 (['"'] ++ q ++ ['"'] ++ w ++ [':'] ++ w')) =
      some (⟨.beginValue, .objectValue :: ps, false⟩, [34] ++ utf8 q ++ [34] ++ [58]) := by
  have ho := over_string (s := ⟨.beginString, .objectKey :: ps, false⟩) (ps := .objectKey :: ps) hq (by simp [Scan.next, stateBeginString, isSpace])
  obtain ⟨sc', k', r'⟩ := squeeze_done (done_endValue (.objectKey :: ps)) hw
  obtain ⟨st, rfl, e⟩ := done_next k' (c := 58) (by simp)
  have e' : Scan.next ⟨st, .objectKey :: ps, false⟩ 58 = (⟨.beginValue, .objectValue :: ps, false⟩, .objectKey) := by rw [e]; simp [stateEndValue, isSpace]
  have g := goes_app (goes_app (goes_app (squeeze_over _ ho) r') (squeeze_one e' (by decide) (by decide) (by decide))) (squeeze_begin (st := .beginValue) (by simp) (.objectValue :: ps) hw')
  simp only [utf8_append, utf8_bracket]
  simpa using g

theorem MemText.last {q cs : List Char} (hq : StrText q cs) {w0 w1 : List Char} (hw0 : Blank w0) (hw1 : Blank w1) {pre : List Char} {T : Tree} {j : J} (h : ValText pre T j)
    {w : List Char} (hw : Blank w) : MemText (['"'] ++ q ++ ['"'] ++ w0 ++ [':'] ++ w1 ++ (pre ++ w ++ ['}'])) ([34] ++ utf8 q ++ [34]) T [] [(cs, j)] where
  reads := .cons ⟨q, hq, rfl⟩ h.reads .nil
  nest := by rw [nestMems, nestMems, nestJms, nestJms, h.nest]
  outline := .objCons _ _ h.outline .objNil
  start := by
    refine ⟨utf8 (q ++ ['"'] ++ w0 ++ [':'] ++ w1 ++ (pre ++ w ++ ['}'])), ?_⟩
    simp only [List.append_assoc, utf8_append ['"'], utf8_bracket, List.singleton_append]
    rfl
  scan ps h0 := by
    obtain ⟨h1, h2⟩ := h.scan (.objectValue :: ps) (by simpa using h0)
    have g0 := squeeze_name hq hw0 hw1 ps
    rw [utf8_append _ (pre ++ w ++ ['}']), utf8_append (pre ++ w), utf8_append pre, utf8_bracket.2.2.2.1]
    simp only [List.length_cons] at h1 h2
    constructor
    · intro hn
      rw [nestMems, nestMems] at hn
      obtain ⟨sc, k, r⟩ := h1 (by omega)
      obtain ⟨sc', k', r'⟩ := squeeze_done k hw
      obtain ⟨st, rfl, e⟩ := done_next k' (c := 125) (by simp)
      refine ⟨_, done_pop st .objectValue ps, ?_⟩
      have e' : Scan.next ⟨st, .objectValue :: ps, false⟩ 125 = (Scan.pop ⟨st, .objectValue :: ps, false⟩, .endObject) := by rw [e]; simp [stateEndValue, isSpace]
      have := goes_app g0 (goes_app (goes_app r r') (squeeze_one e' (by decide) (by decide) (by decide)))
      simpa [layMore] using this
    · intro hn
      rw [nestMems, nestMems] at hn
      exact stops_app g0 (stops_left _ (stops_left _ (h2 (by omega))))

theorem MemText.more {q cs : List Char} (hq : StrText q cs) {w0 w1 : List Char} (hw0 : Blank w0) (hw1 : Blank w1) {pre : List Char} {T : Tree} {j : J} (h : ValText pre T j)
    {w : List Char} (hw : Blank w) {w' pre' : List Char} {k : GoStr} {v : Tree} {l : List (GoStr × Tree)} {js : List (List Char × J)} (hw' : Blank w') (h' : MemText pre' k v l js) :
    MemText (['"'] ++ q ++ ['"'] ++ w0 ++ [':'] ++ w1 ++ (pre ++ w ++ [','] ++ w' ++ pre')) ([34] ++ utf8 q ++ [34]) T ((k, v) :: l) ((cs, j) :: js) where
  reads := .cons ⟨q, hq, rfl⟩ h.reads h'.reads
  nest := by rw [nestMems, nestJms, h.nest, h'.nest]
  outline := .objCons _ _ h.outline h'.outline
  start := by
    refine ⟨utf8 (q ++ ['"'] ++ w0 ++ [':'] ++ w1 ++ (pre ++ w ++ [','] ++ w' ++ pre')), ?_⟩
    simp only [List.append_assoc, utf8_append ['"'], utf8_bracket, List.singleton_append]
    rfl
  scan ps h0 := by
    obtain ⟨h1, h2⟩ := h.scan (.objectValue :: ps) (by simpa using h0)
    obtain ⟨h3, h4⟩ := h'.scan ps h0
    have g0 := squeeze_name hq hw0 hw1 ps
    rw [utf8_append _ (pre ++ w ++ [','] ++ w' ++ pre'), utf8_append (pre ++ w ++ [','] ++ w'), utf8_append (pre ++ w ++ [',']), utf8_append (pre ++ w), utf8_append pre, utf8_bracket.2.2.2.2.1]
    simp only [List.length_cons] at h1 h2
    rw [nestMems]
    by_cases hv : ps.length + 1 + T.nest ≤ maxNesting
    · obtain ⟨sc, k1, r⟩ := h1 hv
      obtain ⟨sc', k', r'⟩ := squeeze_done k1 hw
      obtain ⟨st, rfl, e⟩ := done_next k' (c := 44) (by simp)
      have e' : Scan.next ⟨st, .objectValue :: ps, false⟩ 44 = (⟨.beginString, .objectKey :: ps, false⟩, .objectValue) := by rw [e]; simp [stateEndValue, isSpace]
      have g := goes_app (goes_app (goes_app r r') (squeeze_one e' (by decide) (by decide) (by decide))) (squeeze_begin (st := .beginString) (by simp) (.objectKey :: ps) hw')
      constructor
      · intro hn
        obtain ⟨sc2, k2, r2⟩ := h3 (by omega)
        exact ⟨sc2, k2, by simpa [layMore, compact] using goes_app g0 (goes_app g r2)⟩
      · intro hn
        exact stops_app g0 (stops_app g (h4 (by omega)))
    · exact ⟨fun hn => absurd hn (by omega), fun _ => stops_app g0 (stops_left _ (stops_left _ (stops_left _ (stops_left _ (h2 hv)))))⟩

theorem squeeze_open (ps : List Ps) (h : ps.length + 1 ≤ maxNesting) : Scan.squeeze ⟨.beginValue, ps, false⟩ [91] = some (⟨.beginValueOrEmpty, .arrayValue :: ps, false⟩, [91]) :=
  squeeze_one (k := .beginArray) (by simp [Scan.next, stateBeginValue, isSpace, Scan.push, h]) (by decide) (by decide) (by decide)

theorem squeeze_openObj (ps : List Ps) (h : ps.length + 1 ≤ maxNesting) : Scan.squeeze ⟨.beginValue, ps, false⟩ [123] = some (⟨.beginStringOrEmpty, .objectKey :: ps, false⟩, [123]) :=
  squeeze_one (k := .beginObject) (by simp [Scan.next, stateBeginValue, isSpace, Scan.push, h]) (by decide) (by decide) (by decide)

theorem squeeze_deep (ps : List Ps) (h : ¬ ps.length + 1 ≤ maxNesting) : Scan.squeeze ⟨.beginValue, ps, false⟩ [91] = none ∧ Scan.squeeze ⟨.beginValue, ps, false⟩ [123] = none := by
  constructor <;> (rw [Scan.squeeze]; simp [Scan.next, stateBeginValue, isSpace, Scan.push, h])

theorem ValText.arrNil {w : List Char} (hw : Blank w) : ValText (['['] ++ w ++ [']']) (.arr []) (.arr []) where
  reads := .arr .nil
  nest := by rw [Tree.nest, J.nest, nestAll, nestJs]
  outline := .arrNil
  start := ⟨91, utf8 (w ++ [']']), by rw [List.append_assoc, utf8_append, utf8_bracket.1]; rfl, by decide, by decide⟩
  scan ps h0 := by
    rw [utf8_append, utf8_append, utf8_bracket.1, utf8_bracket.2.1, Tree.nest, nestAll, compact, lay]
    constructor
    · intro hn
      have e' : Scan.next ⟨.beginValueOrEmpty, .arrayValue :: ps, false⟩ 93 = (Scan.pop ⟨.beginValueOrEmpty, .arrayValue :: ps, false⟩, .endArray) := by simp [Scan.next, stateEndValue, isSpace]
      exact ⟨_, done_pop .beginValueOrEmpty .arrayValue ps,
        goes_app (goes_app (squeeze_open ps hn) (squeeze_begin (st := .beginValueOrEmpty) (by simp) (.arrayValue :: ps) hw)) (squeeze_one e' (by decide) (by decide) (by decide))⟩
    · intro hn
      exact stops_left _ (stops_left _ (squeeze_deep ps hn).1)

theorem ValText.objNil {w : List Char} (hw : Blank w) : ValText (['{'] ++ w ++ ['}']) (.obj []) (.obj []) where
  reads := .obj .nil
  nest := by rw [Tree.nest, J.nest, nestMems, nestJms]
  outline := .objNil
  start := ⟨123, utf8 (w ++ ['}']), by rw [List.append_assoc, utf8_append, utf8_bracket.2.2.1]; rfl, by decide, by decide⟩
  scan ps h0 := by
    rw [utf8_append, utf8_append, utf8_bracket.2.2.1, utf8_bracket.2.2.2.1, Tree.nest, nestMems, compact, lay]
    constructor
    · intro hn
      have e' : Scan.next ⟨.beginStringOrEmpty, .objectKey :: ps, false⟩ 125 = (Scan.pop ⟨.beginStringOrEmpty, .objectValue :: ps, false⟩, .endObject) := by simp [Scan.next, stateEndValue, isSpace]
      exact ⟨_, done_pop .beginStringOrEmpty .objectValue ps,
        goes_app (goes_app (squeeze_openObj ps hn) (squeeze_begin (st := .beginStringOrEmpty) (by simp) (.objectKey :: ps) hw)) (squeeze_one e' (by decide) (by decide) (by decide))⟩
    · intro hn
      exact stops_left _ (stops_left _ (squeeze_deep ps hn).2)

theorem ValText.arr {w : List Char} (hw : Blank w) {pre : List Char} {v : Tree} {l : List Tree} {js : List J} (h : ElemText pre v l js) :
    ValText (['['] ++ w ++ pre) (.arr (v :: l)) (.arr js) where
  reads := .arr h.reads
  nest := by rw [Tree.nest, J.nest, h.nest]
  outline := h.outline
  start := ⟨91, utf8 (w ++ pre), by rw [List.append_assoc, utf8_append, utf8_bracket.1]; rfl, by decide, by decide⟩
  scan ps h0 := by
    rw [utf8_append, utf8_append, utf8_bracket.1, Tree.nest, compact, lay, compact_same v (0 + 1) 0, rest_same l (0 + 1) 0]
    by_cases h1 : ps.length + 1 ≤ maxNesting
    · obtain ⟨h2, h3⟩ := h.scan ps h1
      obtain ⟨b, u, hu, hb, hb'⟩ := h.start
      have g := goes_app (squeeze_open ps h1) (squeeze_begin (st := .beginValueOrEmpty) (by simp) (.arrayValue :: ps) hw)
      have hs := squeeze_enter (.arrayValue :: ps) u hb hb'
      rw [← hu] at hs
      constructor
      · intro hn
        obtain ⟨sc, k, r⟩ := h2 hn
        exact ⟨sc, k, by simpa [compact] using goes_app g (hs.trans r)⟩
      · intro hn
        exact stops_app g (hs.trans (h3 hn))
    · exact ⟨fun hn => absurd hn (by omega), fun _ => stops_left _ (stops_left _ (squeeze_deep ps h1).1)⟩

theorem ValText.obj {w : List Char} (hw : Blank w) {pre : List Char} {k : GoStr} {v : Tree} {l : List (GoStr × Tree)} {js : List (List Char × J)} (h : MemText pre k v l js) :
    ValText (['{'] ++ w ++ pre) (.obj ((k, v) :: l)) (.obj js) where
  reads := .obj h.reads
  nest := by rw [Tree.nest, J.nest, h.nest]
  outline := h.outline
  start := ⟨123, utf8 (w ++ pre), by rw [List.append_assoc, utf8_append, utf8_bracket.2.2.1]; rfl, by decide, by decide⟩
  scan ps h0 := by
    rw [utf8_append, utf8_append, utf8_bracket.2.2.1, Tree.nest, compact, lay, compact_same v (0 + 1) 0, more_same l (0 + 1) 0]
    by_cases h1 : ps.length + 1 ≤ maxNesting
    · obtain ⟨h2, h3⟩ := h.scan ps h1
      obtain ⟨u, hu⟩ := h.start
      have g := goes_app (squeeze_openObj ps h1) (squeeze_begin (st := .beginStringOrEmpty) (by simp) (.objectKey :: ps) hw)
      have hs := squeeze_enterKey (.objectKey :: ps) u
      rw [← hu] at hs
      constructor
      · intro hn
        obtain ⟨sc, k, r⟩ := h2 hn
        exact ⟨sc, k, by simpa [compact] using goes_app g (hs.trans r)⟩
      · intro hn
        exact stops_app g (hs.trans (h3 hn))
    · exact ⟨fun hn => absurd hn (by omega), fun _ => stops_left _ (stops_left _ (squeeze_deep ps h1).2)⟩

theorem string_read {s cs rest : List Char} (h : Spec.Json.string s = some (cs, rest)) : ∃ q, s = q ++ '"' :: rest ∧ StrText q cs :=
  stringBody_text _ h

theorem word_text {w s : List Char} {j j' : J} {rest : List Char} (h : word w j s = some (j', rest)) : j' = j ∧ s = w ++ rest := by
  unfold word at h
  split at h
  · rename_i hw
    cases h
    refine ⟨rfl, ?_⟩
    conv => rhs; lhs; rw [← hw]
    exact (List.take_append_drop _ _).symm
  · cases h

theorem parse_tree : ∀ fuel : Nat,
    (∀ s j rest, value fuel s = some (j, rest) → ∃ w pre T, Blank w ∧ s = w ++ pre ++ rest ∧ ValText pre T j) ∧
    (∀ s js rest, elements fuel s = some (js, rest) → ∃ w pre v l, Blank w ∧ s = w ++ pre ++ rest ∧ ElemText pre v l js) ∧
    (∀ s js rest, members fuel s = some (js, rest) → ∃ w pre k v l, Blank w ∧ s = w ++ pre ++ rest ∧ MemText pre k v l js)
  | 0 => ⟨fun _ _ _ h => by (rw [value] at h; cases h), fun _ _ _ h => by (rw [elements] at h; cases h), fun _ _ _ h => by (rw [members] at h; cases h)⟩
  | fuel + 1 => by
    obtain ⟨ihV, ihE, ihM⟩ := parse_tree fuel
    refine ⟨?_, ?_, ?_⟩
    · intro s j rest h
      rw [value] at h
      cases hs : skip s with
      | nil => rw [hs] at h; cases h
      | cons c s1 =>
        obtain ⟨w, hw, rfl, hc⟩ := skip_split hs
        rw [hs] at h
        simp only at h
        split at h
        · rename_i hc'
          subst hc'
          cases hq : Spec.Json.string s1 with
          | none => rw [hq] at h; cases h
          | some p =>
            obtain ⟨cs, r⟩ := p
            simp only [hq, Option.map_some, Option.some.injEq, Prod.mk.injEq] at h
            obtain ⟨rfl, rfl⟩ := h
            obtain ⟨q, rfl, hq'⟩ := string_read hq
            refine ⟨w, ['"'] ++ q ++ ['"'], _, hw, by simp, ValText.lit (j := .str cs) ?_ rfl⟩
            rw [utf8_append, utf8_append, utf8_bracket.2.2.2.2.2.2]
            exact strText_ok hq'
        · split at h
          · rename_i hc'
            subst hc'
            split at h
            · rename_i hh
              cases h
              cases hs1 : skip s1 with
              | nil => rw [hs1] at hh; cases hh
              | cons c2 s2 =>
                rw [hs1] at hh
                simp only [List.head?_cons, Option.some.injEq] at hh
                subst hh
                obtain ⟨w2, hw2, rfl, -⟩ := skip_split hs1
                exact ⟨w, ['['] ++ w2 ++ [']'], _, hw, by simp, .arrNil hw2⟩
            · cases he : elements fuel s1 with
              | none => rw [he] at h; cases h
              | some p =>
                obtain ⟨js, r⟩ := p
                simp only [he, Option.map_some, Option.some.injEq, Prod.mk.injEq] at h
                obtain ⟨rfl, rfl⟩ := h
                obtain ⟨w2, pre, v, l, hw2, rfl, hE⟩ := ihE _ _ _ he
                exact ⟨w, ['['] ++ w2 ++ pre, _, hw, by simp, .arr hw2 hE⟩
          · split at h
            · rename_i hc'
              subst hc'
              split at h
              · rename_i hh
                cases h
                cases hs1 : skip s1 with
                | nil => rw [hs1] at hh; cases hh
                | cons c2 s2 =>
                  rw [hs1] at hh
                  simp only [List.head?_cons, Option.some.injEq] at hh
                  subst hh
                  obtain ⟨w2, hw2, rfl, -⟩ := skip_split hs1
                  exact ⟨w, ['{'] ++ w2 ++ ['}'], _, hw, by simp, .objNil hw2⟩
              · cases he : members fuel s1 with
                | none => rw [he] at h; cases h
                | some p =>
                  obtain ⟨js, r⟩ := p
                  simp only [he, Option.map_some, Option.some.injEq, Prod.mk.injEq] at h
                  obtain ⟨rfl, rfl⟩ := h
                  obtain ⟨w2, pre, k, v, l, hw2, rfl, hE⟩ := ihM _ _ _ he
                  exact ⟨w, ['{'] ++ w2 ++ pre, _, hw, by simp, .obj hw2 hE⟩
            · split at h
              · rename_i hc'
                subst hc'
                obtain ⟨rfl, rfl⟩ := word_text h
                refine ⟨w, ['n', 'u', 'l', 'l'], _, hw, by simp, ValText.lit (j := .null) ?_ rfl⟩
                rw [show utf8 ['n', 'u', 'l', 'l'] = lit "null" by decide +kernel]
                exact word_ok.1
              · split at h
                · rename_i hc'
                  subst hc'
                  obtain ⟨rfl, rfl⟩ := word_text h
                  refine ⟨w, ['t', 'r', 'u', 'e'], _, hw, by simp, ValText.lit (j := .bool true) ?_ rfl⟩
                  rw [show utf8 ['t', 'r', 'u', 'e'] = lit "true" by decide +kernel]
                  exact word_ok.2.1
                · split at h
                  · rename_i hc'
                    subst hc'
                    obtain ⟨rfl, rfl⟩ := word_text h
                    refine ⟨w, ['f', 'a', 'l', 's', 'e'], _, hw, by simp, ValText.lit (j := .bool false) ?_ rfl⟩
                    rw [show utf8 ['f', 'a', 'l', 's', 'e'] = lit "false" by decide +kernel]
                    exact word_ok.2.2
                  · cases hn : number (c :: s1) with
                    | none => rw [hn] at h; cases h
                    | some p =>
                      obtain ⟨⟨m, e⟩, r⟩ := p
                      simp only [hn, Option.map_some, Option.some.injEq, Prod.mk.injEq] at h
                      obtain ⟨rfl, rfl⟩ := h
                      obtain ⟨t, ht, hN⟩ := number_bytes hn
                      have hu : utf8 (t.map chr) = t := utf8_chrs fun b hb => (hN.ascii b hb).1
                      refine ⟨w, t.map chr, _, hw, by rw [ht, List.append_assoc], ValText.lit (j := .num m e) ?_ rfl⟩
                      rw [hu]
                      exact number_ok hN
    · intro s js rest h
      rw [elements] at h
      cases hv : value fuel s with
      | none => rw [hv] at h; cases h
      | some p =>
        obtain ⟨j, r⟩ := p
        obtain ⟨w, pre, T, hw, rfl, hV⟩ := ihV _ _ _ hv
        rw [hv, Option.bind_some] at h
        simp only at h
        cases hs : skip r with
        | nil => rw [hs] at h; cases h
        | cons c s1 =>
          obtain ⟨w2, hw2, rfl, -⟩ := skip_split hs
          rw [hs] at h
          simp only at h
          split at h
          · rename_i hc
            subst hc
            simp only [Option.some.injEq, Prod.mk.injEq] at h
            obtain ⟨rfl, rfl⟩ := h
            exact ⟨w, _, _, _, hw, by simp, .last hV hw2⟩
          · split at h
            · rename_i hc
              subst hc
              cases he : elements fuel s1 with
              | none => rw [he] at h; cases h
              | some p =>
                obtain ⟨js', r⟩ := p
                simp only [he, Option.map_some, Option.some.injEq, Prod.mk.injEq] at h
                obtain ⟨rfl, rfl⟩ := h
                obtain ⟨w3, pre', v, l, hw3, rfl, hE⟩ := ihE _ _ _ he
                exact ⟨w, _, _, _, hw, by simp, .more hV hw2 hw3 hE⟩
            · cases h
    · intro s js rest h
      rw [members] at h
      cases hs : skip s with
      | nil => rw [hs] at h; cases h
      | cons c s1 =>
        obtain ⟨w, hw, rfl, hc⟩ := skip_split hs
        rw [hs] at h
        simp only at h
        split at h
        · cases h
        · rename_i hc'
          have hc' := Decidable.not_not.1 hc'
          subst hc'
          cases hq : Spec.Json.string s1 with
          | none => rw [hq] at h; cases h
          | some p =>
            obtain ⟨cs, r⟩ := p
            obtain ⟨q, rfl, hq'⟩ := string_read hq
            rw [hq, Option.bind_some] at h
            simp only at h
            cases hs2 : skip r with
            | nil => rw [hs2] at h; cases h
            | cons c2 s2 =>
              obtain ⟨w0, hw0, rfl, -⟩ := skip_split hs2
              rw [hs2] at h
              simp only at h
              split at h
              · cases h
              · rename_i hc2
                have hc2 := Decidable.not_not.1 hc2
                subst hc2
                cases hv : value fuel s2 with
                | none => rw [hv] at h; cases h
                | some p =>
                  obtain ⟨j, r⟩ := p
                  obtain ⟨w1, pre, T, hw1, rfl, hV⟩ := ihV _ _ _ hv
                  rw [hv, Option.bind_some] at h
                  simp only at h
                  cases hs3 : skip r with
                  | nil => rw [hs3] at h; cases h
                  | cons c3 s3 =>
                    obtain ⟨w2, hw2, rfl, -⟩ := skip_split hs3
                    rw [hs3] at h
                    simp only at h
                    split at h
                    · rename_i hc
                      subst hc
                      simp only [Option.some.injEq, Prod.mk.injEq] at h
                      obtain ⟨rfl, rfl⟩ := h
                      exact ⟨w, _, _, _, _, hw, by simp, .last hq' hw0 hw1 hV hw2⟩
                    · split at h
                      · rename_i hc
                        subst hc
                        cases he : members fuel s3 with
                        | none => rw [he] at h; cases h
                        | some p =>
                          obtain ⟨js', r⟩ := p
                          simp only [he, Option.map_some, Option.some.injEq, Prod.mk.injEq] at h
                          obtain ⟨rfl, rfl⟩ := h
                          obtain ⟨w3, pre', k, v, l, hw3, rfl, hE⟩ := ihM _ _ _ he
                          exact ⟨w, _, _, _, _, hw, by simp, .more hq' hw0 hw1 hV hw2 hw3 hE⟩
                      · cases h

/-- What `compact` makes of a JSON text. -/
theorem squeezed_parse {s : List Char} {j : J} (h : parse s = some j) :
    ∃ T, Reads T j ∧ T.nest = j.nest ∧ Outline j T ∧ squeezed (utf8 s) = if j.nest ≤ maxNesting then .ok (compact 0 T) else .error syntaxError := by
  unfold parse at h
  cases hv : value (s.length + 1) s with
  | none => rw [hv] at h; cases h
  | some p =>
    obtain ⟨j', r⟩ := p
    rw [hv, Option.bind_some] at h
    simp only at h
    split at h
    · rename_i hr
      cases h
      obtain ⟨w, pre, T, hw, rfl, hV⟩ := (parse_tree _).1 _ _ _ hv
      have hb := skip_nil hr
      refine ⟨T, hV.reads, hV.nest, hV.outline, ?_⟩
      obtain ⟨h1, h2⟩ := hV.scan [] (by simp)
      rw [← hV.nest, squeezed, utf8_append, utf8_append, show ({} : Scan) = ⟨.beginValue, [], false⟩ from rfl]
      have g := squeeze_begin (st := .beginValue) (by simp) [] hw
      simp only [List.length_nil, Nat.zero_add] at h1 h2
      by_cases hn : T.nest ≤ maxNesting
      · obtain ⟨sc, k, r1⟩ := h1 hn
        obtain ⟨sc', he, r2⟩ := squeeze_top k hb
        rw [goes_app (goes_app g r1) r2, if_pos hn]
        simp [he]
      · rw [stops_left _ (stops_app g (h2 hn)), if_neg hn]
    · cases h

end Verif.Json
