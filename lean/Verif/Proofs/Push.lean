import Verif.Spec.Push

/-! # `Push` over HTTP/2: the targets that pass its checks -/

set_option autoImplicit false

namespace Verif
open Spec.Push

theorem isHex_iff : ∀ c : Byte, Url.isHex c = true ↔ c ∈ lit "0123456789abcdefABCDEF" := by
  have h : ∀ n : Fin 256, Url.isHex (UInt8.ofNat n.val) = decide (UInt8.ofNat n.val ∈ lit "0123456789abcdefABCDEF") := by decide +kernel
  intro c
  have := h ⟨c.toNat, c.toNat_lt⟩
  simp only [UInt8.ofNat_toNat] at this
  rw [this, decide_eq_true_iff]

theorem unescapes_iff (s : GoStr) : Url.unescapes s = true ↔ Escaped s := by
  constructor
  · intro h
    induction s using Url.unescapes.induct with
    | case1 => exact .nil
    | case2 a b s ih =>
      simp only [Url.unescapes, if_true, Bool.and_eq_true] at h
      exact .code ((isHex_iff a).1 h.1.1) ((isHex_iff b).1 h.1.2) (ih h.2)
    | case3 s hs => 
      unfold Url.unescapes at h
      split at h
      · split at h
        · rename_i a b s'; exact absurd rfl (hs a b s')
        · simp at h
      · rename_i hn; exact absurd rfl hn
    | case4 c s hc ih =>
      unfold Url.unescapes at h
      rw [if_neg hc] at h
      exact .plain hc (ih h)
  · intro h
    induction h with
    | nil => rfl
    | plain hc _ ih => unfold Url.unescapes; rw [if_neg hc]; exact ih
    | code ha hb _ ih => simp [Url.unescapes, (isHex_iff _).2 ha, (isHex_iff _).2 hb, ih]

theorem takeWhile_ne {c : Byte} {a b : GoStr} (ha : c ∉ a) (hb : b = [] ∨ b.head? = some c) : (a ++ b).takeWhile (· ≠ c) = a := by
  rw [List.takeWhile_append_of_pos (by intro x hx; simp only [decide_eq_true_iff]; rintro rfl; exact ha hx)]
  rcases hb with rfl | hb
  · simp
  · cases b with
    | nil => simp
    | cons x b => simp at hb; simp [hb]

theorem dropWhile_ne {c : Byte} {a b : GoStr} (ha : c ∉ a) (hb : b = [] ∨ b.head? = some c) : (a ++ b).dropWhile (· ≠ c) = b := by
  rw [List.dropWhile_append_of_pos (by intro x hx; simp only [decide_eq_true_iff]; rintro rfl; exact ha hx)]
  rcases hb with rfl | hb
  · simp
  · cases b with
    | nil => simp
    | cons x b => simp at hb; simp [hb]

theorem parted (c : Byte) (s : GoStr) :
    ∃ a b, s = a ++ b ∧ c ∉ a ∧ (b = [] ∨ b.head? = some c) := by
  induction s with
  | nil => exact ⟨[], [], rfl, by simp, .inl rfl⟩
  | cons x s ih =>
    by_cases h : x = c
    · exact ⟨[], x :: s, rfl, by simp, .inr (by simp [h])⟩
    · obtain ⟨a, b, rfl, h1, h2⟩ := ih
      exact ⟨x :: a, b, rfl, by simp [h1, Ne.symm h], h2⟩

theorem hasCTL_iff (s : GoStr) : Url.hasCTL s = false ↔ ∀ c ∈ s, 32 ≤ c ∧ c ≠ 127 := by
  have h : ∀ c : Byte, (decide (c < 32) || decide (c = 127)) = false ↔ 32 ≤ c ∧ c ≠ 127 := by
    intro c
    simp only [Bool.or_eq_false_iff, decide_eq_false_iff_not, UInt8.not_lt]
  unfold Url.hasCTL
  rw [List.any_eq_false]
  constructor
  · intro g c hc
    exact (h c).1 (by simpa using g c hc)
  · intro g c hc
    have := (h c).2 (g c hc)
    simpa using this

/-! ## Schemes -/

theorem scheme_slash (s : GoStr) (h : s.head? = some 47) : Url.getScheme s [] s = some ([], s) := by
  cases s with
  | nil => simp at h
  | cons c s =>
    simp at h
    subst h
    simp only [Url.getScheme]
    rfl

theorem scheme_letters (raw r : GoStr) (s : GoStr) : ∀ acc, (∀ c ∈ s, Url.letter c = true) → acc.reverse ++ s ≠ [] →
    Url.getScheme raw acc (s ++ 58 :: r) = some (acc.reverse ++ s, r) := by
  induction s with
  | nil =>
    intro acc _ h
    have hc : Url.letter 58 = false := by decide
    have hc' : Url.schemeRest 58 = false := by decide
    have ha : acc ≠ [] := by rintro rfl; simp at h
    simp [Url.getScheme, hc, hc', ha]
  | cons c s ih =>
    intro acc hs h
    simp only [List.cons_append, Url.getScheme, if_pos (hs c (by simp))]
    rw [ih (c :: acc) (fun x hx => hs x (by simp [hx])) (by simp)]
    simp

theorem scheme_found (raw s r : GoStr) (t : GoStr) : ∀ acc, Url.getScheme raw acc t = some (s, r) → s ≠ [] → acc.reverse ++ t = s ++ 58 :: r := by
  induction t with
  | nil => intro acc h hs; simp only [Url.getScheme, Option.some.injEq, Prod.mk.injEq] at h; exact absurd h.1.symm hs
  | cons c t ih =>
    intro acc h hs
    simp only [Url.getScheme] at h
    split at h
    · have := ih _ h hs
      simpa using this
    · split at h
      · split at h
        · simp only [Option.some.injEq, Prod.mk.injEq] at h; exact absurd h.1.symm hs
        · have := ih _ h hs
          simpa using this
      · split at h
        · rename_i hc
          split at h
          · cases h
          · simp only [Option.some.injEq, Prod.mk.injEq] at h
            rw [← h.1, ← h.2, hc]
        · simp only [Option.some.injEq, Prod.mk.injEq] at h; exact absurd h.1.symm hs

theorem lower_letters {s scheme : GoStr} (h : Url.lower s = scheme) (hs : scheme = lit "http" ∨ scheme = lit "https") : ∀ c ∈ s, Url.letter c = true := by
  have hl : ∀ n : Fin 256, (if 65 ≤ UInt8.ofNat n.val ∧ UInt8.ofNat n.val ≤ 90 then UInt8.ofNat n.val + 32 else UInt8.ofNat n.val) ∈ lit "https" →
      Url.letter (UInt8.ofNat n.val) = true := by decide +kernel
  have hsub : ∀ c ∈ scheme, c ∈ lit "https" := by rcases hs with rfl | rfl <;> decide
  intro c hc
  have := hl ⟨c.toNat, c.toNat_lt⟩
  simp only [UInt8.ofNat_toNat] at this
  apply this
  apply hsub
  rw [← h]
  exact List.mem_map_of_mem (f := fun c : Byte => if 65 ≤ c ∧ c ≤ 90 then c + 32 else c) hc

theorem letter_ne : ∀ c : Byte, Url.letter c = true → c ≠ 63 ∧ c ≠ 35 ∧ c ≠ 47 := by
  have h : ∀ n : Fin 256, Url.letter (UInt8.ofNat n.val) = true → UInt8.ofNat n.val ≠ 63 ∧ UInt8.ofNat n.val ≠ 35 ∧ UInt8.ofNat n.val ≠ 47 := by decide +kernel
  intro c
  have := h ⟨c.toNat, c.toNat_lt⟩
  simpa only [UInt8.ofNat_toNat] using this

theorem lower_nil {s : GoStr} : Url.lower s = [] ↔ s = [] := by simp [Url.lower]

/-! ## The parts of a target -/

/-- The scheme and the host of a target in parts. -/
theorem parse_place {A : GoStr → Option GoStr} {place query : GoStr} (h1 : 63 ∉ place) (h3 : query = [] ∨ query.head? = some 63)
    (hs : place.head? = some 47) (hctl : ∀ c ∈ place ++ query, 32 ≤ c ∧ c ≠ 127) :
    Url.parse A (place ++ query) =
      (if place.take 3 ≠ lit "///" ∧ place.take 2 = lit "//" then
        match A ((place.drop 2).takeWhile (· ≠ 47)) with
        | none => none
        | some host => if Url.unescapes ((place.drop 2).dropWhile (· ≠ 47)) then some ([], host) else none
      else if Url.unescapes place then some ([], []) else none) := by
  have hh : (place ++ query).head? = some 47 := by
    cases place with
    | nil => simp at hs
    | cons c p => simpa using hs
  unfold Url.parse
  rw [if_neg (by rw [(hasCTL_iff _).2 hctl]; simp), if_neg (by intro e; rw [e] at hh; simp [lit] at hh), scheme_slash _ hh]
  have hq : (Url.split 63 (place ++ query)).1 = place := takeWhile_ne h1 h3
  simp only [hq]
  rw [if_neg (by simp [hs])]
  simp only [ne_eq, not_true_eq_false, false_or]
  rfl

theorem parse_url {A : GoStr → Option GoStr} {sch rest query : GoStr} (hl : ∀ c ∈ sch, Url.letter c = true) (hne : sch ≠ []) (h1 : 63 ∉ rest)
    (h3 : query = [] ∨ query.head? = some 63) (hctl : ∀ c ∈ sch ++ 58 :: (rest ++ query), 32 ≤ c ∧ c ≠ 127) :
    Url.parse A (sch ++ 58 :: (rest ++ query)) =
      (if rest.head? ≠ some 47 then some (Url.lower sch, [])
      else if rest.take 2 = lit "//" then
        match A ((rest.drop 2).takeWhile (· ≠ 47)) with
        | none => none
        | some host => if Url.unescapes ((rest.drop 2).dropWhile (· ≠ 47)) then some (Url.lower sch, host) else none
      else if Url.unescapes rest then some (Url.lower sch, []) else none) := by
  unfold Url.parse
  have hstar : sch ++ 58 :: (rest ++ query) ≠ lit "*" := by
    intro e
    have := congrArg List.length e
    have hp := List.length_pos_iff.2 hne
    have h1 : (lit "*").length = 1 := by decide
    simp only [List.length_append, List.length_cons, h1] at this
    omega
  rw [if_neg (by rw [(hasCTL_iff _).2 hctl]; simp), if_neg hstar, scheme_letters _ _ sch [] hl (by simpa using hne)]
  have hq : (Url.split 63 (rest ++ query)).1 = rest := takeWhile_ne h1 h3
  simp only [hq, List.reverse_nil, List.nil_append]
  simp only [hne, ne_eq, not_false_eq_true, true_or, true_and, if_true]
  rfl

theorem Parse_parts {A : GoStr → Option GoStr} {u frag : GoStr} (h : 35 ∉ u) (hf : frag = [] ∨ frag.head? = some 35) :
    Url.Parse A (u ++ frag) = (match Url.parse A u with
      | none => none
      | some p => if Url.unescapes (frag.drop 1) then some p else none) := by
  unfold Url.Parse
  have e1 : (Url.split 35 (u ++ frag)).1 = u := takeWhile_ne h hf
  have e2 : (Url.split 35 (u ++ frag)).2 = frag.drop 1 := by
    show List.drop 1 _ = _
    rw [dropWhile_ne h hf]
  rw [e1, e2]
  cases Url.parse A u <;> rfl

/-- The checks of `Push` are passed exactly by what may be pushed. -/
theorem check_iff (E : H2) (hs : E.scheme = lit "http" ∨ E.scheme = lit "https") (t : GoStr) :
    E.check t = none ↔ E.isPushed = false ∧ Pushable E.scheme E.authority t := by
  have hne : E.scheme ≠ [] := by rcases hs with h | h <;> rw [h] <;> decide
  unfold H2.check
  cases hp : E.isPushed with
  | true => simp
  | false =>
    simp only [Bool.false_eq_true, if_false, true_and]
    constructor
    · intro h
      obtain ⟨u, frag, rfl, hu, hf⟩ := parted 35 t
      rw [Parse_parts hu hf] at h
      cases hpa : Url.parse E.authority u with
      | none => rw [hpa] at h; simp at h
      | some p =>
        obtain ⟨scheme, host⟩ := p
        rw [hpa] at h
        dsimp only at h
        by_cases hfe : Url.unescapes (frag.drop 1) = true
        · rw [if_pos hfe] at h
          dsimp only at h
          have hfrag : frag = [] ∨ ∃ f, frag = 35 :: f ∧ Escaped f := by
            cases frag with
            | nil => exact .inl rfl
            | cons c f => exact .inr ⟨f, by simpa using hf, (unescapes_iff f).1 hfe⟩
          have hctl : ∀ c ∈ u, 32 ≤ c ∧ c ≠ 127 := by
            apply (hasCTL_iff u).1
            cases hc : Url.hasCTL u with
            | false => rfl
            | true => simp [Url.parse, hc] at hpa
          by_cases hsc : scheme = []
          · rw [if_pos hsc] at h
            subst hsc
            by_cases hh : (u ++ frag).head? ≠ some 47
            · rw [if_pos hh] at h; cases h
            · have hh : (u ++ frag).head? = some 47 := Decidable.not_not.1 hh
              have hu47 : u.head? = some 47 := by
                cases u with
                | nil =>
                  rcases hf with rfl | hf
                  · simp at hh
                  · rw [List.nil_append, hf] at hh; simp at hh
                | cons c u => simpa using hh
              obtain ⟨place, query, rfl, h1, h3⟩ := parted 63 u
              have hpl : place.head? = some 47 := by
                cases place with
                | nil =>
                  rcases h3 with rfl | h3
                  · simp at hu47
                  · rw [List.nil_append, h3] at hu47; simp at hu47
                | cons c u => simpa using hu47
              rw [parse_place h1 h3 hpl hctl] at hpa
              refine ⟨place, query, frag, rfl, h1, fun hx => hu (by simp [hx]), ?_, h3, fun hx => hu (by simp [hx]), hctl, hfrag⟩
              by_cases hb : place.take 3 ≠ lit "///" ∧ place.take 2 = lit "//"
              · rw [if_pos hb] at hpa
                obtain ⟨auth, path, e, ha, hpth⟩ := parted 47 (place.drop 2)
                rw [e, takeWhile_ne ha hpth, dropWhile_ne ha hpth] at hpa
                cases hA : E.authority auth with
                | none => rw [hA] at hpa; cases hpa
                | some host' =>
                  rw [hA] at hpa
                  dsimp only at hpa
                  by_cases he : Url.unescapes path = true
                  · have epl : place = lit "//" ++ (auth ++ path) := by
                      rw [← e, ← hb.2, List.take_append_drop]
                    refine .inr (.inl ⟨auth, path, epl, ⟨ha, hpth, (unescapes_iff path).1 he⟩, ?_, by simp [hA]⟩)
                    rintro ⟨rfl, hp0⟩
                    apply hb.1
                    rcases hpth with hpth | hpth
                    · exact absurd hpth hp0
                    · cases path with
                      | nil => exact absurd rfl hp0
                      | cons c path =>
                        simp at hpth
                        subst hpth
                        rw [epl]
                        simp [lit]
                  · rw [if_neg he] at hpa; cases hpa
              · rw [if_neg hb] at hpa
                by_cases he : Url.unescapes place = true
                · refine .inl ⟨hpl, ?_, (unescapes_iff place).1 he⟩
                  by_cases h3' : place.take 3 = lit "///"
                  · exact .inr h3'
                  · exact .inl fun h2' => hb ⟨h3', h2'⟩
                · rw [if_neg he] at hpa; cases hpa
          · rw [if_neg hsc] at h
            by_cases hsc2 : scheme ≠ E.scheme
            · rw [if_pos hsc2] at h; cases h
            · rw [if_neg hsc2] at h
              have hsc2 : scheme = E.scheme := Decidable.not_not.1 hsc2
              by_cases hho : host = []
              · rw [if_pos hho] at h; cases h
              · have hgs : ∃ s r, Url.getScheme u [] u = some (s, r) ∧ Url.lower s = scheme := by
                  unfold Url.parse at hpa
                  rw [if_neg (by rw [(hasCTL_iff _).2 hctl]; simp)] at hpa
                  by_cases hst : u = lit "*"
                  · rw [if_pos hst] at hpa
                    simp only [Option.some.injEq, Prod.mk.injEq] at hpa
                    exact absurd hpa.1.symm hsc
                  · rw [if_neg hst] at hpa
                    cases hg : Url.getScheme u [] u with
                    | none => rw [hg] at hpa; cases hpa
                    | some p =>
                      obtain ⟨s, r⟩ := p
                      rw [hg] at hpa
                      refine ⟨s, r, rfl, ?_⟩
                      dsimp only at hpa
                      repeat' split at hpa
                      all_goals first
                        | (simp only [Option.some.injEq, Prod.mk.injEq] at hpa; first | exact hpa.1 | exact absurd hpa.1.symm hsc)
                        | (cases hpa; done)
                obtain ⟨s, r, hg, hlow⟩ := hgs
                have hs0 : s ≠ [] := fun e => hsc (by rw [← hlow, e]; rfl)
                have eu : u = s ++ 58 :: r := by
                  have := scheme_found u s r u [] hg hs0
                  simpa using this
                have hlet := lower_letters (hlow.trans hsc2) hs
                obtain ⟨rest, query, rfl, h1, h3⟩ := parted 63 r
                subst eu
                rw [parse_url hlet hs0 h1 h3 hctl] at hpa
                by_cases hr : rest.head? ≠ some 47
                · rw [if_pos hr] at hpa
                  simp only [Option.some.injEq, Prod.mk.injEq] at hpa
                  exact absurd hpa.2.symm hho
                · rw [if_neg hr] at hpa
                  by_cases h2 : rest.take 2 = lit "//"
                  · rw [if_pos h2] at hpa
                    obtain ⟨auth, path, e, ha, hpth⟩ := parted 47 (rest.drop 2)
                    rw [e, takeWhile_ne ha hpth, dropWhile_ne ha hpth] at hpa
                    cases hA : E.authority auth with
                    | none => rw [hA] at hpa; cases hpa
                    | some host' =>
                      rw [hA] at hpa
                      dsimp only at hpa
                      by_cases he : Url.unescapes path = true
                      · rw [if_pos he] at hpa
                        simp only [Option.some.injEq, Prod.mk.injEq] at hpa
                        have er : rest = lit "//" ++ (auth ++ path) := by
                          rw [← e, ← h2, List.take_append_drop]
                        refine ⟨s ++ 58 :: rest, query, frag, by simp, ?_, ?_, .inr (.inr ⟨s, auth, path, host', ?_, hlow.trans hsc2, ⟨ha, hpth, (unescapes_iff path).1 he⟩, hA, by rw [hpa.2]; exact hho⟩), h3, fun hx => hu (by simp [hx]), by simpa using hctl, hfrag⟩
                        · intro hx
                          rcases List.mem_append.1 hx with hx | hx
                          · exact (letter_ne _ (hlet _ hx)).1 rfl
                          · rcases List.mem_cons.1 hx with hx | hx
                            · simp at hx
                            · exact h1 hx
                        · intro hx
                          apply hu
                          simp only [List.mem_append, List.mem_cons] at hx ⊢
                          rcases hx with hx | hx | hx <;> simp [hx]
                        · rw [er]; simp [lit]
                      · rw [if_neg he] at hpa; cases hpa
                  · rw [if_neg h2] at hpa
                    split at hpa
                    · simp only [Option.some.injEq, Prod.mk.injEq] at hpa
                      exact absurd hpa.2.symm hho
                    · cases hpa
        · rw [if_neg hfe] at h; cases h
    · rintro ⟨place, query, frag, rfl, h1, h2, hpl, h3, h4, hctl, hfrag⟩
      have hu : 35 ∉ place ++ query := by simp [h2, h4]
      have hf : frag = [] ∨ frag.head? = some 35 := by
        rcases hfrag with rfl | ⟨f, rfl, -⟩ <;> simp
      have hfe : Url.unescapes (frag.drop 1) = true := by
        rcases hfrag with rfl | ⟨f, rfl, hfe⟩
        · rfl
        · exact (unescapes_iff _).2 hfe
      rw [Parse_parts hu hf, hfe]
      simp only [if_true]
      have path : ∀ p : Option (GoStr × GoStr), place.head? = some 47 → Url.parse E.authority (place ++ query) = p → (∃ host, p = some ([], host)) → 
          (match (match p with | none => none | some p => some p) with
            | none => some errParse
            | some (scheme, host) => if scheme = [] then (if (place ++ query ++ frag).head? ≠ some 47 then some errNotAbsolute else none)
              else if scheme ≠ E.scheme then some errPushScheme else if host = [] then some errNoHost else none) = none := by
        rintro p hh - ⟨host, rfl⟩
        dsimp only
        rw [if_pos rfl, if_neg]
        cases place with
        | nil => simp at hh
        | cons c p => simpa using hh
      rcases hpl with hl | ⟨auth, pth, e, hpt, hnn, hA⟩ | ⟨sch, auth, pth, host, e, hlow, hpt, hA, hho⟩
      · refine path _ hl.absolute rfl ⟨[], ?_⟩
        rw [parse_place h1 h3 hl.absolute hctl, if_neg, (unescapes_iff _).2 hl.escaped, if_pos rfl]
        rintro ⟨a, b⟩
        rcases hl.single with h | h
        · exact h b
        · exact a h
      · have hh : place.head? = some 47 := by rw [e]; rfl
        have ed : place.drop 2 = auth ++ pth := by rw [e]; rfl
        have et : place.take 2 = lit "//" := by rw [e]; rfl
        refine path _ hh rfl ?_
        rw [parse_place h1 h3 hh hctl, if_pos, ed, takeWhile_ne hpt.auth hpt.rooted, dropWhile_ne hpt.auth hpt.rooted, (unescapes_iff _).2 hpt.escaped]
        · cases hA' : E.authority auth with
          | none => exact absurd hA' hA
          | some host => exact ⟨host, rfl⟩
        · refine ⟨fun h => ?_, et⟩
          have h3 : (auth ++ pth).take 1 = [47] := by
            have : place.take 3 = 47 :: 47 :: (auth ++ pth).take 1 := by rw [e]; rfl
            rw [this] at h
            have := (List.cons.inj (List.cons.inj h).2).2
            exact this
          cases auth with
          | nil =>
            apply hnn
            refine ⟨rfl, ?_⟩
            rintro rfl
            simp at h3
          | cons c a =>
            have : c = 47 := by simpa using h3
            exact hpt.auth (by simp [this])
      · have hlet := lower_letters hlow hs
        have hs0 : sch ≠ [] := by rintro rfl; exact hne hlow.symm
        have er : place ++ query = sch ++ 58 :: ((lit "//" ++ (auth ++ pth)) ++ query) := by rw [e]; simp [lit]
        have h1' : 63 ∉ lit "//" ++ (auth ++ pth) := by
          intro hx
          apply h1
          rw [e]
          have : lit "://" = 58 :: lit "//" := rfl
          rw [this]
          simp only [List.mem_append, List.mem_cons] at hx ⊢
          rcases hx with hx | hx | hx <;> simp [hx]
        have hpu : Url.parse E.authority (place ++ query) = some (Url.lower sch, host) := by
          rw [er, parse_url hlet hs0 h1' h3 (by rw [← er]; exact hctl), if_neg (by simp [lit]), if_pos (by rfl)]
          have ed : (lit "//" ++ (auth ++ pth)).drop 2 = auth ++ pth := rfl
          rw [ed, takeWhile_ne hpt.auth hpt.rooted, dropWhile_ne hpt.auth hpt.rooted, (unescapes_iff _).2 hpt.escaped, hA]
          rfl
        have hlow' : Url.lower sch = E.scheme := hlow
        rw [hpu, hlow']
        dsimp only
        rw [if_neg hne, if_neg (by simp), if_neg hho]

end Verif
