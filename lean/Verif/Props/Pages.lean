import Verif.Props.Builder

/-!
# ETag, Digest and the default pages (C32, C33)
-/

set_option autoImplicit false

namespace Verif

open Spec

variable {B : Type}

/-! ## C32 -/

/-- **C32 (ETag).** -/
theorem C32_etag {E : BEnv B} (hE : NoShared E) {s : BState B} (hs : Reached E s) {h : Nat} {b : Bld} (hb : s.blds[h]? = some b)
    (tag : GoStr) (strong : Bool) :
    ∃ b', (s.step E (.on h (.withETag tag strong))).1.blds[h]? = some b' ∧
      let old := s.heap.lookup b.hdrs
      let new := (s.step E (.on h (.withETag tag strong))).1.heap.lookup b'.hdrs
      new (lit "Etag") = some [etag tag strong] ∧ ∀ k, k ≠ lit "Etag" → new k = old k := by
  obtain ⟨b', h1, h2, _⟩ := on_step hE hs hb (.withETag tag strong)
  refine ⟨b', h1, ?_⟩
  have c1 : canon (lit "Etag") = lit "Etag" := by decide +kernel
  have h3 := congrArg SBld.hdrs h2
  simp only [Bld.view, SBld.step, SBld.set, c1] at h3
  simp only [h3]
  refine ⟨?_, fun k hk => by simp [Hdrs.with, hk]⟩
  cases strong <;> simp [Hdrs.with, etag] <;> rfl

/-- **C32 (ETag, unambiguous).**  The value determines the tag and its strength. -/
theorem C32_etag_unambiguous {t t' : GoStr} {s s' : Bool} (h : etag t s = etag t' s') : t = t' ∧ s = s' := by
  have hq : lit "\"" = [34] := rfl
  have hw : lit "W/" = [87, 47] := by decide
  cases s <;> cases s' <;> simp [etag, hq, hw] at h
  · exact ⟨h, rfl⟩
  · exact ⟨h, rfl⟩

/-- **C32 (Digest).**  The value is added after those already there, and contains the algorithm and an encoding of the digest. -/
theorem C32_digest {E : BEnv B} (hE : NoShared E) {s : BState B} (hs : Reached E s) {h : Nat} {b : Bld} (hb : s.blds[h]? = some b)
    (algo : GoStr) (sum : List Byte) (ha : algo ≠ []) (hsum : sum ≠ []) :
    ∃ b', (s.step E (.on h (.withDigest algo sum))).1.blds[h]? = some b' ∧
      let old := s.heap.lookup b.hdrs
      let new := (s.step E (.on h (.withDigest algo sum))).1.heap.lookup b'.hdrs
      (∃ e, new (lit "Digest") = some ((old (lit "Digest")).getD [] ++ [algo ++ lit "=" ++ e]) ∧ unbase64 e = some sum) ∧
      ∀ k, k ≠ lit "Digest" → new k = old k := by
  obtain ⟨b', h1, h2, _⟩ := on_step hE hs hb (.withDigest algo sum)
  refine ⟨b', h1, ?_⟩
  have c1 : canon (lit "Digest") = lit "Digest" := by decide +kernel
  have h3 := congrArg SBld.hdrs h2
  simp only [Bld.view, SBld.step, SBld.add, c1] at h3
  rw [if_neg (by simp [ha, hsum])] at h3
  simp only at h3
  simp only [h3]
  exact ⟨⟨base64 sum, by simp [Hdrs.with], unbase64_base64 sum⟩, fun k hk => by simp [Hdrs.with, hk]⟩

/-- In a base64 text `=` occurs only at the end. -/
theorem unbase64_pad (e : GoStr) : ∀ {x : List Byte}, unbase64 e = some x → ∀ p r, e = p ++ 61 :: r → r.length ≤ 1 := by
  have d61 : dec6 61 = none := by decide
  fun_induction unbase64 e with
  | case1 => intro x _ p r h; simp at h
  | case2 a b =>
    intro x hx p r h
    match p, h with
    | [], h =>
      simp at h
      rw [h.1, d61] at hx; cases hx
    | [_], h =>
      simp at h
      rw [h.2.1, d61] at hx
      cases ha : dec6 a <;> simp [ha] at hx
    | [_, _], h => simp at h; simp [← h.2.2]
    | [_, _, _], h => simp at h; simp [h.2.2.2]
    | _ :: _ :: _ :: _ :: p, h => simp at h
  | case3 a b c hne =>
    intro x hx p r h
    match p, h with
    | [], h =>
      simp at h
      rw [h.1, d61] at hx; cases hx
    | [_], h =>
      simp at h
      rw [h.2.1, d61] at hx
      cases ha : dec6 a <;> simp [ha] at hx
    | [_, _], h =>
      simp at h
      rw [h.2.2.1, d61] at hx
      cases ha : dec6 a <;> cases hb : dec6 b <;> simp [ha, hb] at hx
    | [_, _, _], h => simp at h; simp [h.2.2.2]
    | _ :: _ :: _ :: _ :: p, h => simp at h
  | case4 a b c d s h1 h2 ih =>
    intro x hx p r h
    simp only [Option.bind_eq_bind, Option.bind_eq_some_iff] at hx
    obtain ⟨a', ha, b', hb, c', hc, d', hd, s', hs, _⟩ := hx
    match p, h with
    | [], h => simp at h; rw [h.1, d61] at ha; cases ha
    | [_], h => simp at h; rw [h.2.1, d61] at hb; cases hb
    | [_, _], h => simp at h; rw [h.2.2.1, d61] at hc; cases hc
    | [_, _, _], h => simp at h; rw [h.2.2.2.1, d61] at hd; cases hd
    | _ :: _ :: _ :: _ :: p, h =>
      simp at h
      exact ih hs p r h.2.2.2.2
  | case5 => intro x hx; cases hx

theorem unbase64_short {e : GoStr} {x : List Byte} (h : unbase64 e = some x) (hx : x ≠ []) : 4 ≤ e.length := by
  match e, h with
  | [], h => simp [unbase64] at h; exact absurd h hx
  | [_], h => simp [unbase64] at h
  | [_, _], h => simp [unbase64] at h
  | [_, _, _], h => simp [unbase64] at h
  | _ :: _ :: _ :: _ :: s, h => simp

theorem digest_split {a a' e e' : GoStr} (h : a ++ 61 :: e = a' ++ 61 :: e') :
    a = a' ∨ (∃ p, e = p ++ 61 :: e') ∨ ∃ p, e' = p ++ 61 :: e := by
  induction a generalizing a' with
  | nil =>
    cases a' with
    | nil => exact .inl rfl
    | cons c a' => simp at h; exact .inr (.inl ⟨a', h.2⟩)
  | cons c a ih =>
    cases a' with
    | nil => simp at h; exact .inr (.inr ⟨a, h.2.symm⟩)
    | cons c' a' =>
      simp at h
      rcases ih h.2 with h' | h' | h'
      · exact .inl (by rw [h.1, h'])
      · exact .inr (.inl h')
      · exact .inr (.inr h')

/-- **C32 (Digest, unambiguous).**  The value determines the algorithm (whatever characters its name contains) and the digest. -/
theorem C32_digest_unambiguous {a a' e e' : GoStr} {d d' : List Byte} (he : unbase64 e = some d) (he' : unbase64 e' = some d')
    (hd : d ≠ []) (hd' : d' ≠ []) (h : a ++ lit "=" ++ e = a' ++ lit "=" ++ e') : a = a' ∧ d = d' := by
  have h' : a ++ 61 :: e = a' ++ 61 :: e' := by simpa [lit] using h
  rcases digest_split h' with h1 | ⟨p, h1⟩ | ⟨p, h1⟩
  · subst h1
    simp at h'
    subst h'
    rw [he] at he'
    exact ⟨rfl, by simpa using he'⟩
  · have := unbase64_pad e he p e' h1
    have := unbase64_short he' hd'
    omega
  · have := unbase64_pad e' he' p e h1
    have := unbase64_short he hd
    omega

/-- **C32 (rejected).**  An empty algorithm or digest panics and changes nothing. -/
theorem C32_rejected (E : BEnv B) (s : BState B) {h : Nat} {b : Bld} (hb : s.blds[h]? = some b) (algo : GoStr) (sum : List Byte)
    (hx : algo = [] ∨ sum = []) : s.step E (.on h (.withDigest algo sum)) = (s, .panic .badArg) := by
  have e := set_same hb
  by_cases h1 : algo = []
  · simp [BState.step, hb, Bld.step, h1, e]
  · have h2 := hx.resolve_left h1
    simp [BState.step, hb, Bld.step, h1, h2, e]

/-! ## C33 -/

/-- Only white space. -/
def Spec.Blank (s : GoStr) : Prop := ∃ l : List GoStr, (∀ c ∈ l, c ∈ spaces) ∧ s = l.flatten

theorem spaces_prefix : ∀ c ∈ spaceCodes, ∀ c' ∈ spaceCodes, c <+: c' → c = c' := by decide +kernel

theorem stripFront_blank (l : List GoStr) (hl : ∀ c ∈ l, c ∈ spaceCodes) : ∀ fuel, l.flatten.length ≤ fuel →
    stripFront spaceCodes fuel l.flatten = [] := by
  induction l with
  | nil =>
    intro fuel _
    cases fuel with
    | zero => rfl
    | succ n =>
      simp only [stripFront, List.flatten_nil]
      have : spaceCodes.find? (fun c => c.isPrefixOf []) = none := by decide +kernel
      rw [this]
  | cons c l ih =>
    intro fuel hf
    have hc := hl c (List.mem_cons_self ..)
    have hne := spaceCodes_ne c hc
    have hlen : 0 < c.length := List.length_pos_iff.2 hne
    simp only [List.flatten_cons, List.length_append] at hf
    cases fuel with
    | zero => omega
    | succ n =>
      simp only [stripFront, List.flatten_cons]
      cases hq : spaceCodes.find? (fun x => x.isPrefixOf (c ++ l.flatten)) with
      | none =>
        rw [List.find?_eq_none] at hq
        have := hq c hc
        simp at this
      | some c' =>
        have h1 := List.mem_of_find?_eq_some hq
        have h2 := List.find?_some hq
        rw [List.isPrefixOf_iff_prefix] at h2
        have : c' = c := by
          obtain ⟨r, hr⟩ := h2
          rcases prefix_or hr with h | h
          · exact spaces_prefix c' h1 c hc h
          · exact (spaces_prefix c hc c' h1 h).symm
        subst this
        simp only [List.drop_left]
        exact ih (fun c hc => hl c (List.mem_cons_of_mem _ hc)) n (by omega)

theorem trimSpace_nil_iff (s : GoStr) : trimSpace s = [] ↔ Blank s := by
  constructor
  · intro h
    obtain ⟨⟨l, r, h1, h2, h3⟩, _⟩ := trimmed s
    refine ⟨l ++ r, ?_, ?_⟩
    · intro c hc
      rcases List.mem_append.1 hc with hc | hc
      · exact h1 c hc
      · exact h2 c hc
    · rw [h3, h]; simp
  · intro ⟨l, h1, h2⟩
    rw [← spaces_eq] at h1
    subst h2
    simp only [trimSpace]
    rw [stripFront_blank l h1 _ (Nat.le_refl _)]
    rfl

/-- `Header.Set`: the name then has exactly this value, and the other names what they had. -/
theorem vset_get (v : List (GoStr × List GoStr)) (name value : GoStr) :
    (∀ e ∈ vset v name value, e.1 = canon name → e.2 = [value]) ∧ (∃ e ∈ vset v name value, e.1 = canon name) ∧
      ∀ e, e.1 ≠ canon name → (e ∈ vset v name value ↔ e ∈ v) := by
  unfold vset
  split
  · rename_i h
    simp only [List.any_eq_true, decide_eq_true_eq] at h
    refine ⟨?_, ?_, ?_⟩
    · intro e he hn
      obtain ⟨e', h1, rfl⟩ := List.mem_map.1 he
      split at hn
      · rename_i h3; rw [if_pos h3]
      · contradiction
    · obtain ⟨e, h1, h2⟩ := h
      exact ⟨(e.1, [value]), List.mem_map.2 ⟨e, h1, by simp [h2]⟩, h2⟩
    · intro e hn
      constructor
      · intro he
        obtain ⟨e', h1, rfl⟩ := List.mem_map.1 he
        split at hn
        · rename_i h3; exact absurd h3 hn
        · rename_i h3; simp [h3]; exact h1
      · intro he
        exact List.mem_map.2 ⟨e, he, by simp [hn]⟩
  · rename_i h
    simp only [List.any_eq_true, decide_eq_true_eq, not_exists, not_and] at h
    refine ⟨?_, ⟨_, List.mem_append_right _ (List.mem_singleton.2 rfl), rfl⟩, ?_⟩
    · intro e he hn
      rcases List.mem_append.1 he with h1 | h1
      · exact absurd hn (h e h1)
      · rw [List.mem_singleton.1 h1]
    · intro e hn
      simp only [List.mem_append, List.mem_singleton]
      constructor
      · rintro (h1 | rfl)
        · exact h1
        · exact absurd rfl hn
      · exact .inl

example : vset (vset [(lit "A", [lit "1"]), (lit "B", [lit "2", lit "3"])] (lit "b") (lit "4")) (lit "c") (lit "5") =
    [(lit "A", [lit "1"]), (lit "B", [lit "4"]), (lit "C", [lit "5"])] := by decide +kernel

/-- The headers of the redirect page. -/
theorem redirect_headers (location n : GoStr) :
    vset (vset (vset (vset [] (lit "Location") location) (lit "Content-Type") (lit "text/html; charset=utf-8"))
      (lit "Content-Length") n) (lit "Cache-Control") (lit "max-age=86400, must-revalidate") =
    [(lit "Location", [location]), (lit "Content-Type", [lit "text/html; charset=utf-8"]), (lit "Content-Length", [n]),
      (lit "Cache-Control", [lit "max-age=86400, must-revalidate"])] := by
  have c1 : canon (lit "Location") = lit "Location" := by decide +kernel
  have c4 : canon (lit "Cache-Control") = lit "Cache-Control" := by decide +kernel
  have n1 : lit "Location" ≠ lit "Content-Type" := by decide +kernel
  have n2 : lit "Location" ≠ lit "Content-Length" := by decide +kernel
  have n3 : lit "Location" ≠ lit "Cache-Control" := by decide +kernel
  have n4 : lit "Content-Type" ≠ lit "Content-Length" := by decide +kernel
  have n5 : lit "Content-Type" ≠ lit "Cache-Control" := by decide +kernel
  have n6 : lit "Content-Length" ≠ lit "Cache-Control" := by decide +kernel
  simp [vset, c1, canon_ct, canon_cl, c4, n1, n2, n3, n4, n5, n6]

theorem error_headers (n : GoStr) :
    vset (vset (vset [] (lit "Content-Type") (lit "text/plain; charset=utf-8"))
      (lit "Content-Length") n) (lit "Cache-Control") (lit "no-cache") =
    [(lit "Content-Type", [lit "text/plain; charset=utf-8"]), (lit "Content-Length", [n]),
      (lit "Cache-Control", [lit "no-cache"])] := by
  have c4 : canon (lit "Cache-Control") = lit "Cache-Control" := by decide +kernel
  have n4 : lit "Content-Type" ≠ lit "Content-Length" := by decide +kernel
  have n5 : lit "Content-Type" ≠ lit "Cache-Control" := by decide +kernel
  have n6 : lit "Content-Length" ≠ lit "Cache-Control" := by decide +kernel
  simp [vset, canon_ct, canon_cl, c4, n4, n5, n6]

/-- **C33 (redirect).**  `RedirectPage` with the default generator: the location without the white space around it is in the
Location header verbatim and twice, escaped, in the page, which is otherwise fixed; Content-Length is the length of the page;
the Body is made of exactly the page. -/
theorem C33_redirect {E : BEnv B} (hE : NoShared E) (st : Int → GoStr) (hd : E.gens 0 = defaultGen E.store st) {s : BState B}
    (hs : Reached E s) {h : Nat} {b : Bld} (hb : s.blds[h]? = some b) (hg : b.gen = none) (code : Int) (hc : 300 ≤ code ∧ code ≤ 399)
    (location : GoStr) (hl : ¬ Blank location) :
    ∃ v e n page b', Trimmed location v ∧ Unescapes e v ∧
      page = lit "<!DOCTYPE html>\r\n<p>Redirecting to <a href=\"" ++ e ++ lit "\">" ++ e ++ lit "</a>...</p>\r\n" ∧
      decimal n = some (page.length : Int) ∧
      (s.step E (.on h (.redirectPage code location))).1.blds[h]? = some b' ∧
      (s.step E (.on h (.redirectPage code location))).2 = .unit ∧
      (s.step E (.on h (.redirectPage code location))).1.bodies = (E.store.fromBytes s.bodies page).1 ∧
      b'.view (s.step E (.on h (.redirectPage code location))).1.heap =
        { gen := none, code, body := some (E.store.fromBytes s.bodies page).2, err := none, hdrs := Hdrs.of (
          [(lit "Location", [v]), (lit "Content-Type", [lit "text/html; charset=utf-8"]), (lit "Content-Length", [n]),
            (lit "Cache-Control", [lit "max-age=86400, must-revalidate"])]) } := by
  obtain ⟨b', h1, h2, h3, h4⟩ := on_step hE hs hb (.redirectPage code location)
  have hne : trimSpace location ≠ [] := fun e => hl ((trimSpace_nil_iff location).1 e)
  have hv : (b.view s.heap).gen.getD 0 = 0 := by simp [Bld.view, hg]
  have hcond : 300 ≤ code ∧ code ≤ 399 ∧ trimSpace location ≠ [] := ⟨hc.1, hc.2, hne⟩
  simp only [SBld.step, if_pos hcond, hv, hd, defaultGen, SBld.page, redirect_headers] at h2 h3 h4
  refine ⟨trimSpace location, escapeHTML (trimSpace location), _, redirectText (trimSpace location), b', trimmed location,
    unescapes_escape _, ?_, decimal_itoa _, h1, h4, h3, ?_⟩
  · have e1 : lit "<!DOCTYPE html>\r\n<p>Redirecting to <a href=\"" = lit "<!DOCTYPE html>" ++ lit "\r\n" ++ lit "<p>Redirecting to <a href=\"" := by
      decide +kernel
    have e2 : lit "</a>...</p>\r\n" = lit "</a>...</p>" ++ lit "\r\n" := by decide +kernel
    rw [e1, e2]
    simp only [redirectText, List.append_assoc]
  · rw [h2]
    simp [Bld.view, hg]

/-- **C33 (escaped text).**  Escaped text has none of the characters special to HTML, except `&` where it begins one of the
entities, and it stands for one text only. -/
theorem C33_escaped {e v : GoStr} (h : Unescapes e v) :
    (∀ c ∈ e, c ∉ lit "'<>\"") ∧ (∀ p r, e = p ++ 38 :: r → ∃ x ∈ entities, x.1 <+: 38 :: r) ∧ ∀ v', Unescapes e v' → v = v' := by
  refine ⟨h.safe, ?_, fun v' => h.unique⟩
  induction h with
  | nil => intro p r h; simp at h
  | @entity x c s t hx _ ih =>
    intro p r h
    rcases Nat.lt_or_ge p.length x.length with hl | hl
    · -- within the entity: only its first character is `&`
      have hp : p = [] := by
        have : ∀ x ∈ entities, ∀ i : Fin 6, x.1[i.val]? = some 38 → i.val = 0 := by decide +kernel
        have hlen : ∀ x ∈ entities, x.1.length ≤ 6 := by decide +kernel
        have hx6 := hlen _ hx
        simp only at hx6
        have h0 := this _ hx ⟨p.length, by omega⟩ (by
          have := congrArg (·[p.length]?) h
          simpa [List.getElem?_append_left hl] using this)
        simpa using h0
      subst hp
      refine ⟨_, hx, ?_⟩
      simp only [List.nil_append] at h
      rw [← h]
      exact List.prefix_append _ _
    · have : s = p.drop x.length ++ 38 :: r := by
        have := congrArg (List.drop x.length) h
        rwa [List.drop_left, List.drop_append_of_le_length hl] at this
      exact ih _ _ this
  | @plain c s t hc _ ih =>
    intro p r h
    cases p with
    | nil =>
      simp at h
      rw [h.1] at hc
      exact absurd (by decide) hc
    | cons a p =>
      simp at h
      exact ih p r h.2

/-- **C33 (blank).**  A location of white space only panics and changes nothing. -/
theorem C33_blank (E : BEnv B) (s : BState B) {h : Nat} {b : Bld} (hb : s.blds[h]? = some b) (code : Int) {location : GoStr}
    (hl : Blank location) : s.step E (.on h (.redirectPage code location)) = (s, .panic .badArg) := by
  have e := set_same hb
  have h0 := (trimSpace_nil_iff location).2 hl
  simp only [BState.step, hb, Bld.step, h0]
  by_cases h1 : code ≥ 300
  · by_cases h2 : code ≤ 399
    · simp [h1, h2, e]
    · simp [h1, h2, e]
  · simp [h1, e]

/-- **C33 (error page).**  `ErrorPage` with the default generator. -/
theorem C33_error {E : BEnv B} (hE : NoShared E) (st : Int → GoStr) (hd : E.gens 0 = defaultGen E.store st) {s : BState B}
    (hs : Reached E s) {h : Nat} {b : Bld} (hb : s.blds[h]? = some b) (hg : b.gen = none) (code : Int) (hc : 200 ≤ code ∧ code ≤ 999)
    (err : Err) :
    ∃ d n page b', decimal d = some code ∧ page = d ++ lit " " ++ st code ++ lit "\r\n" ∧
      decimal n = some (page.length : Int) ∧
      (s.step E (.on h (.errorPage code (some err)))).1.blds[h]? = some b' ∧
      (s.step E (.on h (.errorPage code (some err)))).2 = .unit ∧
      (s.step E (.on h (.errorPage code (some err)))).1.bodies = (E.store.fromBytes s.bodies page).1 ∧
      b'.view (s.step E (.on h (.errorPage code (some err)))).1.heap =
        { gen := none, code, body := some (E.store.fromBytes s.bodies page).2, err := some err, hdrs := Hdrs.of (
          [(lit "Content-Type", [lit "text/plain; charset=utf-8"]), (lit "Content-Length", [n]),
            (lit "Cache-Control", [lit "no-cache"])]) } := by
  obtain ⟨b', h1, h2, h3, h4⟩ := on_step hE hs hb (.errorPage code (some err))
  have hv : (b.view s.heap).gen.getD 0 = 0 := by simp [Bld.view, hg]
  simp only [SBld.step, if_pos hc, hv, hd, defaultGen, SBld.page, error_headers] at h2 h3 h4
  refine ⟨itoa code, _, errorText st code, b', decimal_itoa _, rfl, decimal_itoa _, h1, h4, h3, ?_⟩
  rw [h2]
  simp [Bld.view, hg]

end Verif
