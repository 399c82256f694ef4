import Verif.Proofs.MimeExt
import Verif.Props.Builder

/-!
# C75: `WithContentType` normalises the media type it is given

`Mime.normal` is what `WithContentType` does to its argument; `Spec.Media` says what a media type is, what it means and what may be sent in a
header, without reference to it.
-/

set_option autoImplicit false

namespace Verif
open Spec.Media
namespace Mime

/-! ## Every byte may be sent -/

theorem safe_vis (c : Byte) (h : Vis c) : c = 9 ∨ (32 ≤ c ∧ c ≤ 126) := by
  revert c; exact forall_byte (by decide +kernel)

instance (s : GoStr) : Decidable (HeaderSafe s) := inferInstanceAs (Decidable (∀ c ∈ s, _))

theorem safe_append {a b : GoStr} (ha : HeaderSafe a) (hb : HeaderSafe b) : HeaderSafe (a ++ b) := by
  intro c hc
  rcases List.mem_append.1 hc with h | h
  · exact ha c h
  · exact hb c h

theorem needs_byte (c : Byte) : ((decide (c < 32) || decide (126 < c)) && decide (c ≠ 9)) = true ↔ ¬ (c = 9 ∨ (32 ≤ c ∧ c ≤ 126)) := by
  revert c; exact forall_byte (by decide +kernel)

theorem needs_iff (v : GoStr) : needsEncoding v = true ↔ ¬ HeaderSafe v := by
  simp only [needsEncoding, List.any_eq_true, needs_byte, HeaderSafe, Classical.not_forall]
  constructor
  · rintro ⟨c, h1, h2⟩; exact ⟨c, h1, h2⟩
  · rintro ⟨c, h1, h2⟩; exact ⟨c, h1, h2⟩

theorem quote_inside (v : GoStr) (h : HeaderSafe v) : Inside (quoteInside v) v := by
  induction v with
  | nil => exact .nil
  | cons c v ih =>
    have hv := ih fun d hd => h d (by simp [hd])
    rw [quoteInside]
    split
    · rename_i hc
      refine .escaped ?_ hv
      rcases hc with rfl | rfl <;> decide
    · rename_i hc
      have h1 : c ≠ 13 ∧ c ≠ 10 := by
        have := h c (by simp)
        constructor <;> (rintro rfl; exact absurd this (by decide))
      exact .plain (fun e => hc (.inl e)) (fun e => hc (.inr e)) h1.1 h1.2 hv

theorem writes_param (k v : GoStr) (hk : GoodKey k) : Writes k v (formatParam k v) := by
  have hl : lower k = k := lower_low k hk.2.1.low
  unfold formatParam
  rw [hl]
  by_cases h1 : needsEncoding v = true
  · rw [if_pos h1]
    have := Writes.coded (k := k) ((needs_iff v).1 h1) ((unescape_iff _ _).1 (unescape_escape v)) fun c hc => (tokenByte_iff c).2 (escape_token v c hc).1
    simpa only [List.append_assoc] using this
  · rw [if_neg h1]
    have hs : HeaderSafe v := by
      rw [needs_iff] at h1
      exact Classical.not_not.1 h1
    by_cases h2 : isToken v = true
    · rw [if_pos h2]
      have := Writes.token (k := k) ((token_iff v).2 ((isToken_iff v).1 h2))
      simpa only [List.append_assoc] using this
    · rw [if_neg h2]
      have := Writes.quoted (k := k) (fun h => h2 ((isToken_iff v).2 ((token_iff v).1 h))) hs (quote_inside v hs)
      simpa only [List.append_assoc] using this

theorem writes_text (l : PMap) (h : ∀ e ∈ l, GoodKey e.1) : WritesAll l (text l) := by
  induction l with
  | nil => exact .nil
  | cons e l ih =>
    rw [text_cons]
    exact .cons (writes_param e.1 e.2 (h e (by simp))) (ih fun f hf => h f (by simp [hf]))

theorem quote_safe {v : GoStr} (h : HeaderSafe v) : HeaderSafe (quoteInside v) := by
  induction v with
  | nil => intro c hc; cases hc
  | cons c v ih =>
    have hv := ih fun d hd => h d (by simp [hd])
    have hc := h c (by simp)
    rw [quoteInside]
    split
    · intro d hd
      simp only [List.mem_cons] at hd
      rcases hd with rfl | rfl | hd
      · decide
      · exact hc
      · exact hv d hd
    · intro d hd
      rcases List.mem_cons.1 hd with rfl | hd
      · exact hc
      · exact hv d hd

theorem param_safe (k v : GoStr) (hk : GoodKey k) : HeaderSafe (formatParam k v) := by
  have hl : lower k = k := lower_low k hk.2.1.low
  have hks : HeaderSafe k := fun c hc => safe_vis c (hk.2.1.low c hc).1
  unfold formatParam
  rw [hl]
  refine safe_append (safe_append (by decide) hks) ?_
  by_cases h1 : needsEncoding v = true
  · rw [if_pos h1]
    exact safe_append (by decide) fun c hc => safe_vis c (vis_of_token c (escape_token v c hc).1)
  · rw [if_neg h1]
    have hs : HeaderSafe v := by
      rw [needs_iff] at h1
      exact Classical.not_not.1 h1
    split
    · exact safe_append (by decide) hs
    · exact safe_append (safe_append (by decide) (quote_safe hs)) (by decide)

theorem text_safe (l : PMap) (h : ∀ e ∈ l, GoodKey e.1) : HeaderSafe (text l) := by
  induction l with
  | nil => intro c hc; cases hc
  | cons e l ih =>
    rw [text_cons]
    exact safe_append (param_safe e.1 e.2 (h e (by simp))) (ih fun f hf => h f (by simp [hf]))

/-- What is known of a result. -/
theorem normal_some {v r : GoStr} (h : normal v = some r) :
    ∃ t ps, parse v = some (t, ps) ∧ GoodType t ∧ GoodParams ps ∧ r = format t ps ∧
      ((∃ e ∈ ps, e.1 = []) ∧ r = [] ∨ (∀ e ∈ ps, e.1 ≠ []) ∧ r = t ++ text (sort ps) ∧ r ≠ []) := by
  unfold normal at h
  obtain ⟨⟨t, ps⟩, h1, rfl⟩ := Option.map_eq_some_iff.1 h
  obtain ⟨g1, g2⟩ := parse_good h1
  refine ⟨t, ps, h1, g1, g2, rfl, ?_⟩
  by_cases he : ∃ e ∈ ps, e.1 = []
  · exact .inl ⟨he, format_bad he⟩
  · have he' : ∀ e ∈ ps, e.1 ≠ [] := fun e hm h => he ⟨e, hm, h⟩
    refine .inr ⟨he', format_good g1 g2 he', ?_⟩
    have h := format_good g1 g2 he'
    simp only
    rw [h]
    intro e
    exact g1.format.2 (List.append_eq_nil_iff.1 e).1

theorem le_lt {s t : GoStr} (h : le s t = true) (hne : s ≠ t) : s < t := by
  induction s generalizing t with
  | nil =>
    cases t with
    | nil => exact absurd rfl hne
    | cons b t => exact List.nil_lt_cons b t
  | cons a s ih =>
    cases t with
    | nil => cases h
    | cons b t =>
      rw [List.cons_lt_cons_iff]
      rw [le] at h
      split at h
      · rename_i h1; exact .inl h1
      · rename_i h1
        split at h
        · cases h
        · rename_i h2
          have e : a = b := UInt8.le_antisymm (UInt8.not_lt.1 h2) (UInt8.not_lt.1 h1)
          subst e
          exact .inr ⟨rfl, ih h fun e => hne (by rw [e])⟩

theorem sort_strict {ps : PMap} (h : (ps.map (·.1)).Nodup) : (sort ps).Pairwise fun a b => a.1 < b.1 := by
  have hd : ((sort ps).map (·.1)).Nodup := (((sort_perm ps).map (·.1)).nodup_iff).2 h
  rw [List.nodup_iff_pairwise_ne, List.pairwise_map] at hd
  exact ((sort_sorted ps).and hd).imp fun ⟨h1, h2⟩ => le_lt h1 h2

theorem perm_of_mem {ps qs : PMap} (hp : (ps.map (·.1)).Nodup) (hq : (qs.map (·.1)).Nodup) (h : ∀ k x, (k, x) ∈ ps ↔ (k, x) ∈ qs) : ps.Perm qs := by
  have nd : ∀ {m : PMap}, (m.map (·.1)).Nodup → m.Nodup := fun {m} hm => by
    rw [List.nodup_iff_pairwise_ne, List.pairwise_map] at hm
    exact List.nodup_iff_pairwise_ne.2 (hm.imp fun h e => h (by rw [e]))
  rw [List.perm_ext_iff_of_nodup (nd hp) (nd hq)]
  rintro ⟨k, x⟩
  exact h k x

end Mime

open Mime

/-- A string means one thing at most. -/
theorem C75_meaning {v t t' : GoStr} {M M' : GoStr → GoStr → Prop} (h : Means v t M) (h' : Means v t' M') :
    t = t' ∧ (∀ k x, M k x ↔ M' k x) ∧ ∀ k x y, M k x → M k y → x = y := by
  obtain ⟨ps, h1, h2⟩ := means_parse h
  obtain ⟨qs, h3, h4⟩ := means_parse h'
  have hg := (parse_good h1).2
  rw [h1] at h3
  simp only [Option.some.injEq, Prod.mk.injEq] at h3
  obtain ⟨rfl, rfl⟩ := h3
  exact ⟨rfl, fun k x => (h2 k x).trans (h4 k x).symm, fun k x y hx hy => entry_unique hg.1 ((h2 k x).1 hx) ((h2 k y).1 hy)⟩

/-- **C75 (accepted).**  Exactly the strings that mean something can be parsed. -/
theorem C75_accepts (v : GoStr) : Mime.normal v ≠ none ↔ ∃ t M, Means v t M := by
  constructor
  · intro h
    cases hn : normal v with
    | none => exact absurd hn h
    | some r =>
      obtain ⟨t, ps, h1, _⟩ := normal_some hn
      exact ⟨t, _, parse_means h1⟩
  · rintro ⟨t, M, h⟩
    obtain ⟨ps, h1, _⟩ := means_parse h
    simp [normal, h1]

/-- **C75 (formattable).**  `FormatMediaType` by itself writes something exactly if it is given the name of a type and names of parameters. -/
theorem C75_formattable (t : GoStr) (ps : List (GoStr × GoStr)) : Mime.format t ps ≠ [] ↔ TypeName t ∧ ∀ e ∈ ps, Token e.1 := by
  have tok : ∀ s, Mime.isToken s = true ↔ Token s := fun s => by rw [Mime.isToken_iff, token_iff]
  have low : ∀ s, s ≠ [] → Mime.lower s ≠ [] := by
    intro s hs h
    unfold Mime.lower at h
    split at h
    · cases h
    · cases h
    · cases h
    · exact hs rfl
  have ht : Mime.formatType t ≠ [] ↔ TypeName t := by
    unfold Mime.formatType
    cases hd : t.dropWhile (· ≠ 47) with
    | nil =>
      dsimp only
      constructor
      · intro h
        split at h
        · rename_i h1
          exact .inl ((tok t).1 h1)
        · exact absurd rfl h
      · rintro (h | ⟨a, b, ha, hb, rfl⟩)
        · rw [if_pos ((tok t).2 h)]
          exact low t h.1
        · have hs : ∀ c ∈ a, decide (c ≠ 47) = true := fun c hc => decide_eq_true ((token_ne_slash c (((token_iff a).1 ha).2 c hc)).1)
          have e := takeWhile_stop (· ≠ 47) a 47 b hs (by decide)
          have e0 : a ++ lit "/" ++ b = a ++ 47 :: b := by simp [lit]
          rw [e0, e.2] at hd
          cases hd
    | cons x sub =>
      dsimp only
      have hx : x = 47 := by
        have := List.head?_dropWhile_not (fun c : Byte => decide (c ≠ 47)) t
        rw [hd] at this
        simpa using this
      subst hx
      have hsplit : t = t.takeWhile (· ≠ 47) ++ 47 :: sub := by
        rw [← hd, List.takeWhile_append_dropWhile]
      constructor
      · intro h
        split at h
        · rename_i h1
          rw [Bool.and_eq_true] at h1
          exact .inr ⟨_, _, (tok _).1 h1.1, (tok _).1 h1.2, by simpa [lit] using hsplit⟩
        · exact absurd rfl h
      · rintro (h | ⟨a, b, ha, hb, rfl⟩)
        · have : Mime.isTokenChar 47 = true := ((token_iff t).1 h).2 47 (by rw [hsplit]; simp)
          exact absurd this (by decide)
        · have hs : ∀ c ∈ a, decide (c ≠ 47) = true := fun c hc => decide_eq_true ((token_ne_slash c (((token_iff a).1 ha).2 c hc)).1)
          have e := takeWhile_stop (· ≠ 47) a 47 b hs (by decide)
          have e0 : a ++ lit "/" ++ b = a ++ 47 :: b := by simp [lit]
          rw [e0] at hd ⊢
          rw [e.2] at hd
          cases hd
          rw [e.1, if_pos (by rw [(tok a).2 ha, (tok _).2 hb]; rfl)]
          simp [lit]
  have hp : (Mime.sort ps).all (fun e => Mime.isToken e.1) = true ↔ ∀ e ∈ ps, Token e.1 := by
    rw [List.all_eq_true]
    constructor
    · exact fun h e he => (tok _).1 (h e ((sort_perm ps).mem_iff.2 he))
    · exact fun h e he => (tok _).2 (h e ((sort_perm ps).mem_iff.1 he))
  unfold Mime.format
  by_cases h1 : Mime.formatType t = []
  · rw [if_pos h1]
    exact ⟨fun h => absurd rfl h, fun h => absurd h1 (ht.2 h.1)⟩
  · rw [if_neg h1, ← ht, ← hp]
    split
    · rename_i h2
      exact ⟨fun _ => ⟨h1, h2⟩, fun _ h => h1 (List.append_eq_nil_iff.1 h).1⟩
    · rename_i h2
      exact ⟨fun h => absurd rfl h, fun h => absurd h.2 h2⟩

/-- **C75 (type).**  What it writes begins with the type in lower case. -/
theorem C75_type {t : GoStr} {ps : List (GoStr × GoStr)} (ht : TypeName t) (hp : ∀ e ∈ ps, Token e.1) : Spec.lower t <+: Mime.format t ps := by
  have hne := (C75_formattable t ps).2 ⟨ht, hp⟩
  unfold Mime.format at hne ⊢
  split at hne
  · exact absurd rfl hne
  · rename_i h1
    rw [if_neg h1]
    split at hne
    · rename_i h2
      rw [if_pos h2]
      have : Mime.formatType t = Spec.lower t := by
        rcases ht with h | ⟨a, b, ha, hb, rfl⟩
        · have h' := (token_iff t).1 h
          have := (takeWhile_all (· ≠ 47) t fun c hc => decide_eq_true ((token_ne_slash c (h'.2 c hc)).1)).2
          unfold Mime.formatType
          rw [this]
          dsimp only
          rw [if_pos ((Mime.isToken_iff t).2 h'), lower_tok t h'.2]
        · have ha' := (token_iff a).1 ha
          have hb' := (token_iff b).1 hb
          have e := takeWhile_stop (· ≠ 47) a 47 b (fun c hc => decide_eq_true ((token_ne_slash c (ha'.2 c hc)).1)) (by decide)
          have e0 : a ++ lit "/" ++ b = a ++ 47 :: b := by simp [lit]
          unfold Mime.formatType
          rw [e0, e.2]
          dsimp only
          rw [e.1, if_pos (by rw [(Mime.isToken_iff a).2 ha', (Mime.isToken_iff b).2 hb']; rfl), lower_tok a ha'.2, lower_tok b hb'.2]
          have h47 : Spec.lowerByte 47 = 47 := by decide
          simp [Spec.lower, lit, h47]
      rw [this]
      exact List.prefix_append _ _
    · exact absurd rfl hne

example : Mime.format (lit "Text/HTML") [(lit "b", lit "1"), (lit "a", lit "x y")] = lit "text/html; a=\"x y\"; b=1" ∧
    Mime.format (lit "text/") [] = [] ∧ Mime.format (lit "text/ht ml") [] = [] ∧ Mime.format (lit "text") [(lit "a b", [])] = [] := by decide +kernel

/-- **C75 (formatted).**  And of those exactly the ones without a nameless parameter can be formatted. -/
theorem C75_formats {v t : GoStr} {M : GoStr → GoStr → Prop} (h : Means v t M) : Mime.normal v = some [] ↔ ∃ x, M [] x := by
  obtain ⟨ps, h1, h2⟩ := means_parse h
  have hn : normal v = some (format t ps) := by simp [normal, h1]
  obtain ⟨t', ps', h1', _, _, _, h3⟩ := normal_some hn
  rw [h1] at h1'
  simp only [Option.some.injEq, Prod.mk.injEq] at h1'
  obtain ⟨rfl, rfl⟩ := h1'
  rw [hn, Option.some.injEq]
  rcases h3 with ⟨⟨e, he, he2⟩, h4⟩ | ⟨h4, _, h5⟩
  · refine ⟨fun _ => ⟨e.2, (h2 _ _).2 ?_⟩, fun _ => h4⟩
    rw [← he2]
    exact he
  · refine ⟨fun e => absurd e h5, ?_⟩
    rintro ⟨x, hx⟩
    exact absurd rfl (h4 _ ((h2 _ _).1 hx))

/-- **C75 (safe).**  Whatever the argument, the value can be sent in a header: there is no line break in it. -/
theorem C75_safe {v r : GoStr} (h : Mime.normal v = some r) : HeaderSafe r := by
  obtain ⟨t, ps, h1, g1, g2, _, ⟨_, rfl⟩ | ⟨h3, rfl, _⟩⟩ := normal_some h
  · intro c hc; cases hc
  · refine safe_append (fun c hc => safe_vis c (g1.1 c hc).1) (text_safe _ ?_)
    exact fun e he => goodKeys g2 h3 e ((sort_perm ps).mem_iff.1 he)

/-- **C75 (kept).**  The value means the same as the argument: the type in lower case, and the same parameters. -/
theorem C75_kept {v r t : GoStr} {M : GoStr → GoStr → Prop} (h : Mime.normal v = some r) (hr : r ≠ []) (hv : Means v t M) : Means r t M := by
  obtain ⟨ps, p1, p2⟩ := means_parse hv
  obtain ⟨t', ps', h1, g1, g2, h4, ⟨_, h3⟩ | ⟨h3, _, _⟩⟩ := normal_some h
  · exact absurd h3 hr
  · rw [p1] at h1
    simp only [Option.some.injEq, Prod.mk.injEq] at h1
    obtain ⟨rfl, rfl⟩ := h1
    obtain ⟨qs, q1, q2⟩ := parse_format g1 g2 h3
    rw [← h4] at q1
    obtain ⟨raw, semi, k1, k2, k3⟩ := parse_means q1
    exact ⟨raw, semi, k1, k2, fun k x => (p2 k x).trans (q2.mem_iff.symm.trans (k3 k x))⟩

/-- **C75 (written).**  How the value is written: the type, then the parameters in the order of their names, each in the simplest way. -/
theorem C75_written {v r t : GoStr} {M : GoStr → GoStr → Prop} (h : Mime.normal v = some r) (hr : r ≠ []) (hv : Means v t M) :
    ∃ l text, r = t ++ text ∧ WritesAll l text ∧ (l.Pairwise fun a b => a.1 < b.1) ∧ ∀ k x, (k, x) ∈ l ↔ M k x := by
  obtain ⟨ps, p1, p2⟩ := means_parse hv
  obtain ⟨t', ps', h1, g1, g2, h4, ⟨_, h3⟩ | ⟨h3, h5, _⟩⟩ := normal_some h
  · exact absurd h3 hr
  · rw [p1] at h1
    simp only [Option.some.injEq, Prod.mk.injEq] at h1
    obtain ⟨rfl, rfl⟩ := h1
    exact ⟨sort ps, _, h5, writes_text _ fun e he => goodKeys g2 h3 e ((sort_perm ps).mem_iff.1 he), sort_strict g2.1,
      fun k x => by rw [p2, (sort_perm ps).mem_iff]⟩

/-- **C75 (fixed).**  The value is left as it is if it is given again. -/
theorem C75_fixed {v r : GoStr} (h : Mime.normal v = some r) (hr : r ≠ []) : Mime.normal r = some r := by
  obtain ⟨t, ps, h1, g1, g2, h4, ⟨_, h3⟩ | ⟨h3, h5, _⟩⟩ := normal_some h
  · exact absurd h3 hr
  · obtain ⟨qs, q1, q2⟩ := parse_format g1 g2 h3
    rw [← h4] at q1
    have g3 := g2.perm q2.symm
    unfold normal
    rw [q1]
    simp only [Option.map_some]
    rw [format_good g1 g3 fun e he => h3 e (q2.mem_iff.1 he), sort_congr g3.1 q2, ← h5]

/-- **C75 (same).**  Two strings give the same value exactly if they mean the same. -/
theorem C75_same {v w r r' t t' : GoStr} {M M' : GoStr → GoStr → Prop} (hv : Means v t M) (hw : Means w t' M')
    (h : Mime.normal v = some r) (h' : Mime.normal w = some r') (hr : r ≠ []) (hr' : r' ≠ []) :
    r = r' ↔ t = t' ∧ ∀ k x, M k x ↔ M' k x := by
  constructor
  · rintro rfl
    have := C75_meaning (C75_kept h hr hv) (C75_kept h' hr' hw)
    exact ⟨this.1, this.2.1⟩
  · rintro ⟨rfl, hM⟩
    obtain ⟨ps, p1, p2⟩ := means_parse hv
    obtain ⟨qs, q1, q2⟩ := means_parse hw
    obtain ⟨_, _, h1, g1, g2, _, ⟨_, h3⟩ | ⟨_, h5, _⟩⟩ := normal_some h
    · exact absurd h3 hr
    obtain ⟨_, _, h1', g1', g2', _, ⟨_, h3'⟩ | ⟨_, h5', _⟩⟩ := normal_some h'
    · exact absurd h3' hr'
    rw [p1] at h1
    rw [q1] at h1'
    simp only [Option.some.injEq, Prod.mk.injEq] at h1 h1'
    obtain ⟨rfl, rfl⟩ := h1
    obtain ⟨rfl, rfl⟩ := h1'
    rw [h5, h5', sort_congr g2.1 (perm_of_mem g2.1 g2'.1 fun k x => by rw [← p2, ← q2, hM])]

variable {B : Type}

/-- **C75 (the header).**  The whole of `WithContentType`: if the argument means something, and has no nameless parameter, the header means
that, and can be sent; if not, the call panics and changes nothing. -/
theorem C75_header {E : BEnv B} (hm : E.mime = Mime.normal) (hE : NoShared E) {s : BState B} (hs : Reached E s) {h : Nat} {b : Bld}
    (hb : s.blds[h]? = some b) (str : GoStr) :
    (∀ t M, Means str t M → (∀ x, ¬ M [] x) → ∃ b' r, (s.step E (.on h (.withContentType str))).1.blds[h]? = some b' ∧
      (s.step E (.on h (.withContentType str))).2 = .unit ∧
      (s.step E (.on h (.withContentType str))).1.heap.lookup b'.hdrs (lit "Content-Type") = some [r] ∧ Means r t M ∧ HeaderSafe r) ∧
    ((∀ t M, Means str t M → ∃ x, M [] x) → s.step E (.on h (.withContentType str)) = (s, .panic (.error (.ext 0)))) := by
  obtain ⟨h1, h2⟩ := C31_content_type hE hs hb str
  rw [hm] at h1 h2
  constructor
  · intro t M hM hx
    cases hn : normal str with
    | none => exact absurd hn ((C75_accepts str).2 ⟨t, M, hM⟩)
    | some r =>
      have hr : r ≠ [] := by
        rintro rfl
        obtain ⟨x, hx'⟩ := (C75_formats hM).1 hn
        exact hx x hx'
      obtain ⟨b', k1, k2, k3, _⟩ := h1 r hn hr
      exact ⟨b', r, k1, k2, k3, C75_kept hn hr hM, C75_safe hn⟩
  · intro hall
    apply h2
    cases hn : normal str with
    | none => exact .inl rfl
    | some r =>
      obtain ⟨t, M, hM⟩ := (C75_accepts str).1 (by rw [hn]; simp)
      right
      rw [← hn]
      exact (C75_formats hM).2 (hall t M hM)

/-! ## Examples -/

example : Mime.normal (lit "Text/HTML ; Charset=UTF-8") = some (lit "text/html; charset=UTF-8") := by decide +kernel
example : Mime.normal (lit "text/plain; b=\"x y\"; a=\"z\";") = some (lit "text/plain; a=z; b=\"x y\"") := by decide +kernel
example : Mime.normal (lit "message/external-body; URL*0=\"ftp://\"; URL*1=\"cs.utk.edu\"; access-type=URL") =
    some (lit "message/external-body; access-type=URL; url=\"ftp://cs.utk.edu\"") := by decide +kernel
example : Mime.normal (lit "a/b; title*=us-ascii'en-us'This%20is%20fun") = some (lit "a/b; title=\"This is fun\"") := by decide +kernel
example : Mime.normal (lit "a/b; title*=utf-8''%0D%0ASet-Cookie") = some (lit "a/b; title*=utf-8''%0D%0ASet-Cookie") := by decide +kernel
example : Mime.normal (lit "a/b; title*=utf-8''x;") = some (lit "a/b") := by decide +kernel
example : Mime.normal (lit "a/b; *=utf-8''x") = some [] := by decide +kernel
example : Mime.normal (lit "a/b; c=1; C=2") = none := by decide +kernel
example : Mime.normal (lit "a/b/c") = none := by decide +kernel

/-- What the first of them means. -/
example : Means (lit "Text/HTML ; Charset=UTF-8") (lit "text/html") fun k x => k = lit "charset" ∧ x = lit "UTF-8" := by
  have h : parse (lit "Text/HTML ; Charset=UTF-8") = some (lit "text/html", [(lit "charset", lit "UTF-8")]) := by decide +kernel
  have := parse_means h
  simpa using this

end Verif
