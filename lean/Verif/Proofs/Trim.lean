import Verif.Props.Pages

/-! # What `strings.TrimSpace` returns is determined -/

set_option autoImplicit false

namespace Verif
open Spec

/-- Codes of which none begins another. -/
theorem stripFront_over {codes : List GoStr} (hne : ∀ c ∈ codes, c ≠ []) (hpre : ∀ c ∈ codes, ∀ c' ∈ codes, c <+: c' → c = c') {w : GoStr} (hw : ∀ c ∈ codes, ¬ c <+: w)
    (l : List GoStr) (hl : ∀ c ∈ l, c ∈ codes) : ∀ fuel, l.flatten.length ≤ fuel → stripFront codes fuel (l.flatten ++ w) = w := by
  induction l with
  | nil =>
    intro fuel _
    cases fuel with
    | zero => rfl
    | succ n =>
      simp only [stripFront, List.flatten_nil, List.nil_append]
      have : codes.find? (fun c => c.isPrefixOf w) = none := by
        rw [List.find?_eq_none]
        intro c hc h
        exact hw c hc (List.isPrefixOf_iff_prefix.1 h)
      rw [this]
  | cons c l ih =>
    intro fuel hf
    have hc := hl c (List.mem_cons_self ..)
    have hlen : 0 < c.length := List.length_pos_iff.2 (hne c hc)
    simp only [List.flatten_cons, List.length_append] at hf
    cases fuel with
    | zero => omega
    | succ n =>
      simp only [stripFront, List.flatten_cons, List.append_assoc]
      cases hq : codes.find? (fun x => x.isPrefixOf (c ++ (l.flatten ++ w))) with
      | none =>
        rw [List.find?_eq_none] at hq
        have := hq c hc
        simp at this
      | some c' =>
        have h1 := List.mem_of_find?_eq_some hq
        have h2 := List.find?_some hq
        rw [List.isPrefixOf_iff_prefix] at h2
        have : c' = c := by
          obtain ⟨r, hr⟩ := h2
          rcases prefix_or hr with h | h
          · exact hpre c' h1 c hc h
          · exact (hpre c hc c' h1 h).symm
        subst this
        simp only [List.drop_left]
        exact ih (fun c hc => hl c (List.mem_cons_of_mem _ hc)) n (by omega)

theorem spaces_suffix : ∀ c ∈ spaceCodes.map List.reverse, ∀ c' ∈ spaceCodes.map List.reverse, c <+: c' → c = c' := by decide +kernel

/-- No code begins with a byte that is in another one, but not at its front. -/
theorem spaces_front : ∀ c ∈ spaceCodes, ∀ b ∈ c.drop 1, ∀ c' ∈ spaceCodes, c'.head? ≠ some b := by decide +kernel

theorem flatten_head {r : List GoStr} (hr : ∀ c ∈ r, c ∈ spaceCodes) {b : Byte} {t : GoStr} (h : r.flatten = b :: t) : ∃ c ∈ spaceCodes, c.head? = some b := by
  cases r with
  | nil => cases h
  | cons c r =>
    have hc := hr c (List.mem_cons_self ..)
    refine ⟨c, hc, ?_⟩
    cases c with
    | nil => exact absurd rfl (spaceCodes_ne _ hc)
    | cons a c =>
      rw [List.flatten_cons, List.cons_append] at h
      injection h with h1 h2
      rw [h1]
      rfl

/-- What is left of a string without the white space around it is determined. -/
theorem trimmed_eq {s v : GoStr} (h : Trimmed s v) : v = trimSpace s := by
  obtain ⟨⟨l, r, h1, h2, h3⟩, h4⟩ := h
  by_cases hv : v = []
  · subst hv
    refine ((trimSpace_nil_iff s).2 ⟨l ++ r, fun c hc => ?_, by rw [h3]; simp⟩).symm
    rcases List.mem_append.1 hc with hc | hc
    · exact h1 c hc
    · exact h2 c hc
  · rw [← spaces_eq] at h1 h2 h4
    have hw : ∀ c ∈ spaceCodes, ¬ c <+: v ++ r.flatten := by
      intro c hc hp
      obtain ⟨d, hd⟩ := hp
      rcases prefix_or hd with h | ⟨d', h⟩
      · exact (h4 c hc).1 h
      · cases d' with
        | nil => exact (h4 c hc).1 ⟨[], by rw [← h]; simp⟩
        | cons b d' =>
          rw [← h, List.append_assoc, List.cons_append] at hd
          obtain ⟨c', hc', hb⟩ := flatten_head h2 (List.append_cancel_left hd).symm
          refine spaces_front c hc b ?_ c' hc' hb
          rw [← h]
          cases v with
          | nil => exact absurd rfl hv
          | cons a v => simp
    have e1 : stripFront spaceCodes s.length s = v ++ r.flatten := by
      rw [h3, List.append_assoc]
      exact stripFront_over spaceCodes_ne spaces_prefix hw l h1 _ (by simp)
    simp only [trimSpace, e1]
    have hrev : (v ++ r.flatten).reverse = ((r.map List.reverse).reverse).flatten ++ v.reverse := by rw [List.reverse_append, reverse_flatten]
    rw [hrev, stripFront_over (codes := spaceCodes.map List.reverse) (by decide) spaces_suffix]
    · simp
    · intro c hc hp
      obtain ⟨c', hc', rfl⟩ := List.mem_map.1 hc
      exact (h4 c' hc').2 (by rw [← List.reverse_prefix]; exact hp)
    · intro c hc
      simp only [List.mem_reverse, List.mem_map] at hc
      obtain ⟨c', hc', rfl⟩ := hc
      exact List.mem_map.2 ⟨c', h2 c' hc', rfl⟩
    · rw [← reverse_flatten]; simp

end Verif
