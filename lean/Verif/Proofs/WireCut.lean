import Verif.Proofs.WireBody

/-!
# Messages cut short, and lengths that do not agree
-/

set_option autoImplicit false

namespace Verif
namespace WireP
open Spec.Wire Wire

theorem while_append {α : Type} {p : α → Bool} {s : List α} {x : α} {r : List α} (t : List α) (h : s.dropWhile p = x :: r) :
    (s ++ t).dropWhile p = x :: (r ++ t) ∧ (s ++ t).takeWhile p = s.takeWhile p := by
  induction s with
  | nil => cases h
  | cons a s ih =>
    simp only [List.cons_append, List.dropWhile_cons, List.takeWhile_cons] at h ⊢
    split at h
    · rename_i ha
      obtain ⟨i1, i2⟩ := ih h
      simp only [ha, if_true]
      exact ⟨i1, by rw [i2]⟩
    · rename_i ha
      cases h
      simp [ha]

theorem line_more {strict : Bool} {s l r : GoStr} (t : GoStr) (h : line strict s = some (l, r)) : line strict (s ++ t) = some (l, r ++ t) := by
  unfold line at h ⊢
  cases hd : s.dropWhile (· ≠ 10) with
  | nil => rw [hd] at h; cases h
  | cons x y =>
    obtain ⟨e1, e2⟩ := while_append t hd
    rw [hd] at h
    rw [e1, e2]
    dsimp only at h ⊢
    generalize s.takeWhile (· ≠ 10) = q at h ⊢
    by_cases c1 : q.getLast? = some 13
    · rw [if_pos c1] at h ⊢
      split at h
      · cases h
      · rename_i hc
        rw [if_neg hc]
        cases h
        rfl
    · rw [if_neg c1] at h ⊢
      split at h
      · cases h
      · rename_i hc
        rw [if_neg hc]
        cases h
        rfl

theorem fields_more {strict : Bool} (t : GoStr) {f : Nat} : ∀ {f' : Nat} {s r : GoStr} {fs : List (GoStr × GoStr)},
    fields strict f s = some (fs, r) → f ≤ f' → fields strict f' (s ++ t) = some (fs, r ++ t) := by
  induction f with
  | zero => intro f' s r fs h; cases h
  | succ f ih =>
    intro f' s r fs h hf
    obtain ⟨g, rfl⟩ : ∃ g, f' = g + 1 := ⟨f' - 1, by omega⟩
    rw [fields] at h ⊢
    cases hl : line strict s with
    | none => rw [hl] at h; cases h
    | some x =>
      obtain ⟨l, r'⟩ := x
      rw [hl] at h
      rw [line_more t hl]
      simp only [Option.bind_eq_bind, Option.bind_some] at h ⊢
      by_cases hz : l = []
      · rw [if_pos hz] at h ⊢
        cases h; rfl
      · rw [if_neg hz] at h ⊢
        cases hx : field l with
        | none => rw [hx] at h; cases h
        | some y =>
          rw [hx] at h
          simp only [Option.bind_some] at h ⊢
          cases hr : fields strict f r' with
          | none => rw [hr] at h; cases h
          | some z =>
            obtain ⟨fs', r''⟩ := z
            rw [hr] at h
            rw [ih hr (by omega : f ≤ g)]
            simp only [Option.bind_some] at h ⊢
            cases h; rfl

theorem chunks_more {strict : Bool} (t : GoStr) {f : Nat} : ∀ {f' : Nat} {s r : GoStr} {d : List Byte},
    chunks strict f s = some (d, r) → f ≤ f' → chunks strict f' (s ++ t) = some (d, r ++ t) := by
  induction f with
  | zero => intro f' s r d h; cases h
  | succ f ih =>
    intro f' s r d h hf
    obtain ⟨g, rfl⟩ : ∃ g, f' = g + 1 := ⟨f' - 1, by omega⟩
    rw [chunks] at h ⊢
    cases hl : line strict s with
    | none => rw [hl] at h; cases h
    | some x =>
      obtain ⟨l, r'⟩ := x
      rw [hl] at h
      rw [line_more t hl]
      simp only [Option.bind_eq_bind, Option.bind_some] at h ⊢
      cases hn : hexValue (strip (l.takeWhile (· ≠ 59))) with
      | none => rw [hn] at h; cases h
      | some n =>
        rw [hn] at h
        simp only [Option.bind_some] at h ⊢
        by_cases hz : n = 0
        · rw [if_pos hz] at h ⊢
          cases hr : fields strict (f + 1) r' with
          | none => rw [hr] at h; cases h
          | some z =>
            obtain ⟨fs', r''⟩ := z
            rw [hr] at h
            rw [fields_more t hr (by omega : f + 1 ≤ g + 1)]
            simp only [Option.bind_some] at h ⊢
            cases h; rfl
        · rw [if_neg hz] at h ⊢
          by_cases hlen : r'.length < n
          · rw [if_pos hlen] at h; cases h
          · rw [if_neg hlen] at h
            rw [if_neg (by simp; omega)]
            rw [List.drop_append_of_le_length (by omega), List.take_append_of_le_length (by omega)]
            cases he : line strict (r'.drop n) with
            | none => rw [he] at h; cases h
            | some q =>
              obtain ⟨e, after⟩ := q
              rw [he] at h
              rw [line_more t he]
              simp only [Option.bind_some] at h ⊢
              by_cases hee : e ≠ []
              · rw [if_pos hee] at h; cases h
              · rw [if_neg hee] at h ⊢
                cases hr : chunks strict f after with
                | none => rw [hr] at h; cases h
                | some z =>
                  obtain ⟨d', r''⟩ := z
                  rw [hr] at h
                  rw [ih hr (by omega : f ≤ g)]
                  simp only [Option.bind_some] at h ⊢
                  cases h; rfl

/-- A body whose end does not depend on where the connection ends. -/
theorem body_more {strict isHEAD : Bool} {st : Nat} {fs : List (GoStr × GoStr)} {s r : GoStr} {b : List Byte} (t : GoStr)
    (h : body strict isHEAD st fs s = some (b, r)) :
    body strict isHEAD st fs (s ++ t) = some (b, r ++ t) ∨ ∀ z, body strict isHEAD st fs z = some (z, []) := by
  unfold body at h ⊢
  by_cases hs : isHEAD = true ∨ st < 200 ∨ st = 204 ∨ st = 304
  · rw [if_pos hs] at h ⊢
    cases h
    exact Or.inl rfl
  · rw [if_neg hs] at h ⊢
    simp only [if_neg hs]
    cases hv : valuesOf fs (lit "transfer-encoding") with
    | nil =>
      rw [hv] at h
      dsimp only at h ⊢
      cases hc : valuesOf fs (lit "content-length") with
      | nil => exact Or.inr fun z => rfl
      | cons v vs =>
        left
        rw [hc] at h
        dsimp only at h ⊢
        cases hn : lengthOf v with
        | none => rw [hn] at h; cases h
        | some n =>
          rw [hn] at h
          simp only [Option.bind_eq_bind, Option.bind_some] at h ⊢
          split at h
          · rename_i hx
            rw [if_pos ⟨hx.1, by simp; omega⟩, List.take_append_of_le_length hx.2, List.drop_append_of_le_length hx.2]
            cases h; rfl
          · cases h
    | cons v vs =>
      rw [hv] at h
      left
      cases vs with
      | nil =>
        dsimp only at h ⊢
        split at h
        · rename_i hx
          rw [if_pos hx]
          exact chunks_more t h (by simp)
        · cases h
      | cons => cases h

theorem receive_more {strict isHEAD : Bool} {s r : GoStr} {m : Message} (t : GoStr) (h : receive strict isHEAD s = some (m, r)) :
    receive strict isHEAD (s ++ t) = some (m, r ++ t) ∨ ∀ u, ∃ m', receive strict isHEAD (s ++ u) = some (m', []) := by
  unfold receive at h ⊢
  cases hl : line strict s with
  | none => rw [hl] at h; cases h
  | some x =>
    obtain ⟨l, r'⟩ := x
    rw [hl] at h
    simp only [line_more _ hl]
    simp only [Option.bind_eq_bind, Option.bind_some] at h ⊢
    cases hc : statusCode l with
    | none => rw [hc] at h; cases h
    | some st =>
      rw [hc] at h
      simp only [Option.bind_some] at h ⊢
      cases hr : fields strict (s.length + 1) r' with
      | none => rw [hr] at h; cases h
      | some z =>
        obtain ⟨fs, r''⟩ := z
        rw [hr] at h
        have hmore : ∀ u, fields strict ((s ++ u).length + 1) (r' ++ u) = some (fs, r'' ++ u) := fun u => fields_more u hr (by simp)
        simp only [hmore]
        simp only [Option.bind_some] at h ⊢
        cases hb : body strict isHEAD st fs r'' with
        | none => rw [hb] at h; cases h
        | some y =>
          obtain ⟨b, r3⟩ := y
          rw [hb] at h
          simp only [Option.bind_some] at h
          rcases body_more t hb with hb' | hb'
          · left
            rw [hb']
            cases h; rfl
          · right
            intro u
            rw [hb' (r'' ++ u)]
            exact ⟨_, rfl⟩

/-- With another remainder than nothing, the end does not depend on the connection. -/
theorem receive_cut {strict isHEAD : Bool} {s t r : GoStr} {m m' : Message} (ht : t ≠ [])
    (h0 : ∀ next, receive strict isHEAD (s ++ t ++ next) = some (m, next)) : receive strict isHEAD s ≠ some (m', r) := by
  intro h
  rcases receive_more t h with h1 | h1
  · have := h0 []
    rw [List.append_nil, h1] at this
    simp only [Option.some.injEq, Prod.mk.injEq, List.append_eq_nil_iff] at this
    exact ht this.2.2
  · obtain ⟨m2, h2⟩ := h1 (t ++ [0])
    have := h0 [0]
    rw [List.append_assoc, h2] at this
    simp at this

/-- Lengths that were accepted are that of the body. -/
theorem lengths_agree {strict : Bool} {fs : List (GoStr × GoStr)} {s b : List Byte} (hte : valuesOf fs (lit "transfer-encoding") = [])
    (hcl : valuesOf fs (lit "content-length") ≠ []) (h : body strict false 200 fs s = some (b, [])) :
    ∀ v ∈ valuesOf fs (lit "content-length"), lengthOf v = some b.length := by
  unfold body at h
  rw [if_neg (by simp), hte] at h
  dsimp only at h
  cases hv : valuesOf fs (lit "content-length") with
  | nil => exact absurd hv hcl
  | cons v vs =>
    rw [hv] at h
    dsimp only at h
    cases hn : lengthOf v with
    | none => rw [hn] at h; cases h
    | some n =>
      rw [hn] at h
      simp only [Option.bind_eq_bind, Option.bind_some] at h
      split at h
      · rename_i hx
        simp only [Option.some.injEq, Prod.mk.injEq] at h
        have hb : b.length = n := by rw [← h.1, List.length_take]; omega
        intro u hu
        rw [hb]
        rcases List.mem_cons.1 hu with rfl | hu
        · exact hn
        · have := hx.1
          rw [List.all_eq_true] at this
          simpa using this u hu
      · cases h

/-- Choices that the server may always make. -/
def plain (auto : Bool) (w : NetW) : Choices :=
  { order := w.hdrs, reason := lit "OK", date := [], sniffed := [], auto, headLength := 0, chunks := if w.body = [] then [] else [w.body], trailer := [], close := false }

theorem plain_sound (auto : Bool) (w : NetW) : Sound (plain auto w) w := by
  refine ⟨List.Perm.refl _, by unfold OneLine; simp only [plain]; decide, by simp [plain, OneLine], by simp [plain, OneLine], ?_, ?_⟩
  · simp only [plain]
    split
    · rename_i h; rw [h]; rfl
    · simp
  · simp only [plain]
    split
    · simp
    · rename_i h; simpa using h

/-- A response to GET with this body. -/
def exampleW (hdrs : List (GoStr × List GoStr)) (b : List Byte) : NetW :=
  { isHEAD := false, hdrs, status := 200, declared := declaredLength hdrs, written := b.length, body := b }

/-- Lengths that the receiver accepts agree. -/
theorem length_needed {hdrs : List (GoStr × List GoStr)} (hn : (hdrs.map Prod.fst).Nodup) (hnf : NoFraming hdrs)
    (h : ∀ (auto : Bool) (b : List Byte), Spec.Framed (exampleW hdrs b) →
      ∃ m, receive false false (wire (plain auto (exampleW hdrs b)) (exampleW hdrs b)) = some (m, []) ∧ m.body = b) : LengthOk hdrs := by
  have core : ∀ (auto : Bool) (b : List Byte), Spec.Framed (exampleW hdrs b) →
      (declaredLength hdrs).isSome = true ∨ autoLen (plain auto (exampleW hdrs b)) (exampleW hdrs b) = true →
      ∀ u ∈ hdrGet hdrs (lit "Content-Length"), lengthOf (cleaned u) = some b.length := by
    intro auto b hf hh u hu
    let w := exampleW hdrs b
    let c := plain auto w
    have hc : Sound c w := plain_sound auto w
    have hnf' : NoFraming w.hdrs := hnf
    have hk : (plan c w).chunking = false := by
      rw [plan_chunking hnf']
      have : (w.declared.isSome || autoLen c w) = true := by
        rw [Bool.or_eq_true]; exact hh
      rw [this]; simp
    obtain ⟨m, h1, h2⟩ := h auto b hf
    have hr := head_read false (c := c) (w := w) (by show (100 : Int) ≤ 200; omega) (by show (200 : Int) ≤ 999; omega) hc []
    rw [List.append_nil, List.append_nil] at hr
    change receive false false (wire c w) = _ at h1
    rw [show w.isHEAD = false from rfl] at hr
    rw [h1] at hr
    cases hb : body false false w.status.toNat (sent c w) (payload c w (plan c w).chunking) with
    | none => rw [hb] at hr; cases hr
    | some y =>
      rw [hb] at hr
      simp only [Option.map_some, Option.some.injEq, Prod.mk.injEq] at hr
      obtain ⟨y1, y2⟩ := y
      dsimp only at hr
      obtain ⟨hr1, rfl⟩ := hr
      rw [hr1] at h2
      dsimp only at h2
      subst h2
      have hte : valuesOf (sent c w) (lit "transfer-encoding") = [] := by
        unfold sent
        rw [values_append, kept_te hc hnf', extra_te, hk]
        rfl
      have hte0 : first w.hdrs (lit "Transfer-Encoding") = [] := by unfold first; rw [no_te hnf']; rfl
      have hsup : suppressed w.status = [] := by show suppressed 200 = []; decide
      have hnd : lit "Content-Length" ∉ (plan c w).del := by
        have hk' := hk
        have q1 : lit "Content-Length" ≠ lit "Transfer-Encoding" := by decide
        have q2 : lit "Content-Length" ≠ lit "Connection" := by decide
        simp only [plan, hsup, hte0, List.mem_append, mem_if] at hk' ⊢
        simp [q1, q2] at hk' ⊢
        exact hk'
      have hmem : cleaned u ∈ valuesOf (sent c w) (lit "content-length") := by
        unfold sent
        rw [values_append, List.mem_append]
        exact Or.inl ((kept_cl hc hn hnf').2 ⟨hnd, u, hu, rfl⟩)
      exact lengths_agree hte (List.ne_nil_of_mem hmem) hb _ hmem
  refine ⟨fun n hd v hv => ?_, fun hd => ?_⟩
  · have := core false (List.replicate n 0) (by
      unfold Spec.Framed
      rw [if_neg (by simp [exampleW])]
      intro k hk
      change declaredLength hdrs = some k at hk
      rw [hd] at hk
      cases hk
      simp [exampleW]) (Or.inl (by rw [hd]; rfl)) v hv
    simpa using this
  · cases hg : hdrGet hdrs (lit "Content-Length") with
    | nil => rw [hg] at hd; cases hd
    | cons x l =>
      rw [hg] at hd
      simp only [List.head?_cons, Option.some.injEq] at hd
      subst hd
      have hdl : declaredLength hdrs = none := by
        unfold declaredLength
        rw [hg]
        rfl
      have := core true [] (by
        unfold Spec.Framed
        rw [if_neg (by simp [exampleW])]
        intro k hk
        change declaredLength hdrs = some k at hk
        rw [hdl] at hk
        cases hk) (Or.inr (by
          unfold autoLen first
          show (true && bodyAllowed 200 && decide ((hdrGet hdrs (lit "Content-Length")).headD [] = [])) = true
          rw [hg]
          simp [bodyAllowed])) [] (by rw [hg]; simp)
      exact absurd this (by decide)

end WireP
end Verif
