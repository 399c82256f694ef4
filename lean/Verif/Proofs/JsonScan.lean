import Verif.Proofs.JsonNumber

/-! # The scanner on strings, numbers and words -/

set_option autoImplicit false

namespace Verif.Json
open Verif.Spec.Json

/-- Bytes that `Indent` treats on their own when they begin or end something. -/
def punct (c : Byte) : Bool := c = 123 || c = 91 || c = 44 || c = 58 || c = 125 || c = 93

/-- The scanner reads bytes of a literal. -/
def Scan.over (s : Scan) : GoStr → Option Scan
  | [] => some s
  | c :: t => if (s.next c).2 = .continue ∨ ((s.next c).2 = .beginLiteral ∧ punct c = false) then (s.next c).1.over t else none

theorem over_append (t u : GoStr) : ∀ s : Scan, s.over (t ++ u) = (s.over t).bind fun s' => s'.over u := by
  induction t with
  | nil => intro s; rfl
  | cons c t ih =>
    intro s
    rw [List.cons_append, Scan.over, Scan.over]
    split
    · exact ih _
    · rfl

theorem run_append (ind t u : GoStr) : ∀ i : Ind, i.run ind (t ++ u) = (i.run ind t).bind fun i' => i'.run ind u := by
  induction t with
  | nil => intro i; rfl
  | cons c t ih =>
    intro i
    rw [List.cons_append, Ind.run, Ind.run]
    cases i.next ind c with
    | none => rfl
    | some i => exact ih i

theorem punct_false {c : Byte} (h : punct c = false) : c ≠ 123 ∧ c ≠ 91 ∧ c ≠ 44 ∧ c ≠ 58 ∧ c ≠ 125 ∧ c ≠ 93 := by
  have key : ∀ c : Byte, punct c = false → c ≠ 123 ∧ c ≠ 91 ∧ c ≠ 44 ∧ c ≠ 58 ∧ c ≠ 125 ∧ c ≠ 93 := by
    refine forall_byte ?_
    decide +kernel
  exact key c h

/-- `Indent` copies literals. -/
theorem run_over (ind : GoStr) (d : Int) : ∀ (t : GoStr) (s s' : Scan) (dst : GoStr), s.over t = some s' →
    Ind.run ind ⟨s, false, d, dst⟩ t = some ⟨s', false, d, dst ++ t⟩ := by
  intro t
  induction t with
  | nil => intro s s' dst h; cases h; simp [Ind.run]
  | cons c t ih =>
    intro s s' dst h
    rw [Scan.over] at h
    split at h
    · rename_i hc
      have : Ind.next ind ⟨s, false, d, dst⟩ c = some ⟨(s.next c).1, false, d, dst ++ [c]⟩ := by
        rcases hc with hc | ⟨hc, hp⟩
        · simp [Ind.next, hc]
        · obtain ⟨h1, h2, h3, h4, h5, h6⟩ := punct_false hp
          simp [Ind.next, hc, h1, h2, h3, h4, h5, h6]
      rw [Ind.run, this]
      simp only []
      rw [ih _ _ _ h]
      simp
    · cases h

/-! ## Where literals end -/

/-- The scanner has read a value, inside of `ps`. -/
def Done (s : Scan) (ps : List Ps) : Prop :=
  (s.stack = ps ∧ s.endTop = false ∧ ∀ c, c = 44 ∨ c = 58 ∨ c = 93 ∨ c = 125 ∨ c = 10 ∨ c = 32 ∨ c = 9 ∨ c = 13 → s.next c = stateEndValue s c) ∨
  (ps = [] ∧ s = ⟨.endTop, [], true⟩)

theorem done_endValue (ps : List Ps) : Done ⟨.endValue, ps, false⟩ ps := .inl ⟨rfl, rfl, fun _ _ => rfl⟩

theorem over_cons {s s' : Scan} {c : Byte} (t : GoStr) (h : s.next c = (s', .continue)) : s.over (c :: t) = s'.over t := by
  rw [Scan.over, h]
  simp

theorem over_begin {s s' : Scan} {c : Byte} (t : GoStr) (h : s.next c = (s', .beginLiteral)) (hp : punct c = false) : s.over (c :: t) = s'.over t := by
  rw [Scan.over, h]
  simp [hp]

theorem over_word (ps : List Ps) : ∀ w ∈ [lit "null", lit "true", lit "false"],
    Scan.over ⟨.beginValue, ps, false⟩ w = some ⟨.endValue, ps, false⟩ := by
  intro w hw
  simp only [List.mem_cons, List.not_mem_nil, or_false] at hw
  rcases hw with rfl | rfl | rfl
  · simp [lit, Scan.over, Scan.next, stateBeginValue, isSpace, punct, want]
  · simp [lit, Scan.over, Scan.next, stateBeginValue, isSpace, punct, want]
  · simp [lit, Scan.over, Scan.next, stateBeginValue, isSpace, punct, want]

/-! ## Strings -/

theorem over_plain (ps : List Ps) : ∀ t : GoStr, (∀ b ∈ t, b ≠ 34 ∧ b ≠ 92 ∧ 32 ≤ b.toNat) →
    Scan.over ⟨.inString, ps, false⟩ t = some ⟨.inString, ps, false⟩
  | [], _ => rfl
  | b :: t, h => by
    obtain ⟨h1, h2, h3⟩ := h b (by simp)
    have h4 : ¬ b < 0x20 := by
      rw [UInt8.lt_iff_toNat_lt]
      have : (0x20 : Byte).toNat = 32 := rfl
      omega
    rw [over_cons (s' := ⟨.inString, ps, false⟩) t (by simp [Scan.next, h1, h2, h4])]
    exact over_plain ps t fun x hx => h x (by simp [hx])

theorem isHex_lowerHex : ∀ n : Nat, n < 16 → isHex (lowerHex n) = true := by decide +kernel

theorem utf8_plain {c : Char} (h : 32 ≤ c.toNat) (h1 : c ≠ '"') (h2 : c ≠ '\\') : ∀ b ∈ String.utf8EncodeChar c, b ≠ 34 ∧ b ≠ 92 ∧ 32 ≤ b.toNat := by
  intro b hb
  rw [utf8_char] at hb
  have n1 : c.toNat ≠ 34 := fun he => h1 (by rw [← ofNat_toNat c, he])
  have n2 : c.toNat ≠ 92 := fun he => h2 (by rw [← ofNat_toNat c, he])
  have hv := char_valid c
  have := encode_no_special hv n1 n2 b hb
  refine ⟨this.1, this.2, ?_⟩
  unfold ValidRune at hv
  have big : ∀ n : Nat, 32 ≤ n → n < 256 → 32 ≤ n.toUInt8.toNat := by
    intro n h3 h4
    have e : n.toUInt8.toNat = n := by simp; omega
    omega
  unfold encodeRune at hb
  split at hb
  · simp only [List.mem_singleton] at hb
    subst hb
    exact big _ h (by omega)
  · split at hb
    · simp only [List.mem_cons, List.not_mem_nil, or_false] at hb
      rcases hb with rfl | rfl <;> exact big _ (by omega) (by omega)
    · rw [if_neg (by omega)] at hb
      split at hb
      · simp only [List.mem_cons, List.not_mem_nil, or_false] at hb
        rcases hb with rfl | rfl | rfl <;> exact big _ (by omega) (by omega)
      · simp only [List.mem_cons, List.not_mem_nil, or_false] at hb
        rcases hb with rfl | rfl | rfl | rfl <;> exact big _ (by omega) (by omega)

theorem lowerHex_small : ∀ n : Nat, n < 16 → (lowerHex n).toNat < 128 ∧ 32 ≤ (lowerHex n).toNat := by decide +kernel

theorem utf8_hexC {n : Nat} (h : n < 16) : String.utf8EncodeChar (hexC n) = [lowerHex n] := utf8_chr (lowerHex_small n h).1

theorem simple_bytes {x c : Char} (h : (x, c) ∈ simple) : ∃ b : Byte, String.utf8EncodeChar x = [b] ∧ b ∈ lit "bfnrt\\/\"" ∧ b ≠ 117 ∧ 32 ≤ b.toNat := by
  simp only [simple, List.mem_cons, Prod.mk.injEq, List.not_mem_nil, or_false] at h
  rcases h with ⟨rfl, -⟩ | ⟨rfl, -⟩ | ⟨rfl, -⟩ | ⟨rfl, -⟩ | ⟨rfl, -⟩ | ⟨rfl, -⟩ | ⟨rfl, -⟩ | ⟨rfl, -⟩
  · exact ⟨34, by decide +kernel⟩
  · exact ⟨92, by decide +kernel⟩
  · exact ⟨110, by decide +kernel⟩
  · exact ⟨114, by decide +kernel⟩
  · exact ⟨116, by decide +kernel⟩
  · exact ⟨47, by decide +kernel⟩
  · exact ⟨98, by decide +kernel⟩
  · exact ⟨102, by decide +kernel⟩

theorem utf8_backslash : String.utf8EncodeChar '\\' = [92] := by decide +kernel

theorem utf8_u : String.utf8EncodeChar 'u' = [117] := by decide +kernel

theorem hex_byte {c : Char} {n : Nat} (h : hex c = some n) : ∃ b : Byte, String.utf8EncodeChar c = [b] ∧ isHex b = true ∧ 32 ≤ b.toNat := by
  have hc : c.toNat < 128 := by
    unfold hex at h
    repeat' split at h
    all_goals first | omega | cases h
  refine ⟨c.toNat.toUInt8, utf8_ascii hc, ?_⟩
  have e : c.toNat.toUInt8.toNat = c.toNat := by simp; omega
  simp only [isHex, Bool.or_eq_true, Bool.and_eq_true, decide_eq_true_eq, UInt8.le_iff_toNat_le, e]
  unfold hex at h
  have k : (48 : Byte).toNat = 48 ∧ (57 : Byte).toNat = 57 ∧ (97 : Byte).toNat = 97 ∧ (102 : Byte).toNat = 102 ∧ (65 : Byte).toNat = 65 ∧ (70 : Byte).toNat = 70 := by decide
  repeat' split at h
  all_goals first | omega | cases h

theorem hex4_bytes {x y z w : Char} {n : Nat} (h : hex4 [x, y, z, w] = some (n, [])) : ∃ a b c d : Byte, utf8 [x, y, z, w] = [a, b, c, d] ∧
    isHex a = true ∧ isHex b = true ∧ isHex c = true ∧ isHex d = true ∧ 32 ≤ a.toNat ∧ 32 ≤ b.toNat ∧ 32 ≤ c.toNat ∧ 32 ≤ d.toNat := by
  simp only [hex4, bind] at h
  cases h1 : hex x with
  | none => rw [h1] at h; cases h
  | some n1 =>
  cases h2 : hex y with
  | none => rw [h1, h2] at h; cases h
  | some n2 =>
  cases h3 : hex z with
  | none => rw [h1, h2, h3] at h; cases h
  | some n3 =>
  cases h4 : hex w with
  | none => rw [h1, h2, h3, h4] at h; cases h
  | some n4 =>
  obtain ⟨a, a1, a2, a3⟩ := hex_byte h1
  obtain ⟨b, b1, b2, b3⟩ := hex_byte h2
  obtain ⟨c, c1, c2, c3⟩ := hex_byte h3
  obtain ⟨d, d1, d2, d3⟩ := hex_byte h4
  exact ⟨a, b, c, d, by simp [utf8, a1, b1, c1, d1], a2, b2, c2, d2, a3, b3, c3, d3⟩

/-- The scanner on one code unit. -/
theorem over_unit (ps : List Ps) {x y z w : Char} {n : Nat} (h : hex4 [x, y, z, w] = some (n, [])) (t : List Char) :
    Scan.over ⟨.inString, ps, false⟩ (utf8 ('\\' :: 'u' :: x :: y :: z :: w :: t)) = Scan.over ⟨.inString, ps, false⟩ (utf8 t) := by
  obtain ⟨a, b, c, d, h0, h1, h2, h3, h4, -⟩ := hex4_bytes h
  rw [show '\\' :: 'u' :: x :: y :: z :: w :: t = ['\\', 'u'] ++ ([x, y, z, w] ++ t) from rfl, utf8_append, utf8_append, h0,
    show utf8 ['\\', 'u'] = [92, 117] by decide +kernel]
  simp only [List.cons_append, List.nil_append]
  rw [over_cons (s' := ⟨.inStringEsc, ps, false⟩) _ (by simp [Scan.next]),
    over_cons (s' := ⟨.inStringEscU, ps, false⟩) _ (by simp [Scan.next]),
    over_cons (s' := ⟨.inStringEscU1, ps, false⟩) _ (by simp [Scan.next, want, h1]),
    over_cons (s' := ⟨.inStringEscU12, ps, false⟩) _ (by simp [Scan.next, want, h2]),
    over_cons (s' := ⟨.inStringEscU123, ps, false⟩) _ (by simp [Scan.next, want, h3]),
    over_cons (s' := ⟨.inString, ps, false⟩) _ (by simp [Scan.next, want, h4])]

theorem unit_bytes {x y z w : Char} {n : Nat} (h : hex4 [x, y, z, w] = some (n, [])) {t : List Char} (ht : ∀ b ∈ utf8 t, 32 ≤ b.toNat) :
    ∀ b ∈ utf8 ('\\' :: 'u' :: x :: y :: z :: w :: t), 32 ≤ b.toNat := by
  obtain ⟨a, b, c, d, h0, -, -, -, -, h1, h2, h3, h4⟩ := hex4_bytes h
  rw [show '\\' :: 'u' :: x :: y :: z :: w :: t = ['\\', 'u'] ++ ([x, y, z, w] ++ t) from rfl, utf8_append, utf8_append, h0,
    show utf8 ['\\', 'u'] = [92, 117] by decide +kernel]
  intro v hv
  simp only [List.cons_append, List.nil_append, List.mem_cons] at hv
  rcases hv with rfl | rfl | rfl | rfl | rfl | rfl | hv
  · decide
  · decide
  · exact h1
  · exact h2
  · exact h3
  · exact h4
  · exact ht v hv

theorem over_strText (ps : List Ps) {q cs : List Char} (h : StrText q cs) :
    Scan.over ⟨.inString, ps, false⟩ (utf8 q) = some ⟨.inString, ps, false⟩ := by
  induction h with
  | nil => rfl
  | raw h1 h2 h3 _ ih => rw [utf8_cons, over_append, over_plain ps _ (utf8_plain h1 h2 h3)]; exact ih
  | simple hx _ ih =>
    obtain ⟨b, h1, h2, h3, -⟩ := simple_bytes hx
    rw [utf8_cons, utf8_cons, utf8_backslash, h1]
    simp only [List.cons_append, List.nil_append]
    rw [over_cons (s' := ⟨.inStringEsc, ps, false⟩) _ (by simp [Scan.next]),
      over_cons (s' := ⟨.inString, ps, false⟩) _ (by simp [Scan.next, h2, h3, want])]
    exact ih
  | code h _ _ ih => rw [over_unit ps h]; exact ih
  | pair h _ _ h' _ _ _ ih => rw [over_unit ps h, over_unit ps h']; exact ih

/-- No byte of a string is a control character. -/
theorem strText_bytes {q cs : List Char} (h : StrText q cs) : ∀ b ∈ utf8 q, 32 ≤ b.toNat := by
  induction h with
  | nil => intro b hb; cases hb
  | raw h1 h2 h3 _ ih =>
    intro b hb
    rw [utf8_cons] at hb
    rcases List.mem_append.1 hb with hb | hb
    · exact (utf8_plain h1 h2 h3 b hb).2.2
    · exact ih b hb
  | simple hx _ ih =>
    obtain ⟨b, h1, h2, h3, h4⟩ := simple_bytes hx
    rw [utf8_cons, utf8_cons, utf8_backslash, h1]
    intro x hb
    simp only [List.cons_append, List.nil_append, List.mem_cons] at hb
    rcases hb with rfl | rfl | hb
    · decide
    · exact h4
    · exact ih x hb
  | code h _ _ ih => exact unit_bytes h ih
  | pair h _ _ h' _ _ _ ih => exact unit_bytes h (unit_bytes h' ih)

/-- A whole string, where a value or a name may begin. -/
theorem over_string {s : Scan} {ps : List Ps} {q cs : List Char} (h : StrText q cs) (hs : s.next 34 = (⟨.inString, ps, false⟩, .beginLiteral)) :
    s.over ([34] ++ utf8 q ++ [34]) = some ⟨.endValue, ps, false⟩ := by
  rw [List.append_assoc, List.singleton_append, over_begin _ hs (by decide), over_append, over_strText ps h]
  simp [Scan.over, Scan.next]

/-! ## Numbers -/

theorem over_same {s : Scan} : ∀ {t : GoStr}, (∀ b ∈ t, s.next b = (s, .continue)) → s.over t = some s
  | [], _ => rfl
  | b :: t, h => by
    rw [over_cons t (h b (by simp))]
    exact over_same fun x hx => h x (by simp [hx])

/-- The states in which a number may end. -/
def NumState (st : St) : Prop := st = .zero ∨ st = .one ∨ st = .dot0 ∨ st = .e0

theorem done_num {st : St} (h : NumState st) (ps : List Ps) : Done ⟨st, ps, false⟩ ps := by
  refine .inl ⟨rfl, rfl, ?_⟩
  intro c hc
  have hd : digit c = false ∧ c ≠ 46 ∧ c ≠ 101 ∧ c ≠ 69 := by
    rcases hc with rfl | rfl | rfl | rfl | rfl | rfl | rfl | rfl <;> decide
  obtain ⟨h1, h2, h3, h4⟩ := hd
  rcases h with rfl | rfl | rfl | rfl <;> simp [Scan.next, state0, h1, h2, h3, h4]

theorem digit_range {b : Byte} (h : digit b = true) (h0 : b ≠ 48) : (49 ≤ b && b ≤ 57) = true := by
  have key : ∀ b : Byte, digit b = true → b ≠ 48 → (49 ≤ b && b ≤ 57) = true := by
    refine forall_byte ?_
    decide +kernel
  exact key b h h0

theorem digit_not {b : Byte} (h : digit b = true) : isSpace b = false ∧ punct b = false ∧ b ≠ 123 ∧ b ≠ 91 ∧ b ≠ 34 ∧ b ≠ 45 ∧ b ≠ 116 ∧ b ≠ 102 ∧ b ≠ 110 := by
  have key : ∀ b : Byte, digit b = true → isSpace b = false ∧ punct b = false ∧ b ≠ 123 ∧ b ≠ 91 ∧ b ≠ 34 ∧ b ≠ 45 ∧ b ≠ 116 ∧ b ≠ 102 ∧ b ≠ 110 := by
    refine forall_byte ?_
    decide +kernel
  exact key b h

theorem over_one (ps : List Ps) {d : GoStr} (h : ∀ b ∈ d, digit b = true) : Scan.over ⟨.one, ps, false⟩ d = some ⟨.one, ps, false⟩ :=
  over_same fun b hb => by simp [Scan.next, h b hb]

theorem over_neg (ps : List Ps) {int : GoStr} (h : IntPart int) : ∃ st, (st = .zero ∨ st = .one) ∧ Scan.over ⟨.neg, ps, false⟩ int = some ⟨st, ps, false⟩ := by
  obtain ⟨⟨h1, h2⟩, h3⟩ := h
  match int, h1, h2, h3 with
  | b :: l, _, h2, h3 =>
    by_cases hb : b = 48
    · subst hb
      cases h3 rfl
      exact ⟨.zero, .inl rfl, by simp [Scan.over, Scan.next]⟩
    · refine ⟨.one, .inr rfl, ?_⟩
      have hr := digit_range (h2 b (by simp)) hb
      rw [over_cons (s' := ⟨.one, ps, false⟩) _ (by simp only [Scan.next, hb, if_false, want, hr, if_true])]
      exact over_one ps fun x hx => h2 x (by simp [hx])

theorem over_pos (ps : List Ps) {int : GoStr} (h : IntPart int) : ∃ st, (st = .zero ∨ st = .one) ∧ Scan.over ⟨.beginValue, ps, false⟩ int = some ⟨st, ps, false⟩ := by
  obtain ⟨⟨h1, h2⟩, h3⟩ := h
  match int, h1, h2, h3 with
  | b :: l, _, h2, h3 =>
    obtain ⟨n1, n2, n3, n4, n5, n6, n7, n8, n9⟩ := digit_not (h2 b (by simp))
    by_cases hb : b = 48
    · subst hb
      cases h3 rfl
      exact ⟨.zero, .inl rfl, by simp [Scan.over, Scan.next, stateBeginValue, isSpace, punct]⟩
    · refine ⟨.one, .inr rfl, ?_⟩
      have hr := digit_range (h2 b (by simp)) hb
      rw [over_begin (s' := ⟨.one, ps, false⟩) _ (by simp only [Scan.next, stateBeginValue, n1, n3, n4, n5, n6, n7, n8, n9, hb, hr, if_false, if_true, Bool.false_eq_true]) n2]
      exact over_one ps fun x hx => h2 x (by simp [hx])

theorem over_frac (ps : List Ps) {f d : GoStr} (h : FracPart f d) {st : St} (hst : st = .zero ∨ st = .one) :
    ∃ st', (st' = .zero ∨ st' = .one ∨ st' = .dot0) ∧ Scan.over ⟨st, ps, false⟩ f = some ⟨st', ps, false⟩ := by
  rcases h with ⟨rfl, -⟩ | ⟨⟨h1, h2⟩, rfl⟩
  · exact ⟨st, by rcases hst with rfl | rfl <;> simp, rfl⟩
  · refine ⟨.dot0, by simp, ?_⟩
    match d, h1, h2 with
    | b :: l, _, h2 =>
      rw [over_cons (s' := ⟨.dot, ps, false⟩) _ (by rcases hst with rfl | rfl <;> simp [Scan.next, state0, digit]),
        over_cons (s' := ⟨.dot0, ps, false⟩) _ (by simp [Scan.next, want, h2 b (by simp)])]
      exact over_same fun x hx => by simp [Scan.next, h2 x (by simp [hx])]

theorem over_e0 (ps : List Ps) {d : GoStr} (h : ∀ b ∈ d, digit b = true) : Scan.over ⟨.e0, ps, false⟩ d = some ⟨.e0, ps, false⟩ :=
  over_same fun b hb => by simp [Scan.next, h b hb]

theorem over_exp (ps : List Ps) {x : GoStr} {e : Int} (h : ExpPart x e) {st : St} (hst : st = .zero ∨ st = .one ∨ st = .dot0) :
    ∃ st', NumState st' ∧ Scan.over ⟨st, ps, false⟩ x = some ⟨st', ps, false⟩ := by
  rcases h with ⟨rfl, -⟩ | ⟨a, s, d, ha, ⟨h1, h2⟩, rfl, hs⟩
  · exact ⟨st, by rcases hst with rfl | rfl | rfl <;> simp [NumState], rfl⟩
  · refine ⟨.e0, by simp [NumState], ?_⟩
    have hda : digit a = false ∧ a ≠ 46 := by rcases ha with rfl | rfl <;> decide
    rw [over_cons (s' := ⟨.e, ps, false⟩) _ (by rcases hst with rfl | rfl | rfl <;> simp [Scan.next, state0, hda, ha])]
    match d, h1, h2 with
    | b :: l, _, h2 =>
      have hb := h2 b (by simp)
      have nb := digit_byte hb
      have hl : ∀ x ∈ l, digit x = true := fun x hx => h2 x (by simp [hx])
      rcases hs with ⟨rfl | rfl, -⟩ | ⟨rfl, -⟩
      · rw [List.nil_append, over_cons (s' := ⟨.e0, ps, false⟩) _ (by simp [Scan.next, stateESign, hb, nb])]
        exact over_e0 ps hl
      · rw [List.singleton_append, over_cons (s' := ⟨.eSign, ps, false⟩) _ (by simp [Scan.next]),
          over_cons (s' := ⟨.e0, ps, false⟩) _ (by simp [Scan.next, stateESign, hb])]
        exact over_e0 ps hl
      · rw [List.singleton_append, over_cons (s' := ⟨.eSign, ps, false⟩) _ (by simp [Scan.next]),
          over_cons (s' := ⟨.e0, ps, false⟩) _ (by simp [Scan.next, stateESign, hb])]
        exact over_e0 ps hl

/-- The scanner on a number. -/
theorem over_number (ps : List Ps) {t : GoStr} {m e : Int} (h : NumText t m e) :
    ∃ st, NumState st ∧ Scan.over ⟨.beginValue, ps, false⟩ t = some ⟨st, ps, false⟩ := by
  obtain ⟨neg, int, f, d, x, ex, h1, h2, h3, rfl, -, -⟩ := h
  have key : ∃ st, (st = .zero ∨ st = .one) ∧ Scan.over ⟨.beginValue, ps, false⟩ ((if neg then [45] else []) ++ int) = some ⟨st, ps, false⟩ := by
    cases neg
    · exact over_pos ps h1
    · simp only [if_true, List.singleton_append]
      rw [over_begin (s' := ⟨.neg, ps, false⟩) _ (by simp [Scan.next, stateBeginValue, isSpace]) (by decide)]
      exact over_neg ps h1
  obtain ⟨s1, k1, e1⟩ := key
  obtain ⟨s2, k2, e2⟩ := over_frac ps h2 k1
  obtain ⟨s3, k3, e3⟩ := over_exp ps h3 k2
  refine ⟨s3, k3, ?_⟩
  rw [over_append, over_append, e1, Option.bind_some, e2, Option.bind_some, e3]

end Verif.Json
