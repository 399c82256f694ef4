import Verif.Proofs.JsonText
import Verif.Proofs.Text

/-! # Numbers in JSON, and the scanner on strings, numbers and words -/

set_option autoImplicit false

namespace Verif.Json
open Verif.Spec.Json

/-! ## What numbers are made of -/

def Digits (d : GoStr) : Prop := d ≠ [] ∧ ∀ b ∈ d, digit b = true

/-- The digits of an integer: no leading zero. -/
def IntPart (d : GoStr) : Prop := Digits d ∧ (d.head? = some 48 → d = [48])

/-- A point and digits, or nothing. -/
def FracPart (f d : GoStr) : Prop := (f = [] ∧ d = []) ∨ (Digits d ∧ f = 46 :: d)

/-- An exponent, or nothing. -/
def ExpPart (x : GoStr) (e : Int) : Prop :=
  (x = [] ∧ e = 0) ∨ ∃ a s d, (a = 101 ∨ a = 69) ∧ Digits d ∧ x = a :: (s ++ d) ∧
    (((s = [] ∨ s = [43]) ∧ e = Spec.Json.decimal (d.map chr)) ∨ (s = [45] ∧ e = -Spec.Json.decimal (d.map chr)))

/-- A number, with its value. -/
def NumText (t : GoStr) (m e : Int) : Prop :=
  ∃ (neg : Bool) (int f d x : GoStr) (ex : Int), IntPart int ∧ FracPart f d ∧ ExpPart x ex ∧ t = (if neg then [45] else []) ++ int ++ f ++ x ∧
    m = (if neg then -(Spec.Json.decimal ((int ++ d).map chr) : Int) else Spec.Json.decimal ((int ++ d).map chr)) ∧ e = ex - d.length

theorem digit_iff (b : Byte) : digit b = true ↔ 48 ≤ b.toNat ∧ b.toNat ≤ 57 := by
  simp only [digit, Bool.and_eq_true, decide_eq_true_eq, UInt8.le_iff_toNat_le]
  exact Iff.rfl

theorem dropWhile_all {α : Type} {p : α → Bool} {l : List α} (h : l.dropWhile p = []) : ∀ a ∈ l, p a = true := by
  induction l with
  | nil => intro a ha; cases ha
  | cons x l ih =>
    rw [List.dropWhile_cons] at h
    split at h
    · rename_i hx
      intro a ha
      rcases List.mem_cons.1 ha with rfl | ha
      · exact hx
      · exact ih h a ha
    · cases h

theorem takeWhile_split {α : Type} (p : α → Bool) (l : List α) : l = l.takeWhile p ++ l.dropWhile p := List.takeWhile_append_dropWhile.symm

theorem mem_takeWhile {α : Type} {p : α → Bool} {l : List α} : ∀ {a : α}, a ∈ l.takeWhile p → p a = true := by
  induction l with
  | nil => intro a h; cases h
  | cons x l ih =>
    intro a h
    rw [List.takeWhile_cons] at h
    split at h
    · rename_i hx
      rcases List.mem_cons.1 h with rfl | h
      · exact hx
      · exact ih h
    · cases h

theorem validExp_nil {s : GoStr} (h : validExp s = some []) : ∃ e, ExpPart s e := by
  match s with
  | [] => exact ⟨0, .inl ⟨rfl, rfl⟩⟩
  | [a] => simp [validExp] at h
  | a :: b :: s =>
    rw [validExp] at h
    by_cases ha : a = 101 ∨ a = 69
    · rw [if_pos ha] at h
      by_cases hb : b = 43 ∨ b = 45
      · rw [if_pos hb] at h
        split at h
        · cases h
        · rename_i hs
          have hd := dropWhile_all (Option.some.inj h)
          rcases hb with rfl | rfl
          · exact ⟨_, .inr ⟨a, [43], s, ha, ⟨hs, hd⟩, rfl, .inl ⟨.inr rfl, rfl⟩⟩⟩
          · exact ⟨_, .inr ⟨a, [45], s, ha, ⟨hs, hd⟩, rfl, .inr ⟨rfl, rfl⟩⟩⟩
      · rw [if_neg hb] at h
        exact ⟨_, .inr ⟨a, [], b :: s, ha, ⟨by simp, dropWhile_all (Option.some.inj h)⟩, rfl, .inl ⟨.inl rfl, rfl⟩⟩⟩
    · rw [if_neg ha] at h; cases h

theorem validFrac_split (s : GoStr) : ∃ f d, FracPart f d ∧ s = f ++ validFrac s := by
  match s with
  | [] => exact ⟨[], [], .inl ⟨rfl, rfl⟩, rfl⟩
  | [a] => exact ⟨[], [], .inl ⟨rfl, rfl⟩, rfl⟩
  | a :: b :: s =>
    rw [validFrac]
    split
    · rename_i h
      simp only [Bool.and_eq_true, decide_eq_true_eq] at h
      refine ⟨46 :: b :: s.takeWhile digit, b :: s.takeWhile digit, .inr ⟨⟨by simp, ?_⟩, rfl⟩, ?_⟩
      · intro x hx
        rcases List.mem_cons.1 hx with rfl | hx
        · exact h.2
        · exact mem_takeWhile hx
      · rw [h.1]
        simp only [List.cons_append, List.takeWhile_append_dropWhile]
    · exact ⟨[], [], .inl ⟨rfl, rfl⟩, rfl⟩

theorem validInt_split {s r : GoStr} (h : validInt s = some r) : ∃ int, IntPart int ∧ s = int ++ r := by
  match s with
  | [] => cases h
  | b :: s =>
    rw [validInt] at h
    split at h
    · rename_i hb
      cases h
      subst hb
      exact ⟨[48], ⟨⟨by simp, by simp [digit]⟩, fun _ => rfl⟩, rfl⟩
    · split at h
      · rename_i h0 hb
        cases h
        refine ⟨b :: s.takeWhile digit, ⟨⟨by simp, ?_⟩, ?_⟩, by simp⟩
        · intro x hx
          rcases List.mem_cons.1 hx with rfl | hx
          · simp only [Bool.and_eq_true, decide_eq_true_eq, UInt8.le_iff_toNat_le] at hb
            rw [digit_iff]
            have : (49 : Byte).toNat = 49 := rfl
            have : (57 : Byte).toNat = 57 := rfl
            omega
          · exact mem_takeWhile hx
        · intro he
          simp only [List.head?_cons, Option.some.injEq] at he
          exact absurd he h0
      · cases h

/-- `isValidNumber` accepts numbers only. -/
theorem valid_num {t : GoStr} (h : isValidNumber t = true) : ∃ m e, NumText t m e := by
  unfold isValidNumber at h
  have key : ∀ (neg : Bool) (s : GoStr), t = (if neg then [45] else []) ++ s →
      (match validInt s with
        | none => false
        | some s => match validExp (validFrac s) with
          | none => false
          | some s => decide (s = [])) = true → ∃ m e, NumText t m e := by
    intro neg s hts hm
    split at hm
    · cases hm
    · rename_i r hr
      split at hm
      · cases hm
      · rename_i z hz
        simp only [decide_eq_true_eq] at hm
        subst hm
        obtain ⟨int, h1, h2⟩ := validInt_split hr
        obtain ⟨f, d, h3, h4⟩ := validFrac_split r
        obtain ⟨e, h5⟩ := validExp_nil hz
        exact ⟨_, _, neg, int, f, d, _, e, h1, h3, h5, by rw [hts, h2, List.append_assoc, List.append_assoc, ← h4], rfl, rfl⟩
  by_cases hn : t.head? = some 45
  · rw [if_pos hn] at h
    refine key true t.tail ?_ h
    match t, hn with
    | b :: t, hn => simp only [List.head?_cons, Option.some.injEq] at hn; subst hn; rfl
  · rw [if_neg hn] at h
    exact key false t rfl h

theorem toNat_toUInt8 {n : Nat} (h : n < 256) : n.toUInt8.toNat = n := by simp; omega

theorem digits_part : ∀ (fuel n : Nat), n < fuel → IntPart (digits fuel n) ∧ Spec.Json.decimal ((digits fuel n).map chr) = n ∧
    (n ≠ 0 → (digits fuel n).head? ≠ some 48)
  | 0, n, h => by omega
  | fuel + 1, n, h => by
    rw [digits]
    split
    · rename_i h10
      have e := toNat_toUInt8 (n := 48 + n) (by omega)
      refine ⟨⟨⟨by simp, ?_⟩, ?_⟩, ?_, ?_⟩
      · intro b hb
        simp only [List.mem_cons, List.not_mem_nil, or_false] at hb
        rw [hb, digit_iff, e]
        omega
      · intro he
        simp only [List.head?_cons, Option.some.injEq] at he
        rw [he]
      · simp only [List.map_cons, List.map_nil, Spec.Json.decimal, List.foldl_cons, List.foldl_nil, chr_toNat, e]
        omega
      · intro h0 he
        simp only [List.head?_cons, Option.some.injEq] at he
        have := congrArg UInt8.toNat he
        rw [e] at this
        exact h0 (by have : (48 : Byte).toNat = 48 := rfl; omega)
    · rename_i h10
      obtain ⟨⟨⟨h1, h2⟩, h3⟩, h4, h5⟩ := digits_part fuel (n / 10) (by omega)
      have e := toNat_toUInt8 (n := 48 + n % 10) (by omega)
      have hh : (digits fuel (n / 10) ++ [(48 + n % 10).toUInt8]).head? = (digits fuel (n / 10)).head? := by
        match hd : digits fuel (n / 10), h1 with
        | b :: l, _ => rfl
      have hne : (digits fuel (n / 10)).head? ≠ some 48 := h5 (by omega)
      refine ⟨⟨⟨by simp, ?_⟩, ?_⟩, ?_, ?_⟩
      · intro b hb
        rcases List.mem_append.1 hb with hb | hb
        · exact h2 b hb
        · simp only [List.mem_cons, List.not_mem_nil, or_false] at hb
          rw [hb, digit_iff, e]
          omega
      · rw [hh]; exact fun he => absurd he hne
      · rw [List.map_append, Spec.Json.decimal, List.foldl_append]
        rw [Spec.Json.decimal] at h4
        rw [h4]
        simp only [List.map_cons, List.map_nil, List.foldl_cons, List.foldl_nil, chr_toNat, e]
        omega
      · intro _; rw [hh]; exact hne

/-- What `strconv` makes of an integer is a number. -/
theorem itoa_num (i : Int) : NumText (itoa i) i 0 := by
  obtain ⟨h1, h2, -⟩ := digits_part (i.natAbs + 1) i.natAbs (by omega)
  refine ⟨decide (i < 0), digits (i.natAbs + 1) i.natAbs, [], [], [], 0, h1, .inl ⟨rfl, rfl⟩, .inl ⟨rfl, rfl⟩, ?_, ?_, by simp⟩
  · unfold itoa
    by_cases h : i < 0 <;> simp [h]
  · rw [List.append_nil, h2]
    by_cases h : i < 0 <;> simp [h] <;> omega

/-! ## Reading numbers -/

/-- What may come after a number. -/
def Ends (rest : List Char) : Prop := ∀ c ∈ rest.head?, Spec.Json.isDigit c = false ∧ c ≠ '.' ∧ c ≠ 'e' ∧ c ≠ 'E'

theorem isDigit_chr (b : Byte) : Spec.Json.isDigit (chr b) = digit b := by
  rw [Bool.eq_iff_iff, digit_iff, Spec.Json.isDigit, decide_eq_true_eq, chr_toNat]

theorem span_digits {d : GoStr} (hd : ∀ b ∈ d, digit b = true) {rest : List Char} (hr : ∀ c ∈ rest.head?, Spec.Json.isDigit c = false) :
    (d.map chr ++ rest).takeWhile Spec.Json.isDigit = d.map chr ∧ (d.map chr ++ rest).dropWhile Spec.Json.isDigit = rest := by
  induction d with
  | nil =>
    match rest, hr with
    | [], _ => exact ⟨rfl, rfl⟩
    | c :: rest, hr =>
      have := hr c (by simp)
      simp [this]
  | cons b d ih =>
    have := ih fun x hx => hd x (by simp [hx])
    have hb : Spec.Json.isDigit (chr b) = true := by rw [isDigit_chr]; exact hd b (by simp)
    simp only [List.map_cons, List.cons_append, List.takeWhile_cons, List.dropWhile_cons, hb, if_true, this, and_self]

theorem magnitude_digits {d : GoStr} (hd : Digits d) {rest : List Char} (hr : Ends rest) :
    magnitude (d.map chr ++ rest) = some ((Spec.Json.decimal (d.map chr) : Int), rest) := by
  obtain ⟨h1, h2⟩ := span_digits hd.2 (rest := rest) fun c hc => (hr c hc).1
  rw [magnitude, h1, h2, if_neg (by simpa using hd.1)]

theorem digit_byte {b : Byte} (h : digit b = true) : b ≠ 43 ∧ b ≠ 45 ∧ b ≠ 46 ∧ b ≠ 101 ∧ b ≠ 69 := by
  have key : ∀ b : Byte, digit b = true → b ≠ 43 ∧ b ≠ 45 ∧ b ≠ 46 ∧ b ≠ 101 ∧ b ≠ 69 := by
    refine forall_byte ?_
    decide +kernel
  exact key b h

theorem chr_inj {a b : Byte} (h : chr a = chr b) : a = b := by
  have := congrArg Char.toNat h
  rw [chr_toNat, chr_toNat] at this
  exact UInt8.toNat_inj.1 this

theorem exponent_cons {c : Char} (h : c = 'e' ∨ c = 'E') (x : Char) (s : List Char) : exponent (c :: x :: s) =
    if x = '+' then magnitude s else if x = '-' then (magnitude s).map fun q => (-q.1, q.2) else magnitude (x :: s) := by
  simp only [exponent, if_pos h]

theorem exponent_read {x : GoStr} {e : Int} (h : ExpPart x e) {rest : List Char} (hr : Ends rest) : exponent (x.map chr ++ rest) = some (e, rest) := by
  rcases h with ⟨rfl, rfl⟩ | ⟨a, s, d, ha, hd, rfl, hs⟩
  · match rest, hr with
    | [], _ => rfl
    | c :: rest, hr =>
      have := hr c (by simp)
      simp only [List.map_nil, List.nil_append, exponent]
      rw [if_neg (by simp [this])]
  · have ha' : chr a = 'e' ∨ chr a = 'E' := by rcases ha with rfl | rfl <;> decide
    rw [List.map_cons, List.cons_append, List.map_append]
    rcases hs with ⟨rfl | rfl, rfl⟩ | ⟨rfl, rfl⟩
    · obtain ⟨b, l, rfl⟩ : ∃ b l, d = b :: l := by
        match d, hd.1 with
        | b :: l, _ => exact ⟨b, l, rfl⟩
      have hb := digit_byte (hd.2 b (by simp))
      have h1 : chr b ≠ '+' := fun he => hb.1 (chr_inj (he.trans (by decide : '+' = chr 43)))
      have h2 : chr b ≠ '-' := fun he => hb.2.1 (chr_inj (he.trans (by decide : '-' = chr 45)))
      have := magnitude_digits hd hr
      simp only [List.map_cons, List.map_nil, List.nil_append, List.cons_append] at this ⊢
      rw [exponent_cons ha', if_neg h1, if_neg h2, this]
    · have := magnitude_digits hd hr
      simp only [List.map_cons, List.map_nil, List.nil_append, List.cons_append]
      rw [exponent_cons ha', if_pos (by decide), this]
    · have := magnitude_digits hd hr
      simp only [List.map_cons, List.map_nil, List.nil_append, List.cons_append]
      rw [exponent_cons ha', if_neg (by decide), if_pos (by decide), this]
      rfl

theorem expPart_noPoint {x : GoStr} {e : Int} (h : ExpPart x e) {rest : List Char} (hr : Ends rest) :
    ∀ c ∈ (x.map chr ++ rest).head?, Spec.Json.isDigit c = false ∧ c ≠ '.' := by
  rcases h with ⟨rfl, -⟩ | ⟨a, s, d, ha, -, rfl, -⟩
  · intro c hc; exact ⟨(hr c hc).1, (hr c hc).2.1⟩
  · intro c hc
    simp only [List.map_cons, List.cons_append, List.head?_cons, Option.mem_def, Option.some.injEq] at hc
    subst hc
    rcases ha with rfl | rfl <;> decide

theorem fraction_read {f d : GoStr} (h : FracPart f d) {rest : List Char} (hr : ∀ c ∈ rest.head?, Spec.Json.isDigit c = false ∧ c ≠ '.') :
    fraction (f.map chr ++ rest) = some (d.map chr, rest) := by
  rcases h with ⟨rfl, rfl⟩ | ⟨hd, rfl⟩
  · match rest, hr with
    | [], _ => rfl
    | c :: rest, hr =>
      simp only [List.map_nil, List.nil_append, fraction]
      rw [if_neg (hr c (by simp)).2]
  · obtain ⟨h1, h2⟩ := span_digits hd.2 (rest := rest) fun c hc => (hr c hc).1
    rw [List.map_cons, List.cons_append, fraction, if_pos (by decide), h1, h2, if_neg (by simpa using hd.1)]

theorem unsigned_read {int f d x : GoStr} {ex : Int} (h1 : IntPart int) (h2 : FracPart f d) (h3 : ExpPart x ex) {rest : List Char} (hr : Ends rest) :
    unsigned ((int ++ f ++ x).map chr ++ rest) = some ((Spec.Json.decimal ((int ++ d).map chr), ex - d.length), rest) := by
  have hx := expPart_noPoint h3 hr
  have hf : ∀ c ∈ (f.map chr ++ (x.map chr ++ rest)).head?, Spec.Json.isDigit c = false := by
    rcases h2 with ⟨rfl, rfl⟩ | ⟨-, rfl⟩
    · intro c hc; exact (hx c hc).1
    · intro c hc
      simp only [List.map_cons, List.cons_append, List.head?_cons, Option.mem_def, Option.some.injEq] at hc
      subst hc
      decide
  obtain ⟨h4, h5⟩ := span_digits h1.1.2 hf
  have hz : ¬ ((int.map chr = []) ∨ ((int.map chr).head? = some '0' ∧ int.map chr ≠ ['0'])) := by
    rintro (h | ⟨h6, h7⟩)
    · exact h1.1.1 (by simpa using h)
    · apply h7
      have : int.head? = some 48 := by
        match int, h6 with
        | b :: l, h6 =>
          simp only [List.map_cons, List.head?_cons, Option.some.injEq] at h6 ⊢
          exact chr_inj (h6.trans (by decide : '0' = chr 48))
      rw [h1.2 this]
      decide
  rw [show (int ++ f ++ x).map chr ++ rest = int.map chr ++ (f.map chr ++ (x.map chr ++ rest)) by simp]
  simp only [unsigned]
  rw [h4, h5, if_neg hz, fraction_read h2 hx]
  simp only [Option.bind_some]
  rw [exponent_read h3 hr]
  simp

theorem NumText.ascii {t : GoStr} {m e : Int} (h : NumText t m e) : ∀ b ∈ t, b.toNat < 128 ∧ b ≠ 10 := by
  have hd : ∀ b : Byte, digit b = true → b.toNat < 128 ∧ b ≠ 10 := by
    refine forall_byte ?_
    decide +kernel
  obtain ⟨neg, int, f, d, x, ex, h1, h2, h3, rfl, -, -⟩ := h
  intro b hb
  simp only [List.mem_append] at hb
  rcases hb with ((hb | hb) | hb) | hb
  · split at hb
    · simp at hb; subst hb; decide
    · cases hb
  · exact hd b (h1.1.2 b hb)
  · rcases h2 with ⟨rfl, -⟩ | ⟨h2, rfl⟩
    · cases hb
    · rcases List.mem_cons.1 hb with rfl | hb
      · decide
      · exact hd b (h2.2 b hb)
  · rcases h3 with ⟨rfl, -⟩ | ⟨a, s, d', ha, hd', rfl, hs⟩
    · cases hb
    · rcases List.mem_cons.1 hb with rfl | hb
      · rcases ha with rfl | rfl <;> decide
      · rcases List.mem_append.1 hb with hb | hb
        · rcases hs with ⟨rfl | rfl, -⟩ | ⟨rfl, -⟩
          · cases hb
          · simp at hb; subst hb; decide
          · simp at hb; subst hb; decide
        · exact hd b (hd'.2 b hb)

/-- The first byte of a number. -/
theorem NumText.first {t : GoStr} {m e : Int} (h : NumText t m e) : ∃ b l, t = b :: l ∧ (b = 45 ∨ digit b = true) := by
  obtain ⟨neg, int, f, d, x, ex, h1, h2, h3, rfl, -, -⟩ := h
  cases neg
  · match int, h1 with
    | [], h1 => exact absurd rfl h1.1.1
    | b :: l, h1 => exact ⟨b, l ++ f ++ x, by simp, .inr (h1.1.2 b (by simp))⟩
  · exact ⟨45, int ++ f ++ x, by simp, .inl rfl⟩

/-- A number as it is read. -/
theorem NumText.read {t : GoStr} {m e : Int} (h : NumText t m e) {rest : List Char} (hr : Ends rest) :
    Spec.Json.number (t.map chr ++ rest) = some ((m, e), rest) := by
  obtain ⟨neg, int, f, d, x, ex, h1, h2, h3, rfl, rfl, rfl⟩ := h
  have hu := unsigned_read h1 h2 h3 hr
  cases neg
  · simp only [Bool.false_eq_true, if_false, List.nil_append]
    match int, h1 with
    | [], h1 => exact absurd rfl h1.1.1
    | b :: l, h1 =>
      have hb : chr b ≠ '-' := fun he => (digit_byte (h1.1.2 b (by simp))).2.1 (chr_inj (he.trans (by decide : '-' = chr 45)))
      simp only [List.cons_append, List.map_cons] at hu ⊢
      rw [Spec.Json.number, if_neg hb, hu]
      rfl
  · simp only [if_true, List.cons_append, List.nil_append, List.map_cons]
    rw [Spec.Json.number, if_pos (by decide), hu]
    rfl

end Verif.Json
