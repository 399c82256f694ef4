import Verif.Proofs.JsonBare
import Verif.Proofs.JsonMeans

/-!
# How deep a text is nested is in the text; so it is known which values `FromPrettyJSON` takes
-/

set_option autoImplicit false

namespace Verif.Json
open Spec.Json

/-! ## Counting brackets -/

def level (d : Nat) (p : Place) (c : Byte) : Nat :=
  if p = .out then (if c = 91 ∨ c = 123 then d + 1 else if c = 93 ∨ c = 125 then d - 1 else d) else d

/-- The deepest level. -/
def peak : Nat → Place → GoStr → Nat
  | d, _, [] => d
  | d, p, c :: t => max d (peak (level d p c) (p.next c) t)

theorem peak_ge (d : Nat) (p : Place) (t : GoStr) : d ≤ peak d p t := by
  cases t with
  | nil => exact Nat.le_refl _
  | cons c t => rw [peak]; omega

/-- No bracket and no quote. -/
def Neutral (c : Byte) : Prop := c ≠ 34 ∧ c ≠ 91 ∧ c ≠ 93 ∧ c ≠ 123 ∧ c ≠ 125

instance (c : Byte) : Decidable (Neutral c) := by unfold Neutral; infer_instance

theorem peak_neutral {w : GoStr} (hw : ∀ c ∈ w, Neutral c) (d : Nat) (x : GoStr) : peak d .out (w ++ x) = peak d .out x := by
  induction w with
  | nil => rfl
  | cons c w ih =>
    obtain ⟨h1, h2, h3, h4, h5⟩ := hw c List.mem_cons_self
    have hl : level d .out c = d := by simp [level, h2, h3, h4, h5]
    rw [List.cons_append, peak, hl, out_next h1, ih fun b hb => hw b (List.mem_cons_of_mem _ hb)]
    have := peak_ge d .out x
    omega

theorem ws_neutral {w : GoStr} (h : Ws w) : ∀ c ∈ w, Neutral c := by
  intro c hc
  rcases h c hc with rfl | rfl | rfl | rfl <;> decide

theorem digs_neutral {w : GoStr} (h : Digs w) : ∀ c ∈ w, Neutral c := by
  intro c hc
  have := h c hc
  refine ⟨?_, ?_, ?_, ?_, ?_⟩ <;> (rintro rfl; revert this; decide)

theorem mem_app {P : Byte → Prop} {a b : GoStr} (ha : ∀ c ∈ a, P c) (hb : ∀ c ∈ b, P c) : ∀ c ∈ a ++ b, P c := by
  intro c hc
  rcases List.mem_append.1 hc with h | h
  · exact ha c h
  · exact hb c h

theorem mem_con {P : Byte → Prop} {a : Byte} {b : GoStr} (ha : P a) (hb : ∀ c ∈ b, P c) : ∀ c ∈ a :: b, P c := by
  intro c hc
  rcases List.mem_cons.1 hc with h | h
  · exact h ▸ ha
  · exact hb c h

theorem number_neutral {t : GoStr} (h : IsNumber t) : ∀ c ∈ t, Neutral c := by
  obtain ⟨s, i, f, x, rfl, hs, hi, hf, hx⟩ := h
  refine mem_app (mem_app (mem_app ?_ ?_) ?_) ?_
  · rcases hs with rfl | rfl
    · intro c hc; cases hc
    · exact mem_con (by decide) (by intro c hc; cases hc)
  · cases hi with
    | zero => exact mem_con (by decide) (by intro c hc; cases hc)
    | @pos b d h1 h2 h3 =>
      refine mem_con ?_ (digs_neutral h3)
      refine ⟨?_, ?_, ?_, ?_, ?_⟩ <;> (rintro rfl; revert h1 h2; decide)
  · cases hf with
    | no => intro c hc; cases hc
    | yes h1 _ => exact mem_con (by decide) (digs_neutral h1)
  · cases hx with
    | no => intro c hc; cases hc
    | yes h1 h2 h3 _ =>
      refine mem_con (by rcases h1 with rfl | rfl <;> decide) (mem_app ?_ (digs_neutral h3))
      rcases h2 with rfl | rfl | rfl
      · intro c hc; cases hc
      · exact mem_con (by decide) (by intro c hc; cases hc)
      · exact mem_con (by decide) (by intro c hc; cases hc)

theorem peak_inside {p : Place} (hp : p ≠ .out) (d : Nat) (c : Byte) (x : GoStr) : peak d p (c :: x) = peak d (p.next c) x := by
  rw [peak, level, if_neg hp]
  have := peak_ge d (p.next c) x
  omega

theorem hexdig_inside {c : Byte} (h : Hexdig c) : Place.inside.next c = .inside := hex_inside ((isHex_iff c).2 h)

theorem peak_chars {q : GoStr} (h : IsChars q) (d : Nat) (x : GoStr) : peak d .inside (q ++ 34 :: x) = peak d .out x := by
  induction h with
  | nil => rw [List.nil_append, peak_inside (by decide)]; rfl
  | plain _ h2 h3 _ ih =>
    rw [List.cons_append, peak_inside (by decide), ← ih]
    simp [Place.next, h2, h3]
  | escape _ _ ih =>
    rw [List.cons_append, List.cons_append, peak_inside (by decide), peak_inside (by decide), ← ih]; rfl
  | unit h1 h2 h3 h4 _ ih =>
    simp only [List.cons_append]
    rw [peak_inside (by decide), peak_inside (by decide), show (Place.inside.next 92).next 117 = .inside from rfl,
      peak_inside (by decide), hexdig_inside h1, peak_inside (by decide), hexdig_inside h2, peak_inside (by decide), hexdig_inside h3,
      peak_inside (by decide), hexdig_inside h4, ih]

theorem peak_quoted {q : GoStr} (h : IsChars q) (d : Nat) (x : GoStr) : peak d .out ([34] ++ q ++ [34] ++ x) = peak d .out x := by
  rw [List.append_assoc, List.append_assoc, List.singleton_append, peak, show level d .out 34 = d from rfl, show Place.out.next 34 = .inside from rfl,
    List.singleton_append, peak_chars h]
  have := peak_ge d .out x
  omega

theorem peak_open {c : Byte} (hc : c = 91 ∨ c = 123) (d : Nat) (x : GoStr) : peak d .out (c :: x) = max d (peak (d + 1) .out x) := by
  rw [peak, out_next (by rcases hc with rfl | rfl <;> decide)]
  simp [level, hc]

theorem peak_close {c : Byte} (hc : c = 93 ∨ c = 125) (d : Nat) (x : GoStr) : peak (d + 1) .out (c :: x) = max (d + 1) (peak d .out x) := by
  rw [peak, out_next (by rcases hc with rfl | rfl <;> decide)]
  rcases hc with rfl | rfl <;> rfl

mutual

theorem peak_value : ∀ {n : Nat} {v : GoStr}, IsValue n v → ∀ (d : Nat) (x : GoStr), peak d .out (v ++ x) = max (d + n) (peak d .out x)
  | _, _, .null, d, x => by rw [peak_neutral (by decide +kernel)]; have := peak_ge d .out x; omega
  | _, _, .yes, d, x => by rw [peak_neutral (by decide +kernel)]; have := peak_ge d .out x; omega
  | _, _, .no, d, x => by rw [peak_neutral (by decide +kernel)]; have := peak_ge d .out x; omega
  | _, _, .number h, d, x => by rw [peak_neutral (number_neutral h)]; have := peak_ge d .out x; omega
  | _, _, .string h, d, x => by rw [peak_quoted h]; have := peak_ge d .out x; omega
  | _, _, .noElement hw, d, x => by
    rw [List.append_assoc, List.append_assoc, List.singleton_append, peak_open (.inl rfl), peak_neutral (ws_neutral hw), List.singleton_append, peak_close (.inl rfl)]
    omega
  | _, _, .array h, d, x => by
    rw [List.append_assoc, List.append_assoc, List.singleton_append, peak_open (.inl rfl), peak_elements h, List.singleton_append, peak_close (.inl rfl)]
    omega
  | _, _, .noMember hw, d, x => by
    rw [List.append_assoc, List.append_assoc, List.singleton_append, peak_open (.inr rfl), peak_neutral (ws_neutral hw), List.singleton_append, peak_close (.inr rfl)]
    omega
  | _, _, .object h, d, x => by
    rw [List.append_assoc, List.append_assoc, List.singleton_append, peak_open (.inr rfl), peak_members h, List.singleton_append, peak_close (.inr rfl)]
    omega

theorem peak_elements : ∀ {n : Nat} {v : GoStr}, IsElements n v → ∀ (d : Nat) (x : GoStr), peak d .out (v ++ x) = max (d + n) (peak d .out x)
  | _, _, .one h1 h2 h3, d, x => by
    rw [List.append_assoc, List.append_assoc, peak_neutral (ws_neutral h1), peak_value h2, peak_neutral (ws_neutral h3)]
  | _, _, .more h1 h2 h3 h4, d, x => by
    rw [List.append_assoc, List.append_assoc, List.append_assoc, List.append_assoc, peak_neutral (ws_neutral h1), peak_value h2, peak_neutral (ws_neutral h3),
      peak_neutral (w := [44]) (by decide), peak_elements h4]
    omega

theorem peak_members : ∀ {n : Nat} {v : GoStr}, IsMembers n v → ∀ (d : Nat) (x : GoStr), peak d .out (v ++ x) = max (d + n) (peak d .out x)
  | _, _, .one h1 h2 h3 h4 h5 h6, d, x => by
    simp only [List.append_assoc _ _ x]
    rw [List.append_assoc, List.append_assoc, List.append_assoc, List.append_assoc, List.append_assoc, peak_neutral (ws_neutral h1), peak_quoted h2, peak_neutral (ws_neutral h3),
      peak_neutral (w := [58]) (by decide), peak_neutral (ws_neutral h4), peak_value h5, peak_neutral (ws_neutral h6)]
  | _, _, .more h1 h2 h3 h4 h5 h6 h7, d, x => by
    simp only [List.append_assoc _ _ x]
    rw [List.append_assoc, List.append_assoc, List.append_assoc, List.append_assoc, List.append_assoc, List.append_assoc, List.append_assoc, peak_neutral (ws_neutral h1), peak_quoted h2, peak_neutral (ws_neutral h3),
      peak_neutral (w := [58]) (by decide), peak_neutral (ws_neutral h4), peak_value h5, peak_neutral (ws_neutral h6), peak_neutral (w := [44]) (by decide), peak_members h7]
    omega

end

/-- The nesting of a text is in its brackets. -/
theorem text_peak {n : Nat} {t : GoStr} (h : IsText n t) : peak 0 .out t = n := by
  obtain ⟨w, v, w', rfl, h1, h2, h3⟩ := h
  have e := peak_neutral (ws_neutral h3) 0 []
  rw [List.append_nil] at e
  rw [List.append_assoc, peak_neutral (ws_neutral h1), peak_value h2, e]
  simp [peak]

theorem text_unique {n m : Nat} {t : GoStr} (h : IsText n t) (h' : IsText m t) : n = m := (text_peak h).symm.trans (text_peak h')

theorem peak_bare (d : Nat) (p : Place) (t : GoStr) : peak d p (bare p t) = peak d p t := by
  induction t generalizing d p with
  | nil => rfl
  | cons c t ih =>
    rw [bare_cons]
    split
    · rename_i h
      obtain ⟨rfl, hc⟩ := h
      have hn : Neutral c := by rcases hc with rfl | rfl | rfl | rfl <;> decide
      rw [next_blank1 hc, ih]
      exact (peak_neutral (w := [c]) (mem_con hn (by intro c hc; cases hc)) d t).symm
    · rw [peak, peak, ih]

/-- `compact` keeps the nesting. -/
theorem squeezed_text {t u : GoStr} {n : Nat} (h : squeezed t = .ok u) (hn : IsText n t) : IsText n u := by
  obtain ⟨m, _, hm⟩ := (acc_text u).1 (squeezed_out h)
  have : m = n := by rw [← text_peak hm, ← text_peak hn, squeezed_bare h, peak_bare]
  exact this ▸ hm

/-! ## Numbers and strings -/

theorem digits_digs {d : GoStr} (h : ∀ b ∈ d, digit b = true) : Digs d := fun b hb => (Json.digit_iff b).1 (h b hb)

theorem num_grammar {t : GoStr} {m e : Int} (h : NumText t m e) : IsNumber t := by
  obtain ⟨neg, int, f, d, x, ex, ⟨⟨h1, h2⟩, h3⟩, hf, hx, rfl, _, _⟩ := h
  refine ⟨if neg then [45] else [], int, f, x, rfl, by cases neg <;> simp, ?_, ?_, ?_⟩
  · match int, h1, h2, h3 with
    | b :: l, _, h2, h3 =>
      by_cases hb : b = 48
      · subst hb
        cases h3 rfl
        exact .zero
      · have hd := (Json.digit_iff b).1 (h2 b List.mem_cons_self)
        have : b.toNat ≠ 48 := fun he => hb (UInt8.toNat_inj.1 he)
        exact .pos (by omega) hd.2 (digits_digs fun c hc => h2 c (List.mem_cons_of_mem _ hc))
  · rcases hf with ⟨rfl, -⟩ | ⟨hd, rfl⟩
    · exact .no
    · exact .yes (digits_digs hd.2) hd.1
  · rcases hx with ⟨rfl, -⟩ | ⟨a, s, d', ha, hd, rfl, hs⟩
    · exact .no
    · refine .yes ha ?_ (digits_digs hd.2) hd.1
      rcases hs with ⟨rfl | rfl, -⟩ | ⟨rfl, -⟩ <;> simp

theorem grammar_num {t : GoStr} (h : IsNumber t) : ∃ m e, NumText t m e := by
  obtain ⟨s, i, f, x, rfl, hs, hi, hf, hx⟩ := h
  have dg {d : GoStr} (hd : Digs d) : ∀ b ∈ d, digit b = true := fun b hb => (Json.digit_iff b).2 (hd b hb)
  have h1 : IntPart i := by
    cases hi with
    | zero => exact ⟨⟨by simp, by intro b hb; simp at hb; subst hb; rfl⟩, fun _ => rfl⟩
    | @pos b d hb hb' hd =>
      refine ⟨⟨by simp, mem_con ((Json.digit_iff b).2 ⟨by omega, hb'⟩) (dg hd)⟩, ?_⟩
      intro he
      simp only [List.head?_cons, Option.some.injEq] at he
      subst he
      exact absurd hb (by decide)
  have h2 : ∃ d, FracPart f d := by
    cases hf with
    | no => exact ⟨[], .inl ⟨rfl, rfl⟩⟩
    | @yes d hd hn => exact ⟨d, .inr ⟨⟨hn, dg hd⟩, rfl⟩⟩
  have h3 : ∃ e, ExpPart x e := by
    cases hx with
    | no => exact ⟨0, .inl ⟨rfl, rfl⟩⟩
    | @yes a s d ha hs hd hn =>
      rcases hs with rfl | rfl | rfl
      · exact ⟨_, .inr ⟨a, [], d, ha, ⟨hn, dg hd⟩, rfl, .inl ⟨.inl rfl, rfl⟩⟩⟩
      · exact ⟨_, .inr ⟨a, [43], d, ha, ⟨hn, dg hd⟩, rfl, .inl ⟨.inr rfl, rfl⟩⟩⟩
      · exact ⟨_, .inr ⟨a, [45], d, ha, ⟨hn, dg hd⟩, rfl, .inr ⟨rfl, rfl⟩⟩⟩
  obtain ⟨d, h2⟩ := h2
  obtain ⟨e, h3⟩ := h3
  rcases hs with rfl | rfl
  · exact ⟨_, _, false, i, f, d, x, e, h1, h2, h3, rfl, rfl, rfl⟩
  · exact ⟨_, _, true, i, f, d, x, e, h1, h2, h3, rfl, rfl, rfl⟩

theorem valid_iff (t : GoStr) : isValidNumber t = true ↔ IsNumber t := by
  constructor
  · intro h
    obtain ⟨m, e, hn⟩ := valid_num h
    exact num_grammar hn
  · intro h
    obtain ⟨m, e, hn⟩ := grammar_num h
    exact num_valid hn

theorem plain_chars {w : GoStr} (hw : ∀ b ∈ w, b ≠ 34 ∧ b ≠ 92 ∧ 32 ≤ b.toNat) {q : GoStr} (hq : IsChars q) : IsChars (w ++ q) := by
  induction w with
  | nil => exact hq
  | cons b w ih =>
    have h := hw b List.mem_cons_self
    exact .plain h.2.2 h.1 h.2.1 (ih fun c hc => hw c (List.mem_cons_of_mem _ hc))

theorem hex_dig {c : Char} {n : Nat} (h : Spec.Json.hex c = some n) : ∃ b, String.utf8EncodeChar c = [b] ∧ Hexdig b := by
  have hr : (48 ≤ c.toNat ∧ c.toNat ≤ 57) ∨ (97 ≤ c.toNat ∧ c.toNat ≤ 102) ∨ (65 ≤ c.toNat ∧ c.toNat ≤ 70) := by
    unfold Spec.Json.hex at h
    repeat' split at h
    · exact .inl (by assumption)
    · exact .inr (.inl (by assumption))
    · exact .inr (.inr (by assumption))
    · cases h
  refine ⟨c.toNat.toUInt8, utf8_ascii (by omega), ?_⟩
  unfold Hexdig
  rw [toNat_toUInt8 (by omega)]
  exact hr

theorem hex4_dig {x y z w : Char} {n : Nat} (h : hex4 [x, y, z, w] = some (n, [])) {q : List Char} (hq : IsChars (utf8 q)) :
    IsChars (92 :: 117 :: utf8 (x :: y :: z :: w :: q)) := by
  simp only [hex4, bind] at h
  cases h1 : hex x with
  | none => simp [h1] at h
  | some a =>
    cases h2 : hex y with
    | none => simp [h1, h2] at h
    | some b =>
      cases h3 : hex z with
      | none => simp [h1, h2, h3] at h
      | some c =>
        cases h4 : hex w with
        | none => simp [h1, h2, h3, h4] at h
        | some d =>
          obtain ⟨x', e1, k1⟩ := hex_dig h1
          obtain ⟨y', e2, k2⟩ := hex_dig h2
          obtain ⟨z', e3, k3⟩ := hex_dig h3
          obtain ⟨w', e4, k4⟩ := hex_dig h4
          rw [utf8_cons, utf8_cons, utf8_cons, utf8_cons, e1, e2, e3, e4]
          exact .unit k1 k2 k3 k4 hq

theorem strText_chars {q cs : List Char} (h : StrText q cs) : IsChars (utf8 q) := by
  have bs (q : List Char) : utf8 ('\\' :: q) = 92 :: utf8 q := by rw [utf8_cons]; rfl
  have us (q : List Char) : utf8 ('u' :: q) = 117 :: utf8 q := by rw [utf8_cons]; rfl
  induction h with
  | nil => exact .nil
  | raw h1 h2 h3 _ ih => rw [utf8_cons]; exact plain_chars (utf8_plain h1 h2 h3) ih
  | simple hm _ ih =>
    rw [bs, utf8_cons]
    simp only [Json.simple, List.mem_cons, Prod.mk.injEq, List.not_mem_nil, or_false] at hm
    rcases hm with ⟨rfl, rfl⟩ | ⟨rfl, rfl⟩ | ⟨rfl, rfl⟩ | ⟨rfl, rfl⟩ | ⟨rfl, rfl⟩ | ⟨rfl, rfl⟩ | ⟨rfl, rfl⟩ | ⟨rfl, rfl⟩ <;> exact .escape (by decide +kernel) ih
  | code h1 _ _ ih => rw [bs, us]; exact hex4_dig h1 ih
  | pair h1 _ _ h2 _ _ _ ih =>
    rw [bs, us]
    refine hex4_dig h1 ?_
    rw [bs, us]
    exact hex4_dig h2 ih

theorem string_chars (s : GoStr) : ∃ q, string s = [34] ++ q ++ [34] ∧ IsChars q := by
  obtain ⟨q, cs, _, h2, h3⟩ := string_text s
  exact ⟨utf8 q, h3, strText_chars h2⟩

theorem fieldName_chars {k : GoStr} (h : FieldName k) : IsChars k := by
  obtain ⟨cs, rfl, h⟩ := h
  induction cs with
  | nil => exact .nil
  | cons c cs ih =>
    rw [utf8_cons]
    have hc := h c List.mem_cons_self
    exact plain_chars (utf8_plain hc.1 hc.2.1 hc.2.2) (ih fun d hd => h d (List.mem_cons_of_mem _ hd))

/-! ## Values -/

/-- What is written for a value: a text, nested as deep as the value. -/
def Whole (v : JVal) (u : GoStr) (m : Nat) : Prop := marshal v = .ok u ∧ IsText m u ∧ ∀ n, Fits n v ↔ m ≤ n

theorem value_text {n : Nat} {v : GoStr} (h : IsValue n v) : IsText n v := ⟨[], v, [], by simp, ws_nil, h, ws_nil⟩

theorem marshalAll_comma (v : JVal) (l : List JVal) : marshalAll false (v :: l) = (marshalAll true (v :: l)).map fun t => 44 :: t := by
  rw [marshalAll, marshalAll]
  cases marshal v with
  | error e => rfl
  | ok t =>
    simp only []
    cases marshalAll false l <;> rfl

theorem whole_all : ∀ (l : List JVal), l ≠ [] → (∀ v ∈ l, ∃ u m, Whole v u m) → ∃ r m, marshalAll true l = .ok r ∧ IsElements m r ∧ ∀ n, (∀ v ∈ l, Fits n v) ↔ m ≤ n
  | [], h, _ => absurd rfl h
  | [v], _, h => by
    obtain ⟨u, m, h1, ⟨w, x, w', rfl, k1, k2, k3⟩, h3⟩ := h v List.mem_cons_self
    refine ⟨w ++ x ++ w', m, ?_, .one k1 k2 k3, fun n => by rw [← h3]; simp⟩
    rw [marshalAll, h1, marshalAll]; simp
  | v :: v' :: l, _, h => by
    obtain ⟨u, m, h1, ⟨w, x, w', rfl, k1, k2, k3⟩, h3⟩ := h v List.mem_cons_self
    obtain ⟨r, k, h4, h5, h6⟩ := whole_all (v' :: l) (by simp) fun y hy => h y (List.mem_cons_of_mem _ hy)
    refine ⟨w ++ x ++ w' ++ [44] ++ r, max m k, ?_, .more k1 k2 k3 h5, fun n => ?_⟩
    · rw [marshalAll, h1, marshalAll_comma, h4]; simp [Except.map]
    · rw [List.forall_mem_cons, h3, h6]; omega

theorem joinFields_comma (name : GoStr → GoStr) (p : GoStr × Except Err GoStr) (l : List (GoStr × Except Err GoStr)) :
    joinFields name false (p :: l) = (joinFields name true (p :: l)).map fun t => 44 :: t := by
  obtain ⟨k, t⟩ := p
  cases t with
  | error e => rfl
  | ok t =>
    simp only [joinFields]
    cases joinFields name false l <;> rfl

theorem whole_fields (name : GoStr → GoStr) : ∀ (l : List (GoStr × JVal)), l ≠ [] → (∀ p ∈ l, ∃ u m, Whole p.2 u m) → (∀ p ∈ l, ∃ q, name p.1 = [34] ++ q ++ [34] ∧ IsChars q) →
    ∃ r m, joinFields name true (l.map fun p => (p.1, marshal p.2)) = .ok r ∧ IsMembers m r ∧ ∀ n, (∀ p ∈ l, Fits n p.2) ↔ m ≤ n
  | [], h, _, _ => absurd rfl h
  | [p], _, h, hn => by
    obtain ⟨u, m, h1, ⟨w, x, w', rfl, k1, k2, k3⟩, h3⟩ := h p List.mem_cons_self
    obtain ⟨q, hq, hc⟩ := hn p List.mem_cons_self
    refine ⟨_, m, ?_, .one (w := []) (w1 := []) ws_nil hc ws_nil k1 k2 k3, fun n => by rw [← h3]; simp⟩
    simp [joinFields, h1, hq]
  | p :: p' :: l, _, h, hn => by
    obtain ⟨u, m, h1, ⟨w, x, w', rfl, k1, k2, k3⟩, h3⟩ := h p List.mem_cons_self
    obtain ⟨q, hq, hc⟩ := hn p List.mem_cons_self
    obtain ⟨r, k, h4, h5, h6⟩ := whole_fields name (p' :: l) (by simp) (fun y hy => h y (List.mem_cons_of_mem _ hy)) fun y hy => hn y (List.mem_cons_of_mem _ hy)
    refine ⟨_, max m k, ?_, .more (w := []) (w1 := []) ws_nil hc ws_nil k1 k2 k3 h5, fun n => ?_⟩
    · rw [List.map_cons] at h4
      have h7 := joinFields_comma name (p'.1, marshal p'.2) (l.map fun p => (p.1, marshal p.2))
      rw [h4] at h7
      rw [List.map_cons, List.map_cons, h1]
      generalize (p'.1, marshal p'.2) :: l.map (fun p => (p.1, marshal p.2)) = L at h7
      simp only [joinFields, h7]
      simp [Except.map, hq]
    · rw [List.forall_mem_cons, h3, h6]; omega

theorem fits_arr {n : Nat} {l : List JVal} : Fits n (.arr l) ↔ ∃ k, n = k + 1 ∧ ∀ v ∈ l, Fits k v :=
  ⟨fun h => by cases h with | arr h => exact ⟨_, rfl, h⟩, fun ⟨_, h, h'⟩ => h ▸ .arr h'⟩

theorem fits_struct {n : Nat} {l : List (GoStr × JVal)} : Fits n (.struct l) ↔ ∃ k, n = k + 1 ∧ ∀ p ∈ l, Fits k p.2 :=
  ⟨fun h => by cases h with | struct h => exact ⟨_, rfl, h⟩, fun ⟨_, h, h'⟩ => h ▸ .struct h'⟩

theorem fits_map {n : Nat} {l : List (GoStr × JVal)} : Fits n (.map l) ↔ ∃ k, n = k + 1 ∧ ∀ p ∈ l, Fits k p.2 :=
  ⟨fun h => by cases h with | map h => exact ⟨_, rfl, h⟩, fun ⟨_, h, h'⟩ => h ▸ .map h'⟩

theorem succ_le {P : Nat → Prop} {m : Nat} (h : ∀ n, P n ↔ m ≤ n) (n : Nat) : (∃ k, n = k + 1 ∧ P k) ↔ m + 1 ≤ n := by
  constructor
  · rintro ⟨k, rfl, hk⟩
    have := (h k).1 hk
    omega
  · intro hm
    exact ⟨n - 1, by omega, (h _).2 (by omega)⟩

mutual

/-- What is written for a value is a text, which is nested as deep as the value. -/
theorem marshal_whole : ∀ (v : JVal), FieldNamed v → (∃ u, marshal v = .ok u) → ∃ u m, Whole v u m
  | .null, _, _ => ⟨_, 0, by rw [marshal], value_text .null, fun n => ⟨fun _ => Nat.zero_le _, fun _ => .null n⟩⟩
  | .bool true, _, _ => ⟨_, 0, by rw [marshal, if_pos rfl], value_text .yes, fun n => ⟨fun _ => Nat.zero_le _, fun _ => .bool n _⟩⟩
  | .bool false, _, _ => ⟨_, 0, by rw [marshal, if_neg (by decide)], value_text .no, fun n => ⟨fun _ => Nat.zero_le _, fun _ => .bool n _⟩⟩
  | .int i, _, _ => ⟨_, 0, by rw [marshal], value_text (.number (num_grammar (itoa_num i))), fun n => ⟨fun _ => Nat.zero_le _, fun _ => .int n i⟩⟩
  | .str s, _, _ => by
    obtain ⟨q, h1, h2⟩ := string_chars s
    exact ⟨_, 0, by rw [marshal], h1 ▸ value_text (.string h2), fun n => ⟨fun _ => Nat.zero_le _, fun _ => .str n s⟩⟩
  | .number t, _, h => by
    by_cases ht : t = []
    · subst ht
      exact ⟨[48], 0, by rw [marshal]; rfl, value_text (.number (num_grammar (itoa_num 0))), fun n => ⟨fun _ => Nat.zero_le _, fun _ => .zero n⟩⟩
    · obtain ⟨u, hu⟩ := h
      have hv : isValidNumber t = true := by
        cases hv : isValidNumber t with
        | true => rfl
        | false => rw [marshal] at hu; simp [ht, hv] at hu
      exact ⟨t, 0, by rw [marshal]; simp only [if_neg ht, hv, if_true], value_text (.number ((valid_iff t).1 hv)), fun n => ⟨fun _ => Nat.zero_le _, fun _ => .number n ((valid_iff t).1 hv)⟩⟩
  | .bad e, _, h => by obtain ⟨t, ht⟩ := h; rw [marshal] at ht; cases ht
  | .own t, _, h => by
    obtain ⟨u, hu⟩ := h
    have hu' := hu
    rw [marshal] at hu'
    obtain ⟨n, _, hn⟩ := (acc_text t).1 ((squeezed_acc t).1 ⟨u, hu'⟩)
    refine ⟨u, n, hu, squeezed_text hu' hn, fun k => ⟨?_, fun hk => .own hk hn⟩⟩
    intro hf
    cases hf with
    | own h1 h2 => rw [text_unique hn h2]; exact h1
  | .raw s, _, h => by
    obtain ⟨u, hu⟩ := h
    have hu' := hu
    rw [marshal] at hu'
    obtain ⟨n, _, hn⟩ := (acc_text _).1 ((squeezed_acc _).1 ⟨u, hu'⟩)
    refine ⟨u, n, hu, squeezed_text hu' hn, fun k => ⟨?_, fun hk => .raw hk hn⟩⟩
    intro hf
    cases hf with
    | raw h1 h2 => rw [text_unique hn h2]; exact h1
  | .arr [], _, _ => ⟨[91, 93], 1, by simp [marshal, marshalAll, Except.map], value_text (.noElement (w := []) ws_nil), fun n => by
      rw [fits_arr]; exact succ_le (m := 0) (P := fun k => ∀ v ∈ ([] : List JVal), Fits k v) (fun k => by simp) n⟩
  | .arr (v :: l), .arr hw, h => by
    obtain ⟨r, m, h1, h2, h3⟩ := whole_all (v :: l) (by simp) (marshal_wholes (v :: l) hw ((marshal_arr _).1 h))
    exact ⟨_, m + 1, by rw [marshal, h1]; rfl, value_text (.array h2), fun n => by rw [fits_arr]; exact succ_le h3 n⟩
  | .struct [], _, _ => ⟨[123, 125], 1, by simp [marshal, marshalFields, joinFields, Except.map], value_text (.noMember (w := []) ws_nil), fun n => by
      rw [fits_struct]; exact succ_le (m := 0) (P := fun k => ∀ p ∈ ([] : List (GoStr × JVal)), Fits k p.2) (fun k => by simp) n⟩
  | .struct (p :: l), .struct hk hw, h => by
    obtain ⟨r, m, h1, h2, h3⟩ := whole_fields (fun k => [34] ++ k ++ [34]) (p :: l) (by simp) (marshal_wholefs (p :: l) hw ((marshal_struct _).1 h))
      fun q hq => ⟨q.1, rfl, fieldName_chars (hk q hq)⟩
    exact ⟨_, m + 1, by rw [marshal, marshalFields_map, h1]; rfl, value_text (.object h2), fun n => by rw [fits_struct]; exact succ_le h3 n⟩
  | .map [], _, _ => ⟨[123, 125], 1, by simp [marshal, marshalFields, sortKeys, joinFields, Except.map], value_text (.noMember (w := []) ws_nil), fun n => by
      rw [fits_map]; exact succ_le (m := 0) (P := fun k => ∀ p ∈ ([] : List (GoStr × JVal)), Fits k p.2) (fun k => by simp) n⟩
  | .map (p :: l), .map hw, h => by
    have hp := sortKeys_perm (p :: l)
    have hW := marshal_wholefs (p :: l) hw ((marshal_map _).1 h)
    obtain ⟨r, m, h1, h2, h3⟩ := whole_fields string (sortKeys (p :: l)) (fun he => by rw [he] at hp; exact absurd hp.length_eq (by simp))
      (fun q hq => hW q (hp.mem_iff.1 hq)) fun q _ => string_chars q.1
    refine ⟨_, m + 1, by rw [marshal, marshalFields_map, sortKeys_map, h1]; rfl, value_text (.object h2), fun n => ?_⟩
    rw [fits_map]
    refine succ_le (fun k => ?_) n
    rw [← h3]
    exact ⟨fun h q hq => h q (hp.mem_iff.1 hq), fun h q hq => h q (hp.mem_iff.2 hq)⟩

theorem marshal_wholes : ∀ (l : List JVal), (∀ v ∈ l, FieldNamed v) → (∀ v ∈ l, ∃ u, marshal v = .ok u) → ∀ v ∈ l, ∃ u m, Whole v u m
  | [], _, _ => by intro v hv; cases hv
  | v :: l, hw, h => by
    have h1 := marshal_whole v (hw v List.mem_cons_self) (h v List.mem_cons_self)
    have h2 := marshal_wholes l (fun w k => hw w (List.mem_cons_of_mem _ k)) fun w k => h w (List.mem_cons_of_mem _ k)
    intro w hm
    rcases List.mem_cons.1 hm with rfl | hm
    · exact h1
    · exact h2 w hm

theorem marshal_wholefs : ∀ (l : List (GoStr × JVal)), (∀ p ∈ l, FieldNamed p.2) → (∀ p ∈ l, ∃ u, marshal p.2 = .ok u) → ∀ p ∈ l, ∃ u m, Whole p.2 u m
  | [], _, _ => by intro v hv; cases hv
  | (k, v) :: l, hw, h => by
    have h1 := marshal_whole v (hw (k, v) List.mem_cons_self) (h (k, v) List.mem_cons_self)
    have h2 := marshal_wholefs l (fun w k => hw w (List.mem_cons_of_mem _ k)) fun w k => h w (List.mem_cons_of_mem _ k)
    intro w hm
    rcases List.mem_cons.1 hm with rfl | hm
    · exact h1
    · exact h2 w hm

end

/-- A value that fits can be encoded. -/
theorem fits_marshal {n : Nat} {v : JVal} (h : Fits n v) (hn : n ≤ maxNesting) : ∃ u, marshal v = .ok u := by
  induction h with
  | null | bool | int | str => exact ⟨_, by rw [marshal]⟩
  | zero => exact ⟨[48], by rw [marshal]; rfl⟩
  | @number n t h =>
    refine ⟨if t = [] then [48] else t, ?_⟩
    by_cases ht : t = []
    · subst ht; rw [marshal]; rfl
    · rw [marshal]; simp only [if_neg ht, (valid_iff t).2 h, if_true]
  | arr _ ih => exact (marshal_arr _).2 fun v hv => ih v hv (by omega)
  | struct _ ih => exact (marshal_struct _).2 fun v hv => ih v hv (by omega)
  | map _ ih => exact (marshal_map _).2 fun v hv => ih v hv (by omega)
  | raw h1 h2 => rw [marshal]; exact (squeezed_acc _).2 ((acc_text _).2 ⟨_, by omega, h2⟩)
  | own h1 h2 => rw [marshal]; exact (squeezed_acc _).2 ((acc_text _).2 ⟨_, by omega, h2⟩)

theorem simple_fits {v : JVal} (hs : Simple v) (h : ∃ u, marshal v = .ok u) : Fits maxNesting v := by
  obtain ⟨u, hu⟩ := h
  cases v with
  | null => exact .null _
  | bool => exact .bool _ _
  | int => exact .int _ _
  | str => exact .str _ _
  | bad => rw [marshal] at hu; cases hu
  | arr => cases hs
  | struct => cases hs
  | map => cases hs
  | number t =>
    by_cases ht : t = []
    · subst ht; exact .zero _
    · cases hv : isValidNumber t with
      | true => exact .number _ ((valid_iff t).1 hv)
      | false => rw [marshal] at hu; simp [ht, hv] at hu
  | own t =>
    rw [marshal] at hu
    obtain ⟨n, h1, hn⟩ := (acc_text t).1 ((squeezed_acc t).1 ⟨u, hu⟩)
    exact .own h1 hn
  | raw s =>
    rw [marshal] at hu
    obtain ⟨n, h1, hn⟩ := (acc_text _).1 ((squeezed_acc _).1 ⟨u, hu⟩)
    exact .raw h1 hn

mutual

/-- A value can be encoded if its simple parts can. -/
theorem parts_marshal : ∀ (v : JVal), (∀ x, Within x v → Simple x → Fits maxNesting x) → ∃ u, marshal v = .ok u
  | .null, h | .bool _, h | .int _, h | .str _, h | .bad _, h | .number _, h | .own _, h | .raw _, h =>
    fits_marshal (h _ (.here _) trivial) (Nat.le_refl _)
  | .arr l, h => (marshal_arr l).2 (parts_list l fun v hv x hx => h x (.arr hv hx))
  | .struct l, h => (marshal_struct l).2 (parts_fields l fun p hp x hx => h x (.struct hp hx))
  | .map l, h => (marshal_map l).2 (parts_fields l fun p hp x hx => h x (.map hp hx))

theorem parts_list : ∀ (l : List JVal), (∀ v ∈ l, ∀ x, Within x v → Simple x → Fits maxNesting x) → ∀ v ∈ l, ∃ u, marshal v = .ok u
  | [], _ => by intro v hv; cases hv
  | v :: l, h => by
    have h1 := parts_marshal v (h v List.mem_cons_self)
    have h2 := parts_list l fun w k => h w (List.mem_cons_of_mem _ k)
    intro w hm
    rcases List.mem_cons.1 hm with rfl | hm
    · exact h1
    · exact h2 w hm

theorem parts_fields : ∀ (l : List (GoStr × JVal)), (∀ p ∈ l, ∀ x, Within x p.2 → Simple x → Fits maxNesting x) → ∀ p ∈ l, ∃ u, marshal p.2 = .ok u
  | [], _ => by intro v hv; cases hv
  | (k, v) :: l, h => by
    have h1 := parts_marshal v (h (k, v) List.mem_cons_self)
    have h2 := parts_fields l fun w k => h w (List.mem_cons_of_mem _ k)
    intro w hm
    rcases List.mem_cons.1 hm with rfl | hm
    · exact h1
    · exact h2 w hm

end

end Verif.Json
