import Verif.Spec.Splitting
import Verif.Proofs.Text
import Verif.Proofs.Strconv

/-!
# What a client makes of what the server sends
-/

set_option autoImplicit false

namespace Verif
namespace WireP
open Spec.Wire Wire

def crlf : GoStr := [13, 10]

theorem takeWhile_stop {α : Type} (p : α → Bool) (l r : List α) (x : α) (h : ∀ y ∈ l, p y = true) (hx : p x = false) :
    (l ++ x :: r).takeWhile p = l := by
  induction l with
  | nil => simp [hx]
  | cons a l ih =>
    simp only [List.cons_append, List.takeWhile_cons, h a (by simp), if_true]
    rw [ih fun y hy => h y (by simp [hy])]

theorem dropWhile_stop {α : Type} (p : α → Bool) (l r : List α) (x : α) (h : ∀ y ∈ l, p y = true) (hx : p x = false) :
    (l ++ x :: r).dropWhile p = x :: r := by
  induction l with
  | nil => simp [hx]
  | cons a l ih =>
    simp only [List.cons_append, List.dropWhile_cons, h a (by simp), if_true]
    exact ih fun y hy => h y (by simp [hy])

theorem line_crlf (strict : Bool) {a : GoStr} (h : OneLine a) (rest : GoStr) : line strict (a ++ 13 :: 10 :: rest) = some (a, rest) := by
  have hp : ∀ y ∈ a ++ [13], (decide (y ≠ (10 : Byte))) = true := by
    intro y hy
    rcases List.mem_append.1 hy with hy | hy
    · exact decide_eq_true fun e => h.1 (e ▸ hy)
    · rw [List.mem_singleton.1 hy]; decide
  have e : a ++ 13 :: 10 :: rest = (a ++ [13]) ++ 10 :: rest := by simp
  unfold line
  rw [e, takeWhile_stop _ _ _ _ hp (by decide), dropWhile_stop _ _ _ _ hp (by decide)]
  simp [h.2]

/-- Without a blank at its ends. -/
theorem strip_blank (s : GoStr) : strip (32 :: s) = strip s := by
  unfold strip
  rw [List.dropWhile_cons, if_pos (by decide)]

theorem dropWhile_idem {α : Type} (p : α → Bool) (l : List α) : (l.dropWhile p).dropWhile p = l.dropWhile p := by
  induction l with
  | nil => rfl
  | cons a l ih =>
    rw [List.dropWhile_cons]
    split
    · exact ih
    · rw [List.dropWhile_cons, if_neg (by assumption)]

theorem dropWhile_head {α : Type} (p : α → Bool) (l : List α) : l.dropWhile p = [] ∨ ∃ a m, l.dropWhile p = a :: m ∧ p a = false := by
  induction l with
  | nil => exact Or.inl rfl
  | cons a l ih =>
    rw [List.dropWhile_cons]
    split
    · exact ih
    · exact Or.inr ⟨a, l, rfl, by simpa using (by assumption : ¬ p a = true)⟩

theorem dropWhile_none {α : Type} {p : α → Bool} {l : List α} (h : l.dropWhile p = []) : ∀ y ∈ l, p y = true := by
  induction l with
  | nil => simp
  | cons a l ih =>
    rw [List.dropWhile_cons] at h
    split at h
    · intro y hy
      rcases List.mem_cons.1 hy with rfl | hy
      · assumption
      · exact ih h y hy
    · cases h

theorem strip_strip (s : GoStr) : strip (strip s) = strip s := by
  unfold strip
  have key : ((s.dropWhile ows).reverse.dropWhile ows).reverse.dropWhile ows = ((s.dropWhile ows).reverse.dropWhile ows).reverse := by
    generalize hX : s.dropWhile ows = X
    rcases dropWhile_head ows s with h | ⟨a, m, h, ha⟩
    · rw [hX] at h; subst h; rfl
    · rw [hX] at h
      subst h
      have : (((a :: m).reverse).dropWhile ows).reverse = a :: ((m.reverse).dropWhile ows).reverse := by
        rw [List.reverse_cons]
        rcases dropWhile_head ows m.reverse with h | ⟨b, r, h, hb⟩
        · rw [h]
          have : ∀ y ∈ m.reverse, ows y = true := by
            intro y hy
            exact dropWhile_none h y hy
          rw [dropWhile_stop _ _ _ _ this ha]
          rfl
        · rw [List.dropWhile_append, h]
          simp
      rw [this, List.dropWhile_cons, if_neg (by simp [ha])]
  rw [key, List.reverse_reverse, dropWhile_idem]

theorem mem_strip {s : GoStr} {c : Byte} (h : c ∈ strip s) : c ∈ s := by
  unfold strip at h
  rw [List.mem_reverse] at h
  have := (List.dropWhile_sublist _).mem h
  rw [List.mem_reverse] at this
  exact (List.dropWhile_sublist _).mem this

theorem noBreaks (v : GoStr) : OneLine (v.map fun c => if c = 10 ∨ c = 13 then (32 : Byte) else c) := by
  constructor <;>
  · intro h
    obtain ⟨c, _, h⟩ := List.mem_map.1 h
    split at h
    · cases h
    · subst h; simp_all

theorem dropWhile_congr {α : Type} {p q : α → Bool} {l : List α} (h : ∀ x ∈ l, p x = q x) : l.dropWhile p = l.dropWhile q := by
  induction l with
  | nil => rfl
  | cons a l ih => simp only [List.dropWhile_cons, h a (by simp), ih fun x hx => h x (by simp [hx])]

theorem trim_strip {s : GoStr} (h : OneLine s) : trimBlank s = strip s := by
  have e : ∀ c ∈ s, isBlank c = ows c := by
    intro c hc
    have h1 : c ≠ 10 := fun e => h.1 (e ▸ hc)
    have h2 : c ≠ 13 := fun e => h.2 (e ▸ hc)
    simp [isBlank, ows, h1, h2]
  unfold trimBlank strip
  rw [dropWhile_congr e]
  rw [dropWhile_congr (p := isBlank) (q := ows) (l := (s.dropWhile ows).reverse)]
  intro x hx
  exact e x ((List.dropWhile_sublist _).mem (List.mem_reverse.1 hx))

theorem clean_eq (v : GoStr) : clean v = cleaned v := trim_strip (noBreaks v)

theorem clean_line (v : GoStr) : OneLine (clean v) := by
  rw [clean_eq]
  exact ⟨fun h => (noBreaks v).1 (mem_strip h), fun h => (noBreaks v).2 (mem_strip h)⟩

theorem strip_clean (v : GoStr) : strip (clean v) = clean v := by
  rw [clean_eq]
  exact strip_strip _

theorem validName_eq (k : GoStr) : validName k = isName k := by
  unfold validName isName
  congr 2
  funext c
  rw [Bool.eq_iff_iff, isToken_iff c]
  unfold Spec.tokenChar
  rw [decide_eq_true_iff]

theorem name_char {k : GoStr} (h : isName k = true) : ∀ c ∈ k, c ≠ 58 ∧ c ≠ 10 ∧ c ≠ 13 := by
  intro c hc
  simp only [isName, Bool.and_eq_true, List.all_eq_true] at h
  have := h.2 c hc
  revert this
  exact forall_byte (P := fun c => decide (c ∈ lit "!#$%&'*+-.^_`|~0123456789ABCDEFGHIJKLMNOPQRSTUVWXYZabcdefghijklmnopqrstuvwxyz") = true →
    c ≠ 58 ∧ c ≠ 10 ∧ c ≠ 13) (by decide +kernel) c

theorem name_ne {k : GoStr} (h : isName k = true) : k ≠ [] := by
  simp only [isName, Bool.and_eq_true, decide_eq_true_eq] at h
  exact h.1

theorem field_read {k : GoStr} (h : isName k = true) (v : GoStr) : field (k ++ 58 :: 32 :: v) = some (k, strip v) := by
  have hp : ∀ y ∈ k, (decide (y ≠ (58 : Byte))) = true := fun y hy => decide_eq_true (name_char h y hy).1
  unfold field
  rw [takeWhile_stop _ _ _ _ hp (by decide), dropWhile_stop _ _ _ _ hp (by decide)]
  simp [h, strip_blank]

/-- Lines of fields. -/
def lines (L : List (GoStr × GoStr)) : GoStr := L.flatMap fun e => e.1 ++ lit ": " ++ e.2 ++ lit "\r\n"

theorem lines_append (L L' : List (GoStr × GoStr)) : lines (L ++ L') = lines L ++ lines L' := by simp [lines]

theorem colon : lit ": " = [58, 32] := by decide
theorem crlf_lit : lit "\r\n" = [13, 10] := by decide

theorem fields_read (strict : Bool) (rest : GoStr) (L : List (GoStr × GoStr)) :
    ∀ fuel, L.length < fuel → (∀ e ∈ L, isName e.1 = true ∧ OneLine e.2) →
      fields strict fuel (lines L ++ 13 :: 10 :: rest) = some (L.map fun e => (e.1, strip e.2), rest) := by
  induction L with
  | nil =>
    intro fuel hf _
    obtain ⟨f, rfl⟩ : ∃ f, fuel = f + 1 := ⟨fuel - 1, by simp at hf; omega⟩
    have := line_crlf strict (a := []) (by simp [OneLine]) rest
    simp only [List.nil_append] at this
    simp [fields, lines, this]
  | cons e L ih =>
    intro fuel hf h
    obtain ⟨f, rfl⟩ : ∃ f, fuel = f + 1 := ⟨fuel - 1, by simp at hf; omega⟩
    obtain ⟨hn, hv⟩ := h e (by simp)
    have e1 : lines (e :: L) ++ 13 :: 10 :: rest = (e.1 ++ 58 :: 32 :: e.2) ++ 13 :: 10 :: (lines L ++ 13 :: 10 :: rest) := by
      simp [lines, colon, crlf_lit]
    have hl : OneLine (e.1 ++ 58 :: 32 :: e.2) := by
      refine ⟨?_, ?_⟩ <;> intro hm <;> simp only [List.mem_append, List.mem_cons] at hm <;> rcases hm with hm | hm | hm | hm
      · exact (name_char hn _ hm).2.1 rfl
      · exact absurd hm (by decide)
      · exact absurd hm (by decide)
      · exact hv.1 hm
      · exact (name_char hn _ hm).2.2 rfl
      · exact absurd hm (by decide)
      · exact absurd hm (by decide)
      · exact hv.2 hm
    rw [e1, fields, line_crlf strict hl]
    have hne : e.1 ++ 58 :: 32 :: e.2 ≠ [] := by simp
    simp only [Option.bind_eq_bind, Option.bind_some, if_neg hne, field_read hn]
    rw [ih f (by simp at hf; omega) fun x hx => h x (by simp [hx])]
    rfl

/-- The fields that `writeSubset` writes. -/
def entries (m : List (GoStr × List GoStr)) : List (GoStr × GoStr) :=
  (m.filter fun e => validName e.1).flatMap fun e => e.2.map fun v => (e.1, clean v)

theorem writeFields_lines (m : List (GoStr × List GoStr)) : writeFields m = lines (entries m) := by
  unfold writeFields lines entries
  rw [List.flatMap_assoc]
  congr 1
  funext e
  rw [List.flatMap_map]
  rfl

theorem entries_ok (m : List (GoStr × List GoStr)) : ∀ e ∈ entries m, isName e.1 = true ∧ OneLine e.2 := by
  intro e he
  unfold entries at he
  obtain ⟨x, hx, he⟩ := List.mem_flatMap.1 he
  obtain ⟨v, _, rfl⟩ := List.mem_map.1 he
  rw [List.mem_filter] at hx
  exact ⟨by rw [← validName_eq]; exact hx.2, clean_line v⟩

theorem entries_strip (m : List (GoStr × List GoStr)) : (entries m).map (fun e => (e.1, strip e.2)) = entries m := by
  unfold entries
  rw [List.map_flatMap]
  congr 1
  funext e
  simp [strip_clean]

/-! ### Chunks -/

theorem foldl_hex (s : GoStr) (d : Byte) (a : Option Nat) :
    (s ++ [d]).foldl (fun a c => do return 16 * (← a) + (← Spec.hexDigit c)) a =
      (do return 16 * (← s.foldl (fun a c => do return 16 * (← a) + (← Spec.hexDigit c)) a) + (← Spec.hexDigit d)) := by
  rw [List.foldl_append]; rfl

theorem digit16 : ∀ n, n < 16 → Spec.hexDigit (Nat.digitChar n).toNat.toUInt8 = some n ∧ (Nat.digitChar n).toNat.toUInt8 ∉ [9, 10, 13, 32, 59] := by
  decide +kernel

theorem hex_read (n : Nat) : hex n ≠ [] ∧ hexValue (hex n) = some n ∧ ∀ c ∈ hex n, c ∉ [9, 10, 13, 32, 59] := by
  induction n using Nat.strongRecOn with
  | _ n ih =>
    have hne : hex n ≠ [] := by
      unfold hex
      intro h
      have := Nat.toDigits_ne_nil (b := 16) (n := n)
      exact this (List.map_eq_nil_iff.1 h)
    refine ⟨hne, ?_, ?_⟩
    all_goals by_cases h16 : n < 16
    · have : hex n = [(Nat.digitChar n).toNat.toUInt8] := by
        unfold hex; rw [Nat.toDigits_of_lt_base h16]; rfl
      rw [this]
      simp [hexValue, (digit16 n h16).1]
    · have e : hex n = hex (n / 16) ++ [(Nat.digitChar (n % 16)).toNat.toUInt8] := by
        unfold hex
        rw [Nat.toDigits_eq_if (by omega), if_neg h16]
        simp
      obtain ⟨i1, i2, _⟩ := ih (n / 16) (by omega)
      unfold hexValue at i2 ⊢
      rw [if_neg i1] at i2
      rw [if_neg hne, e, foldl_hex, i2, (digit16 (n % 16) (by omega)).1]
      simp
      omega
    · have : hex n = [(Nat.digitChar n).toNat.toUInt8] := by
        unfold hex; rw [Nat.toDigits_of_lt_base h16]; rfl
      rw [this]
      intro c hc
      rw [List.mem_singleton.1 hc]
      exact (digit16 n h16).2
    · have e : hex n = hex (n / 16) ++ [(Nat.digitChar (n % 16)).toNat.toUInt8] := by
        unfold hex
        rw [Nat.toDigits_eq_if (by omega), if_neg h16]
        simp
      obtain ⟨_, _, i3⟩ := ih (n / 16) (by omega)
      rw [e]
      intro c hc
      rcases List.mem_append.1 hc with hc | hc
      · exact i3 c hc
      · rw [List.mem_singleton.1 hc]
        exact (digit16 (n % 16) (by omega)).2

theorem strip_id {s : GoStr} (h : ∀ c ∈ s, ows c = false) : strip s = s := by
  unfold strip
  have d : ∀ l : GoStr, (∀ c ∈ l, ows c = false) → l.dropWhile ows = l := by
    intro l hl
    cases l with
    | nil => rfl
    | cons a l => rw [List.dropWhile_cons, if_neg (by simp [hl a (by simp)])]
  rw [d s h, d _ (by simpa using h), List.reverse_reverse]

theorem takeWhile_all {α : Type} {p : α → Bool} {l : List α} (h : ∀ x ∈ l, p x = true) : l.takeWhile p = l := by
  induction l with
  | nil => rfl
  | cons a l ih => rw [List.takeWhile_cons, if_pos (h a (by simp)), ih fun x hx => h x (by simp [hx])]

theorem hex_line (n : Nat) : OneLine (hex n) ∧ hexValue (strip ((hex n).takeWhile (· ≠ 59))) = some n := by
  obtain ⟨_, h2, h3⟩ := hex_read n
  refine ⟨⟨fun h => by simpa using h3 _ h, fun h => by simpa using h3 _ h⟩, ?_⟩
  rw [takeWhile_all, strip_id, h2]
  · intro c hc
    have := h3 c hc
    simp only [List.mem_cons, List.not_mem_nil, or_false, not_or] at this
    simp [ows, this]
  · intro c hc
    have := h3 c hc
    simp only [List.mem_cons, List.not_mem_nil, or_false, not_or] at this
    simp [this]

theorem chunks_read (strict : Bool) (rest : GoStr) (T : List (GoStr × GoStr)) (hT : ∀ e ∈ T, isName e.1 = true ∧ OneLine e.2)
    (cs : List (List Byte)) :
    ∀ fuel, cs.length + T.length < fuel → (∀ p ∈ cs, p ≠ []) →
      chunks strict fuel (cs.flatMap writeChunk ++ (lit "0\r\n" ++ (lines T ++ 13 :: 10 :: rest))) = some (cs.flatten, rest) := by
  have e0 : lit "0\r\n" = [48, 13, 10] := by decide
  induction cs with
  | nil =>
    intro fuel hf _
    obtain ⟨f, rfl⟩ : ∃ f, fuel = f + 1 := ⟨fuel - 1, by simp at hf; omega⟩
    have hl := line_crlf strict (a := [48]) (by simp [OneLine]) (lines T ++ 13 :: 10 :: rest)
    simp only [List.cons_append, List.nil_append] at hl
    have h0 : hexValue (strip (List.takeWhile (fun c => decide (c ≠ (59 : Byte))) [48])) = some 0 := by decide
    simp only [chunks, List.flatMap_nil, List.nil_append, e0, List.cons_append, hl, Option.bind_eq_bind, Option.bind_some, h0, if_true]
    rw [fields_read strict rest T (f + 1) (by simp at hf; omega) hT]
    rfl
  | cons p cs ih =>
    intro fuel hf h
    obtain ⟨f, rfl⟩ : ∃ f, fuel = f + 1 := ⟨fuel - 1, by simp at hf; omega⟩
    have hp : p ≠ [] := h p (by simp)
    have hlen : p.length ≠ 0 := fun e => hp (List.length_eq_zero_iff.1 e)
    obtain ⟨h1, h2⟩ := hex_line p.length
    generalize hR : lit "0\r\n" ++ (lines T ++ 13 :: 10 :: rest) = R at ih ⊢
    have e1 : (p :: cs).flatMap writeChunk ++ R = hex p.length ++ 13 :: 10 :: (p ++ ([] ++ 13 :: 10 :: (cs.flatMap writeChunk ++ R))) := by
      simp [writeChunk, crlf_lit]
    rw [e1, chunks, line_crlf strict h1]
    simp only [Option.bind_eq_bind, Option.bind_some, h2, if_neg hlen]
    rw [if_neg (by simp)]
    rw [List.drop_left, line_crlf strict (by simp [OneLine])]
    simp only [Option.bind_some, ne_eq, not_true_eq_false, if_false]
    rw [ih f (by simp at hf; omega) fun x hx => h x (by simp [hx])]
    simp

/-! ### The status line -/

theorem code_digits : ∀ n : Fin 1000, 100 ≤ n.val → (itoa n.val).length = 3 ∧ Spec.natValue (itoa n.val) = some n.val ∧
    ∀ c ∈ itoa n.val, 48 ≤ c ∧ c ≤ 57 := by decide +kernel

theorem status_read {code : Int} (h1 : 100 ≤ code) (h2 : code ≤ 999) {reason : GoStr} (hr : OneLine reason) :
    OneLine (lit "HTTP/1.1 " ++ itoa code ++ lit " " ++ reason) ∧
    statusCode (lit "HTTP/1.1 " ++ itoa code ++ lit " " ++ reason) = some code.toNat := by
  obtain ⟨n, rfl⟩ : ∃ n : Nat, code = n := ⟨code.toNat, by omega⟩
  obtain ⟨a, b, c⟩ := code_digits ⟨n, by omega⟩ (by show 100 ≤ n; omega)
  dsimp only at a b c
  have hd : ∀ x ∈ itoa n, x ≠ 10 ∧ x ≠ 13 ∧ x ≠ 32 := by
    intro x hx
    have := c x hx
    refine ⟨?_, ?_, ?_⟩ <;> (rintro rfl; revert this; decide)
  constructor
  · refine ⟨?_, ?_⟩ <;> intro h <;> simp only [List.mem_append] at h <;> rcases h with ((h | h) | h) | h
    · revert h; decide
    · exact (hd _ h).1 rfl
    · revert h; decide
    · exact hr.1 h
    · revert h; decide
    · exact (hd _ h).2.1 rfl
    · revert h; decide
    · exact hr.2 h
  · have e1 : lit "HTTP/1.1 " ++ itoa n ++ lit " " ++ reason = lit "HTTP/1.1 " ++ (itoa n ++ (32 :: reason)) := by
      have : lit " " = [32] := by decide
      simp [this]
    have e9 : (lit "HTTP/1.1 ").length = 9 := by decide
    have et : (lit "HTTP/1.1 " ++ (itoa n ++ (32 :: reason))).take 9 = lit "HTTP/1.1 " := by
      rw [← e9, List.take_left]
    have ed : (lit "HTTP/1.1 " ++ (itoa n ++ (32 :: reason))).drop 9 = itoa n ++ (32 :: reason) := by
      rw [← e9, List.drop_left]
    have ew : (itoa n ++ (32 :: reason)).takeWhile (· ≠ 32) = itoa n :=
      takeWhile_stop _ _ _ _ (fun y hy => decide_eq_true (hd y hy).2.2) (by decide)
    unfold statusCode
    rw [e1, et, ed, ew, if_pos ⟨rfl, a⟩, b]
    rfl

/-! ### The values of a field -/

theorem mem_values {m : List (GoStr × List GoStr)} {name v : GoStr} :
    v ∈ valuesOf (entries m) name ↔ ∃ e ∈ m, validName e.1 = true ∧ Spec.lower e.1 = name ∧ ∃ u ∈ e.2, v = clean u := by
  unfold valuesOf entries
  simp only [List.mem_map, List.mem_filter, List.mem_flatMap, decide_eq_true_eq, Prod.exists]
  constructor
  · rintro ⟨k, x, ⟨⟨k', vs, ⟨hm, hv⟩, u, hu, hkx⟩, hl⟩, rfl⟩
    cases hkx
    exact ⟨k, vs, hm, hv, hl, u, hu, rfl⟩
  · rintro ⟨k, vs, hm, hv, hl, u, hu, rfl⟩
    exact ⟨k, clean u, ⟨⟨k, vs, ⟨hm, hv⟩, u, hu, rfl⟩, hl⟩, rfl⟩

theorem values_append (a b : List (GoStr × GoStr)) (n : GoStr) : valuesOf (a ++ b) n = valuesOf a n ++ valuesOf b n := by
  simp [valuesOf]

theorem named_append (a b : List (GoStr × GoStr)) (n : GoStr) : named (a ++ b) n = named a n ++ named b n := by
  simp [named]

theorem hdrGet_mem {m : List (GoStr × List GoStr)} (hn : (m.map Prod.fst).Nodup) {e : GoStr × List GoStr} (h : e ∈ m) : hdrGet m e.1 = e.2 := by
  induction m with
  | nil => cases h
  | cons a m ih =>
    rw [List.map_cons, List.nodup_cons] at hn
    unfold hdrGet at ih ⊢
    rw [List.find?_cons]
    rcases List.mem_cons.1 h with rfl | h
    · simp
    · have : a.1 ≠ e.1 := fun e' => hn.1 (e' ▸ List.mem_map_of_mem h)
      simp only [this, decide_false]
      exact ih hn.2 h

theorem hdrGet_none {m : List (GoStr × List GoStr)} {k : GoStr} (h : ∀ e ∈ m, e.1 ≠ k) : hdrGet m k = [] := by
  unfold hdrGet
  rw [List.find?_eq_none.2 (by simpa using h)]

theorem hdrGet_perm {m m' : List (GoStr × List GoStr)} (hp : m.Perm m') (hn : (m'.map Prod.fst).Nodup) (k : GoStr) : hdrGet m k = hdrGet m' k := by
  have hn' : (m.map Prod.fst).Nodup := (hp.map Prod.fst).nodup_iff.2 hn
  by_cases h : ∃ e ∈ m, e.1 = k
  · obtain ⟨e, he, rfl⟩ := h
    rw [hdrGet_mem hn' he, hdrGet_mem hn (hp.mem_iff.1 he)]
  · rw [hdrGet_none fun e he hk => h ⟨e, he, hk⟩, hdrGet_none fun e he hk => h ⟨e, hp.mem_iff.2 he, hk⟩]

theorem named_entries {m : List (GoStr × List GoStr)} (hn : (m.map Prod.fst).Nodup) (k : GoStr) :
    named (entries m) k = if isName k then (hdrGet m k).map cleaned else [] := by
  have hmap : ∀ l : List GoStr, l.map clean = l.map cleaned := fun l => by
    congr 1; funext v; exact clean_eq v
  have hs : ∀ (a : GoStr) (l : List GoStr), named (l.map fun v => (a, clean v)) k = if a = k then l.map cleaned else [] := by
    intro a l
    unfold named
    rw [List.filter_map, ← hmap]
    by_cases h : a = k
    · simp only [Function.comp_def, h, decide_true]
      rw [List.filter_eq_self.2 (by simp)]
      simp
    · simp [h, Function.comp_def]
  induction m with
  | nil => simp [entries, named, hdrGet]
  | cons e m ih =>
    rw [List.map_cons, List.nodup_cons] at hn
    have ec : entries (e :: m) = (if validName e.1 then e.2.map fun v => (e.1, clean v) else []) ++ entries m := by
      unfold entries
      by_cases h : validName e.1 = true
      · simp [h]
      · simp [h]
    rw [ec, named_append, ih hn.2]
    by_cases hk : e.1 = k
    · subst hk
      have h0 : hdrGet m e.1 = [] := hdrGet_none fun x hx hk => hn.1 (hk ▸ List.mem_map_of_mem hx)
      have h1 : hdrGet (e :: m) e.1 = e.2 := by simp [hdrGet]
      rw [h0, h1, validName_eq]
      by_cases hv : isName e.1 = true
      · simp only [hv, if_true, hs]; simp
      · simp [hv, named]
    · have h1 : hdrGet (e :: m) k = hdrGet m k := by simp [hdrGet, hk]
      rw [h1]
      by_cases hv : validName e.1 = true
      · simp only [hv, if_true, hs, if_neg hk, List.nil_append]
      · simp [hv, named]

end WireP
end Verif
