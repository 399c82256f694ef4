import Verif.Proofs.MimeGrammar
import Verif.Proofs.Strconv

/-! # Media types: values in other alphabets and in pieces -/

set_option autoImplicit false

namespace Verif
namespace Mime
open Spec.Media

/-! ## Numerals -/

theorem digitChar_byte (n : Nat) (h : n < 10) : (Nat.digitChar n).toNat.toUInt8 = (48 + n).toUInt8 := by
  have : ∀ n < 10, (Nat.digitChar n).toNat.toUInt8 = (48 + n).toUInt8 := by decide +kernel
  exact this n h

theorem digits_repr : ∀ (fuel n : Nat), n < fuel → digits fuel n = (Nat.toDigits 10 n).map fun c => c.toNat.toUInt8 := by
  intro fuel
  induction fuel with
  | zero => intro n h; omega
  | succ f ih =>
    intro n h
    rw [Nat.toDigits_eq_if (by decide), digits]
    split
    · rename_i h; simp [digitChar_byte n h]
    · rw [ih (n / 10) (by omega)]
      simp [digitChar_byte (n % 10) (by omega)]

theorem itoa_repr (n : Nat) : itoa n = lit (toString n) := by
  rw [itoa, if_neg (by omega), digits_repr _ _ (by simp), lit, Nat.toString_eq_repr, Nat.toList_repr]
  simp

theorem pieceName_eq (k : GoStr) (n : Nat) : k ++ lit "*" ++ itoa n = pieceName k n := by
  rw [pieceName, itoa_repr]

theorem pieceName_inj {k : GoStr} {m n : Nat} (h : pieceName k m = pieceName k n) : m = n := by
  rw [← pieceName_eq, ← pieceName_eq, List.append_cancel_left_eq] at h
  have := itoa_inj h
  omega

/-! ## Decoding -/

theorem unhex_iff (c : Byte) : (unhex c).map (·.toNat) = Spec.hexDigit c := by
  revert c; exact forall_byte (by decide +kernel)

theorem hex_small (c : Byte) : ∀ x, unhex c = some x → x.toNat < 16 := by
  revert c; exact forall_byte (by decide +kernel)

theorem join_small : ∀ x : Fin 16, ∀ y : Fin 16, (x.val.toUInt8 <<< 4 ||| y.val.toUInt8) = (16 * x.val + y.val).toUInt8 := by decide +kernel

theorem join_hex (x y : Byte) (hx : x.toNat < 16) (hy : y.toNat < 16) : (x <<< 4 ||| y) = (16 * x.toNat + y.toNat).toUInt8 := by
  have := join_small ⟨x.toNat, hx⟩ ⟨y.toNat, hy⟩
  simpa using this

theorem unescape_iff (s v : GoStr) : unescape s = some v ↔ Unescapes s v := by
  constructor
  · fun_induction unescape s generalizing v with
    | case1 => rintro ⟨⟩; exact .nil
    | case2 a b s x y h2 h1 ih =>
      intro h
      obtain ⟨w, hw, rfl⟩ := Option.map_eq_some_iff.1 h
      have e1 := unhex_iff a
      have e2 := unhex_iff b
      rw [h1] at e1
      rw [h2] at e2
      rw [join_hex x y (hex_small a x h1) (hex_small b y h2)]
      exact .code e1.symm e2.symm (ih w hw)
    | case3 => intro h; cases h
    | case4 => intro h; cases h
    | case5 c s hc ih =>
      intro h
      obtain ⟨w, hw, rfl⟩ := Option.map_eq_some_iff.1 h
      exact .plain hc (ih w hw)
  · intro h
    induction h with
    | nil => rfl
    | plain hc _ ih => rw [unescape_plain _ _ hc, ih]; rfl
    | @code a b x y s v h1 h2 _ ih =>
      have e1 := unhex_iff a
      have e2 := unhex_iff b
      rw [h1] at e1
      rw [h2] at e2
      obtain ⟨x', hx, rfl⟩ := Option.map_eq_some_iff.1 e1
      obtain ⟨y', hy, rfl⟩ := Option.map_eq_some_iff.1 e2
      rw [← join_hex x' y' (hex_small a x' hx) (hex_small b y' hy)]
      simp [unescape, hx, hy, ih]

theorem cut_quote (a : GoStr) (w : GoStr) (ha : 39 ∉ a) : (a ++ 39 :: w).takeWhile (· ≠ 39) = a ∧ (a ++ 39 :: w).dropWhile (· ≠ 39) = 39 :: w := by
  refine takeWhile_stop _ a 39 w (fun x hx => ?_) (by simp)
  simp only [decide_eq_true_eq]
  rintro rfl
  exact ha hx

theorem take_noQuote (v : GoStr) : 39 ∉ v.takeWhile (· ≠ 39) := by
  intro h
  have := List.all_takeWhile (p := fun c : Byte => decide (c ≠ 39)) (l := v)
  have := List.all_eq_true.1 this 39 h
  simp at this

theorem drop_quote {v w : GoStr} {c : Byte} (h : v.dropWhile (· ≠ 39) = c :: w) : c = 39 ∧ v = v.takeWhile (· ≠ 39) ++ 39 :: w := by
  have h1 := List.head?_dropWhile_not (fun c : Byte => decide (c ≠ 39)) v
  rw [h] at h1
  have hc : c = 39 := by simpa using h1
  refine ⟨hc, ?_⟩
  subst hc
  rw [← h, List.takeWhile_append_dropWhile]

theorem split_iff (v a x : GoStr) : splitQuotes v = some (a, x) ↔ ∃ l, v = a ++ lit "'" ++ l ++ lit "'" ++ x ∧ 39 ∉ a ∧ 39 ∉ l := by
  have hq : lit "'" = [39] := rfl
  rw [hq]
  constructor
  · intro h
    unfold splitQuotes at h
    split at h
    · cases h
    · rename_i c w h1
      split at h
      · cases h
      · rename_i d y h2
        simp only [Option.some.injEq, Prod.mk.injEq] at h
        obtain ⟨rfl, rfl⟩ := h
        obtain ⟨_, e1⟩ := drop_quote h1
        obtain ⟨_, e2⟩ := drop_quote h2
        refine ⟨w.takeWhile (· ≠ 39), ?_, take_noQuote v, take_noQuote w⟩
        simp only [List.append_assoc, List.cons_append, List.nil_append]
        rw [← e2]
        exact e1
  · rintro ⟨l, rfl, ha, hl⟩
    have e : a ++ [39] ++ l ++ [39] ++ x = a ++ 39 :: (l ++ 39 :: x) := by simp
    rw [e]
    obtain ⟨h1, h2⟩ := cut_quote a (l ++ 39 :: x) ha
    obtain ⟨_, h4⟩ := cut_quote l x hl
    simp only [splitQuotes, h1, h2, h4]

theorem lower_iff (s t : GoStr) (ht : ∀ c ∈ t, Vis c) : lower s = t ↔ Lowers s t := by
  constructor
  · rintro rfl; exact lowers_lower s
  · intro h
    have := lower_lowers h ht []
    simpa [lower] using this

theorem decode_iff (s v : GoStr) : decode2231 s = some v ↔ Decodes s v := by
  have k1 := fun a => lower_iff a (lit "us-ascii") (by decide)
  have k2 := fun a => lower_iff a (lit "utf-8") (by decide)
  constructor
  · intro h
    unfold decode2231 at h
    split at h
    · cases h
    · rename_i a x hs
      split at h
      · rename_i hc
        rw [k1, k2] at hc
        obtain ⟨l, h1, h2, h3⟩ := (split_iff _ _ _).1 hs
        exact ⟨a, l, x, h1, h2, h3, hc, (unescape_iff _ _).1 h⟩
      · cases h
  · rintro ⟨a, l, x, h1, h2, h3, hc, hu⟩
    rw [← k1, ← k2] at hc
    simp only [decode2231, (split_iff s a x).2 ⟨l, h1, h2, h3⟩, hc, if_true, (unescape_iff _ _).2 hu]

theorem getD_piece (o : Option GoStr) (P : GoStr → Prop) (h : ∀ v, o = some v ↔ P v) (v : GoStr) :
    o.getD [] = v ↔ P v ∨ (v = [] ∧ ∀ w, ¬ P w) := by
  cases o with
  | none =>
    simp only [Option.getD_none]
    constructor
    · rintro rfl
      exact .inr ⟨rfl, fun w hw => by cases (h w).2 hw⟩
    · rintro (hv | ⟨rfl, _⟩)
      · cases (h v).2 hv
      · rfl
  | some d =>
    simp only [Option.getD_some]
    constructor
    · rintro rfl
      exact .inl ((h d).1 rfl)
    · rintro (hv | ⟨_, hn⟩)
      · have := (h v).2 hv
        simpa using this
      · exact absurd ((h d).1 rfl) (hn d)

theorem piece_iff (n : Nat) (s v : GoStr) : (if n = 0 then (decode2231 s).getD [] else (unescape s).getD []) = v ↔ Piece n s v := by
  unfold Piece
  by_cases h : n = 0
  · simp only [h, if_true]
    exact getD_piece _ _ (fun w => decode_iff s w) v
  · simp only [h, if_false]
    exact getD_piece _ _ (fun w => unescape_iff s w) v

/-! ## Pieces -/

theorem pigeon {l m : List GoStr} (hl : l.Nodup) (h : ∀ x ∈ l, x ∈ m) : l.length ≤ m.length := by
  induction l generalizing m with
  | nil => simp
  | cons a l ih =>
    simp only [List.nodup_cons] at hl
    have ha := h a (by simp)
    have := ih (m := m.erase a) hl.2 fun x hx => (List.mem_erase_of_ne (by rintro rfl; exact hl.1 hx)).2 (h x (by simp [hx]))
    rw [List.length_erase_of_mem ha] at this
    have := List.length_pos_of_mem ha
    simp only [List.length_cons]
    omega

theorem named_iff (cs : PMap) (k : GoStr) : Named cs k ↔ k ∈ cs.map (·.1) := by
  simp [Named]

theorem digits_noStar (fuel n : Nat) : (42 : Byte) ∉ digits fuel n := by
  induction fuel generalizing n with
  | zero => simp [digits]
  | succ f ih =>
    have h10 : ∀ m < 10, (42 : Byte) ≠ (48 + m).toUInt8 := by decide
    rw [digits]
    split
    · rename_i h
      simpa using h10 n h
    · simp only [List.mem_append, List.mem_singleton, not_or]
      exact ⟨ih _, h10 _ (by omega)⟩

theorem itoa_noStar (n : Nat) : (42 : Byte) ∉ itoa n := by
  rw [itoa, if_neg (by omega)]
  exact digits_noStar _ _

/-- The name under which piece `n` is. -/
def usedName (cs : PMap) (k : GoStr) (n : Nat) : GoStr :=
  if pieceName k n ∈ cs.map (·.1) then pieceName k n else pieceName k n ++ lit "*"

theorem star_ne (k : GoStr) (m n : Nat) : pieceName k m ≠ pieceName k n ++ lit "*" := by
  intro h
  rw [← pieceName_eq, ← pieceName_eq, List.append_assoc _ (itoa n), List.append_cancel_left_eq] at h
  apply itoa_noStar m
  rw [h]
  simp [lit]

theorem usedName_inj {cs : PMap} {k : GoStr} {m n : Nat} (h : usedName cs k m = usedName cs k n) : m = n := by
  unfold usedName at h
  split at h <;> split at h
  · exact pieceName_inj h
  · exact absurd h (star_ne k m n)
  · exact absurd h.symm (star_ne k n m)
  · exact pieceName_inj (List.append_cancel_right h)

theorem used_bound {cs : PMap} {k : GoStr} (hs : ∀ m < cs.length, Named cs (pieceName k m) ∨ Named cs (pieceName k m ++ lit "*")) :
    ¬ (Named cs (pieceName k cs.length) ∨ Named cs (pieceName k cs.length ++ lit "*")) := by
  intro hc
  have hall : ∀ m < cs.length + 1, Named cs (pieceName k m) ∨ Named cs (pieceName k m ++ lit "*") := by
    intro m hm
    by_cases h : m = cs.length
    · rw [h]; exact hc
    · exact hs m (by omega)
  have hmem : ∀ m < cs.length + 1, usedName cs k m ∈ cs.map (·.1) := by
    intro m hm
    have := hall m hm
    rw [named_iff, named_iff] at this
    unfold usedName
    split
    · assumption
    · rename_i h
      exact this.resolve_left h
  have := pigeon (l := (List.range (cs.length + 1)).map (usedName cs k)) (m := cs.map (·.1)) ?_ ?_
  · simp at this
    omega
  · rw [List.nodup_iff_pairwise_ne, List.pairwise_map]
    exact (List.nodup_iff_pairwise_ne.1 List.nodup_range).imp fun h e => h (usedName_inj e)
  · intro x hx
    obtain ⟨m, hm, rfl⟩ := List.mem_map.1 hx
    exact hmem m (by simpa using hm)

theorem get_iff {m : PMap} (hn : (m.map (·.1)).Nodup) (k v : GoStr) : get m k = some v ↔ (k, v) ∈ m :=
  ⟨get_mem, get_some_of_mem hn⟩

theorem pieces_spec {cs : PMap} (hn : (cs.map (·.1)).Nodup) (k : GoStr) : ∀ (fuel n : Nat), n + fuel = cs.length →
    (∀ m < n, Named cs (pieceName k m) ∨ Named cs (pieceName k m ++ lit "*")) →
    Pieces cs k n ((pieces cs k fuel n).getD []) ∧
      ((pieces cs k fuel n).isSome = true ↔ Named cs (pieceName k n) ∨ Named cs (pieceName k n ++ lit "*")) := by
  intro fuel
  induction fuel with
  | zero =>
    intro n h hs
    have h : n = cs.length := by omega
    subst h
    have := used_bound hs
    refine ⟨.stop (fun h => this (.inl h)) (fun h => this (.inr h)), ?_⟩
    simp [pieces, this]
  | succ f ih =>
    intro n h hs
    rw [pieces, pieceName_eq]
    cases h1 : get cs (pieceName k n) with
    | some v =>
      have hm := get_mem h1
      have hN : Named cs (pieceName k n) := ⟨v, hm⟩
      obtain ⟨i1, _⟩ := ih (n + 1) (by omega) fun m hm => by
        by_cases e : m = n
        · rw [e]; exact .inl hN
        · exact hs m (by omega)
      simp only [Option.getD_some]
      exact ⟨.plain hm i1, by simp [hN]⟩
    | none =>
      have hN : ¬ Named cs (pieceName k n) := by rw [named_iff]; exact get_none.1 h1
      cases h2 : get cs (pieceName k n ++ lit "*") with
      | none =>
        have hN2 : ¬ Named cs (pieceName k n ++ lit "*") := by rw [named_iff]; exact get_none.1 h2
        exact ⟨.stop hN hN2, by simp [hN, hN2]⟩
      | some v =>
        have hm := get_mem h2
        have hN2 : Named cs (pieceName k n ++ lit "*") := ⟨v, hm⟩
        obtain ⟨i1, _⟩ := ih (n + 1) (by omega) fun m hm => by
          by_cases e : m = n
          · rw [e]; exact .inr hN2
          · exact hs m (by omega)
        simp only [Option.getD_some]
        exact ⟨.coded hN hm ((piece_iff n v _).1 rfl) i1, by simp [hN2]⟩

theorem entry_unique {m : PMap} (hn : (m.map (·.1)).Nodup) {k v w : GoStr} (hv : (k, v) ∈ m) (hw : (k, w) ∈ m) : v = w := by
  have := get_some_of_mem hn hv
  rw [get_some_of_mem hn hw] at this
  simpa using this.symm

theorem pieces_unique {cs : PMap} (hn : (cs.map (·.1)).Nodup) {k : GoStr} {n : Nat} {v : GoStr} (h : Pieces cs k n v) :
    ∀ w, Pieces cs k n w → v = w := by
  induction h with
  | stop h1 h2 =>
    intro w h
    cases h with
    | stop _ _ => rfl
    | plain hm _ => exact absurd ⟨_, hm⟩ h1
    | coded _ hm _ _ => exact absurd ⟨_, hm⟩ h2
  | plain hm _ ih =>
    intro w h
    cases h with
    | stop h1 h2 => exact absurd ⟨_, hm⟩ h1
    | plain hm' h' => rw [entry_unique hn hm hm', ih _ h']
    | coded h1 _ _ _ => exact absurd ⟨_, hm⟩ h1
  | coded hN hm hp _ ih =>
    intro w h
    cases h with
    | stop h1 h2 => exact absurd ⟨_, hm⟩ h2
    | plain hm' h' => exact absurd ⟨_, hm'⟩ hN
    | coded _ hm' hp' h' =>
      have := entry_unique hn hm hm'
      subst this
      rw [← (piece_iff _ _ _).2 hp, ← (piece_iff _ _ _).2 hp', ih _ h']

/-! ## One parameter -/

theorem get_put_self (m : PMap) (k v : GoStr) : get (put m k v) k = some v := by
  by_cases h : k ∈ m.map (·.1)
  · rw [put, if_pos ((get_isSome m k).2 h)]
    induction m with
    | nil => simp at h
    | cons e m ih =>
      by_cases he : e.1 = k
      · simp [get, he]
      · have h' : k ∈ m.map (·.1) := by
          simp only [List.map_cons, List.mem_cons] at h
          exact h.resolve_left (fun e' => he e'.symm)
        have := ih h'
        simp only [get, List.map_cons, he, if_false, List.find?_cons, decide_false] at this ⊢
        exact this
  · rw [put_new v h]
    have := get_none.2 h
    simp only [get, Option.map_eq_none_iff] at this
    simp [get, List.find?_append, this]

theorem find_put (k k' v : GoStr) (hk : k' ≠ k) (m : PMap) :
    get (m.map fun e => if e.1 = k then (k, v) else e) k' = get m k' := by
  induction m with
  | nil => rfl
  | cons e m ih =>
    by_cases he : e.1 = k
    · have h1 : e.1 ≠ k' := fun h => hk (h.symm.trans he)
      simp only [get, List.map_cons, he, if_true, List.find?_cons, hk.symm, decide_false] at ih ⊢
      exact ih
    · by_cases h1 : e.1 = k'
      · subst h1
        simp [get, hk]
      · simp only [get, List.map_cons, he, if_false, List.find?_cons, h1, decide_false] at ih ⊢
        exact ih

theorem get_put_other (m : PMap) {k k' : GoStr} (v : GoStr) (hk : k' ≠ k) : get (put m k v) k' = get m k' := by
  unfold put
  split
  · exact find_put k k' v hk m
  · simp [get, List.find?_append, List.find?_cons, hk.symm]

/-- What becomes of a parameter. -/
def value (cs : PMap) (k : GoStr) (o : Option GoStr) : Option GoStr :=
  match get cs (k ++ lit "*") with
  | some s => (decode2231 s).or o
  | none => (pieces cs k cs.length 0).or o

theorem get_stitch (cs ps : PMap) (b k : GoStr) : get (stitch cs ps b) k = if k = b then value cs k (get ps k) else get ps k := by
  by_cases h : k = b
  · subst h
    rw [if_pos rfl]
    unfold stitch value
    cases get cs (k ++ lit "*") with
    | some s =>
      dsimp only
      cases decode2231 s with
      | some d => simp [get_put_self]
      | none => simp
    | none =>
      dsimp only
      cases pieces cs k cs.length 0 with
      | some d => simp [get_put_self]
      | none => simp
  · rw [if_neg h]
    unfold stitch
    split <;> split <;> first | rfl | exact get_put_other ps _ h

theorem value_idem (cs : PMap) (k : GoStr) (o : Option GoStr) : value cs k (value cs k o) = value cs k o := by
  unfold value
  cases get cs (k ++ lit "*") with
  | some s =>
    dsimp only
    cases decode2231 s <;> simp
  | none =>
    dsimp only
    cases pieces cs k cs.length 0 <;> simp

theorem get_stitches (cs : PMap) (bs : List GoStr) (k : GoStr) : ∀ ps, get (bs.foldl (stitch cs) ps) k = if k ∈ bs then value cs k (get ps k) else get ps k := by
  induction bs with
  | nil => intro ps; simp
  | cons b bs ih =>
    intro ps
    rw [List.foldl_cons, ih, get_stitch]
    by_cases h1 : k = b
    · subst h1
      by_cases h2 : k ∈ bs <;> simp [h2, value_idem]
    · by_cases h2 : k ∈ bs <;> simp [h1, h2]

theorem star_cut (k w : GoStr) (h : 42 ∉ k) : (k ++ 42 :: w).takeWhile (· ≠ 42) = k := by
  refine (takeWhile_stop _ k 42 w (fun x hx => ?_) (by simp)).1
  simp only [decide_eq_true_eq]
  rintro rfl
  exact h hx

theorem mem_once (l : List GoStr) (x : GoStr) (h : x ∈ l) : x ∈ once l := by
  induction l with
  | nil => cases h
  | cons a l ih =>
    simp only [once, List.mem_cons, List.mem_filter, decide_eq_true_eq]
    by_cases hx : x = a
    · exact .inl hx
    · exact .inr ⟨ih ((List.mem_cons.1 h).resolve_left hx), by simpa using hx⟩

theorem base_mem (cs : PMap) (k w : GoStr) (hk : 42 ∉ k) (h : k ++ 42 :: w ∈ cs.map (·.1)) : k ∈ bases cs := by
  obtain ⟨e, he, h1⟩ := List.mem_map.1 h
  refine mem_once _ _ (List.mem_map.2 ⟨e, he, ?_⟩)
  rw [h1]
  exact star_cut k w hk

theorem star_in (k w : GoStr) : 42 ∈ k ++ 42 :: w := by simp

theorem pieceName_star (k : GoStr) (n : Nat) : ∃ w, pieceName k n = k ++ 42 :: w := ⟨lit (toString n), by simp [pieceName, lit]⟩

theorem pieceName_star2 (k : GoStr) (n : Nat) : ∃ w, pieceName k n ++ lit "*" = k ++ 42 :: w := ⟨lit (toString n) ++ lit "*", by simp [pieceName, lit]⟩

/-- What is read for each name. -/
theorem get_final (cs ps : PMap) (k : GoStr) (hk : 42 ∉ k) (hn : (cs.map (·.1)).Nodup) :
    get ((bases cs).foldl (stitch cs) ps) k = value cs k (get ps k) := by
  rw [get_stitches]
  split
  · rfl
  · rename_i hb
    have h1 : get cs (k ++ lit "*") = none := by
      rw [get_none]
      exact fun h => hb (base_mem cs k [] hk h)
    have h2 : pieces cs k cs.length 0 = none := by
      have := (pieces_spec hn k cs.length 0 (by omega) (by simp)).2
      cases hp : pieces cs k cs.length 0 with
      | none => rfl
      | some d =>
        rw [hp] at this
        have := this.1 rfl
        rw [named_iff, named_iff] at this
        rcases this with h | h
        · obtain ⟨w, e⟩ := pieceName_star k 0
          rw [e] at h
          exact absurd (base_mem cs k w hk h) hb
        · obtain ⟨w, e⟩ := pieceName_star2 k 0
          rw [e] at h
          exact absurd (base_mem cs k w hk h) hb
    rw [value, h1, h2]
    rfl

/-! ## The parameters -/

theorem mem_starred (raw : PMap) (k v : GoStr) (hk : 42 ∈ k) : (k, v) ∈ starred raw ↔ (k, v) ∈ raw := by
  simp [starred, hk]

theorem mem_plain (raw : PMap) (k v : GoStr) : (k, v) ∈ plain raw ↔ (k, v) ∈ raw ∧ 42 ∉ k := by
  simp [plain]

theorem named_starred (raw : PMap) (k : GoStr) (hk : 42 ∈ k) : Named (starred raw) k ↔ Named raw k := by
  simp only [Named, mem_starred raw k _ hk]

theorem star_piece (k : GoStr) (n : Nat) : 42 ∈ pieceName k n := by
  obtain ⟨w, e⟩ := pieceName_star k n
  rw [e]
  exact star_in k w

theorem star_piece2 (k : GoStr) (n : Nat) : 42 ∈ pieceName k n ++ lit "*" := by
  obtain ⟨w, e⟩ := pieceName_star2 k n
  rw [e]
  exact star_in k w

theorem pieces_starred {raw : PMap} {k : GoStr} {n : Nat} {v : GoStr} (h : Pieces raw k n v) : Pieces (starred raw) k n v := by
  induction h with
  | stop h1 h2 => exact .stop (by rwa [named_starred _ _ (star_piece k _)]) (by rwa [named_starred _ _ (star_piece2 k _)])
  | plain hm _ ih => exact .plain ((mem_starred _ _ _ (star_piece k _)).2 hm) ih
  | coded hN hm hp _ ih =>
    exact .coded (by rwa [named_starred _ _ (star_piece k _)]) ((mem_starred _ _ _ (star_piece2 k _)).2 hm) hp ih

theorem starred_pieces {raw : PMap} {k : GoStr} {n : Nat} {v : GoStr} (h : Pieces (starred raw) k n v) : Pieces raw k n v := by
  induction h with
  | stop h1 h2 => exact .stop (by rwa [named_starred _ _ (star_piece k _)] at h1) (by rwa [named_starred _ _ (star_piece2 k _)] at h2)
  | plain hm _ ih => exact .plain ((mem_starred _ _ _ (star_piece k _)).1 hm) ih
  | coded hN hm hp _ ih =>
    exact .coded (by rwa [named_starred _ _ (star_piece k _)] at hN) ((mem_starred _ _ _ (star_piece2 k _)).1 hm) hp ih

theorem distinct_iff (ps : PMap) : Distinct ps ↔ (ps.map (·.1)).Nodup := by
  rw [Distinct, List.nodup_iff_pairwise_ne, List.pairwise_map]

theorem distinct_filter {raw : PMap} (h : Distinct raw) (p : GoStr × GoStr → Bool) : ((raw.filter p).map (·.1)).Nodup := by
  rw [← distinct_iff]
  exact List.Pairwise.filter p h

theorem has_iff {raw : PMap} (hd : Distinct raw) (k x : GoStr) (hk : 42 ∉ k) :
    get ((bases (starred raw)).foldl (stitch (starred raw)) (plain raw)) k = some x ↔ Has raw k x := by
  have hn : ((starred raw).map (·.1)).Nodup := distinct_filter hd _
  have hpn : ((plain raw).map (·.1)).Nodup := distinct_filter hd _
  have hrn := (distinct_iff raw).1 hd
  have s1 : 42 ∈ k ++ lit "*" := star_in k []
  rw [get_final _ _ k hk hn, value]
  have hplain : ∀ v, get (plain raw) k = some v ↔ (k, v) ∈ raw := fun v => by
    rw [get_iff hpn, mem_plain]
    exact ⟨fun h => h.1, fun h => ⟨h, hk⟩⟩
  cases h1 : get (starred raw) (k ++ lit "*") with
  | some s =>
    have hm := (mem_starred raw _ _ s1).1 (get_mem h1)
    have hnot : ¬ InPieces raw k := fun h => h.1 ⟨s, hm⟩
    have hu : ∀ s', (k ++ lit "*", s') ∈ raw → s' = s := fun s' h => entry_unique hrn h hm
    dsimp only
    cases h2 : decode2231 s with
    | some d =>
      have hdec := (decode_iff s d).1 h2
      simp only [Option.some_or, Option.some.injEq]
      constructor
      · rintro rfl; exact .coded hm hdec
      · rintro (⟨h, h'⟩ | ⟨h, _⟩ | ⟨_, h, _⟩)
        · rw [hu _ h, ← decode_iff, h2] at h'
          simpa using h'
        · exact absurd h hnot
        · exact absurd hdec (h s d hm)
    | none =>
      simp only [Option.none_or, hplain]
      constructor
      · intro h
        refine .plain h (fun s' w hs' => ?_) hnot
        rw [hu s' hs', ← decode_iff, h2]
        simp
      · rintro (⟨h, h'⟩ | ⟨h, _⟩ | ⟨h, _, _⟩)
        · rw [hu _ h, ← decode_iff, h2] at h'
          cases h'
        · exact absurd h hnot
        · exact h
  | none =>
    have hN : ¬ Named raw (k ++ lit "*") := by
      rw [← named_starred raw _ s1, named_iff]
      exact get_none.1 h1
    obtain ⟨p1, p2⟩ := pieces_spec hn k (starred raw).length 0 (by omega) (by simp)
    rw [named_starred raw _ (star_piece k 0), named_starred raw _ (star_piece2 k 0)] at p2
    dsimp only
    cases h2 : pieces (starred raw) k (starred raw).length 0 with
    | some d =>
      rw [h2] at p1 p2
      have hin : InPieces raw k := ⟨hN, p2.1 rfl⟩
      simp only [Option.some_or, Option.some.injEq]
      constructor
      · rintro rfl; exact .pieces hin (starred_pieces p1)
      · rintro (⟨h, h'⟩ | ⟨_, h⟩ | ⟨_, _, h⟩)
        · exact absurd ⟨_, h⟩ hN
        · exact pieces_unique hn p1 _ (pieces_starred h)
        · exact absurd hin h
    | none =>
      rw [h2] at p2
      have hnot : ¬ InPieces raw k := fun h => by cases p2.2 h.2
      simp only [Option.none_or, hplain]
      constructor
      · intro h
        exact .plain h (fun s' w hs' => absurd ⟨_, hs'⟩ hN) hnot
      · rintro (⟨h, h'⟩ | ⟨h, _⟩ | ⟨h, _, _⟩)
        · exact absurd ⟨_, h⟩ hN
        · exact absurd h hnot
        · exact h

/-- What `parse` reads is what the string means. -/
theorem parse_means {v t : GoStr} {ps : PMap} (h : parse v = some (t, ps)) : Means v t fun k x => (k, x) ∈ ps := by
  have hg := (parse_good h).2
  obtain ⟨raw, semi, hr, hd, e⟩ := (parse_iff v t ps).1 h
  refine ⟨raw, semi, hr, hd, fun k x => ?_⟩
  have hkey : (k, x) ∈ ps → 42 ∉ k := fun hm => (hg.2 k (List.mem_map.2 ⟨_, hm, rfl⟩)).2
  cases semi with
  | true =>
    simp only [if_true] at e ⊢
    rw [e, mem_plain]
    exact And.comm
  | false =>
    simp only [Bool.false_eq_true, if_false] at e ⊢
    constructor
    · intro hm
      refine ⟨hkey hm, (has_iff hd k x (hkey hm)).1 ?_⟩
      rw [← e, get_iff hg.1]
      exact hm
    · rintro ⟨hk, hm⟩
      rw [← get_iff hg.1, e]
      exact (has_iff hd k x hk).2 hm

/-- What a string means is what `parse` reads. -/
theorem means_parse {v t : GoStr} {M : GoStr → GoStr → Prop} (h : Means v t M) :
    ∃ ps, parse v = some (t, ps) ∧ ∀ k x, M k x ↔ (k, x) ∈ ps := by
  obtain ⟨raw, semi, hr, hd, hM⟩ := h
  have hp := (parse_iff v t _).2 ⟨raw, semi, hr, hd, rfl⟩
  refine ⟨_, hp, fun k x => ?_⟩
  have hg := (parse_good hp).2
  rw [hM]
  cases semi with
  | true =>
    simp only [if_true]
    rw [mem_plain]
    exact And.comm
  | false =>
    simp only [Bool.false_eq_true, if_false] at hg ⊢
    constructor
    · rintro ⟨hk, hm⟩
      rw [← get_iff hg.1]
      exact (has_iff hd k x hk).2 hm
    · intro hm
      have hk := (hg.2 k (List.mem_map.2 ⟨_, hm, rfl⟩)).2
      refine ⟨hk, (has_iff hd k x hk).1 ?_⟩
      rw [get_iff hg.1]
      exact hm

end Mime
end Verif
