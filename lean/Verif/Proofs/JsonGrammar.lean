import Verif.Model.Json
import Verif.Proofs.Text
import Verif.Spec.JsonText

/-!
# The scanner of `encoding/json` accepts exactly the texts of the grammar
-/

set_option autoImplicit false

namespace Verif.Json
open Spec.Json (Ws Digs IsInt IsFrac IsExp IsNumber Hexdig IsChars IsValue IsElements IsMembers IsText)

/-- The scanner finds no error in these bytes, and is content when they end. -/
def Scan.acc : Scan → GoStr → Bool
  | s, [] => s.eof
  | s, c :: t => decide ((s.next c).2 ≠ .error) && (s.next c).1.acc t

/-- … after a step -/
def accr (r : Scan × Code) (t : GoStr) : Bool := decide (r.2 ≠ .error) && r.1.acc t

theorem acc_cons (s : Scan) (c : Byte) (t : GoStr) : s.acc (c :: t) = accr (s.next c) t := rfl

/-- An inner state. -/
abbrev S (st : St) (ps : List Ps) : Scan := ⟨st, ps, false⟩

theorem isSpace_iff (c : Byte) : isSpace c = true ↔ c = 32 ∨ c = 9 ∨ c = 10 ∨ c = 13 := by
  unfold isSpace; simp only [Bool.or_eq_true, decide_eq_true_eq, or_assoc]
  constructor <;> rintro (h | h | h | h) <;> simp [h]

theorem ws_nil : Ws [] := by intro b hb; cases hb

theorem ws_cons {c : Byte} {w : GoStr} : Ws (c :: w) ↔ isSpace c = true ∧ Ws w := by
  rw [isSpace_iff]
  constructor
  · intro h; exact ⟨h c (by simp), fun b hb => h b (by simp [hb])⟩
  · rintro ⟨h, h'⟩ b hb
    rcases List.mem_cons.1 hb with rfl | hb
    · exact h
    · exact h' b hb

theorem acc_top (t : GoStr) : Scan.acc ⟨.endTop, [], true⟩ t = true ↔ Ws t := by
  induction t with
  | nil => exact ⟨fun _ => ws_nil, fun _ => rfl⟩
  | cons c t ih =>
    rw [acc_cons, ws_cons]
    show (decide ((if isSpace c then Code.end else .error) ≠ .error) && Scan.acc ⟨.endTop, [], true⟩ t) = true ↔ _
    cases hc : isSpace c
    · simp
    · simp [ih]

theorem acc_end_top (t : GoStr) : (S .endValue []).acc t = true ↔ Ws t := by
  cases t with
  | nil => exact ⟨fun _ => ws_nil, fun _ => rfl⟩
  | cons c t =>
    rw [acc_cons, ws_cons]
    show (decide ((if isSpace c then Code.end else .error) ≠ .error) && Scan.acc ⟨.endTop, [], true⟩ t) = true ↔ _
    cases hc : isSpace c
    · simp
    · simp [acc_top]

/-- After a closing bracket the scanner goes on as after any value. -/
theorem acc_pop (st : St) (p : Ps) (ps : List Ps) (t : GoStr) : (Scan.pop (S st (p :: ps))).acc t = (S .endValue ps).acc t := by
  cases ps with
  | nil => exact Bool.eq_iff_iff.2 ((acc_top t).trans (acc_end_top t).symm)
  | cons q ps => rfl

/-- What may follow a value. -/
theorem accr_end_same (st st' : St) (ps : List Ps) (c : Byte) (t : GoStr) : accr (stateEndValue (S st ps) c) t = accr (stateEndValue (S st' ps) c) t := by
  cases ps with
  | nil => rfl
  | cons p ps =>
    unfold stateEndValue
    simp only
    by_cases hs : isSpace c = true
    · rw [if_pos hs, if_pos hs]
    · rw [if_neg hs, if_neg hs]
      cases p <;> simp only
      · by_cases h : c = 58
        · rw [if_pos h, if_pos h]
        · rw [if_neg h, if_neg h]; rfl
      · by_cases h : c = 44
        · rw [if_pos h, if_pos h]
        · rw [if_neg h, if_neg h]
          by_cases h : c = 125
          · rw [if_pos h, if_pos h]; simp only [accr, acc_pop]
          · rw [if_neg h, if_neg h]; rfl
      · by_cases h : c = 44
        · rw [if_pos h, if_pos h]
        · rw [if_neg h, if_neg h]
          by_cases h : c = 93
          · rw [if_pos h, if_pos h]; simp only [accr, acc_pop]
          · rw [if_neg h, if_neg h]; rfl

def ender (c : Byte) : Bool := isSpace c || c = 44 || c = 58 || c = 125 || c = 93

theorem end_first {s : Scan} {c : Byte} {t : GoStr} (h : accr (stateEndValue s c) t = true) : ender c = true := by
  unfold stateEndValue at h
  unfold ender
  cases hs : isSpace c
  · split at h
    · simp [stateEndTop, accr, hs] at h
    · rw [hs] at h
      simp only [Bool.false_eq_true, if_false] at h
      split at h
      · split at h
        · simp [*]
        · simp [accr] at h
      · split at h
        · simp [*]
        · split at h
          · simp [*]
          · simp [accr] at h
      · split at h
        · simp [*]
        · split at h
          · simp [*]
          · simp [accr] at h
  · rfl

/-! ## Numbers -/

theorem digit_iff (c : Byte) : digit c = true ↔ 48 ≤ c.toNat ∧ c.toNat ≤ 57 := by
  unfold digit
  simp only [Bool.and_eq_true, decide_eq_true_eq, UInt8.le_iff_toNat_le]; rfl

theorem digs_nil : Digs [] := by intro b hb; cases hb

theorem digs_cons {c : Byte} {d : GoStr} : Digs (c :: d) ↔ digit c = true ∧ Digs d := by
  rw [digit_iff]
  constructor
  · intro h; exact ⟨h c (by simp), fun b hb => h b (by simp [hb])⟩
  · rintro ⟨h, h'⟩ b hb
    rcases List.mem_cons.1 hb with rfl | hb
    · exact h
    · exact h' b hb

theorem ender_not {c : Byte} (h : ender c = true) : digit c = false ∧ c ≠ 101 ∧ c ≠ 69 ∧ c ≠ 46 := by
  revert h
  exact forall_byte (P := fun c => ender c = true → digit c = false ∧ c ≠ 101 ∧ c ≠ 69 ∧ c ≠ 46) (by decide +kernel) c

theorem acc_e0 (ps : List Ps) (t : GoStr) : (S .e0 ps).acc t = true ↔ ∃ d r, t = d ++ r ∧ Digs d ∧ (S .endValue ps).acc r = true := by
  induction t with
  | nil =>
    constructor
    · intro h; exact ⟨[], [], rfl, digs_nil, by cases ps <;> exact h⟩
    · rintro ⟨d, r, h, _, hr⟩
      obtain ⟨rfl, rfl⟩ := List.append_eq_nil_iff.1 h.symm
      cases ps <;> exact hr
  | cons c t ih =>
    have hn : (S .e0 ps).next c = if digit c then (S .e0 ps, .continue) else stateEndValue (S .e0 ps) c := rfl
    rw [acc_cons, hn]
    by_cases hd : digit c = true
    · rw [if_pos hd]
      show (true && (S .e0 ps).acc t) = true ↔ _
      rw [Bool.true_and, ih]
      constructor
      · rintro ⟨d, r, rfl, h1, h2⟩; exact ⟨c :: d, r, rfl, digs_cons.2 ⟨hd, h1⟩, h2⟩
      · rintro ⟨d, r, h, h1, h2⟩
        cases d with
        | nil =>
          rw [← (show c :: t = r from h), acc_cons] at h2
          rw [(ender_not (end_first h2)).1] at hd; cases hd
        | cons b d =>
          obtain ⟨rfl, rfl⟩ := List.cons.inj h
          exact ⟨d, r, rfl, (digs_cons.1 h1).2, h2⟩
    · rw [if_neg hd, accr_end_same .e0 .endValue]
      constructor
      · intro h; exact ⟨[], c :: t, rfl, digs_nil, h⟩
      · rintro ⟨d, r, h, h1, h2⟩
        cases d with
        | nil => rw [← (show c :: t = r from h)] at h2; exact h2
        | cons b d =>
          obtain ⟨rfl, rfl⟩ := List.cons.inj h
          exact absurd (digs_cons.1 h1).1 hd

theorem accr_digits (ps : List Ps) (c : Byte) (t : GoStr) (s : Scan) : accr (if digit c then (S .e0 ps, .continue) else (s, .error)) t = true ↔
    ∃ d r, c :: t = d ++ r ∧ Digs d ∧ d ≠ [] ∧ (S .endValue ps).acc r = true := by
  by_cases hd : digit c = true
  · rw [if_pos hd]
    show (true && (S .e0 ps).acc t) = true ↔ _
    rw [Bool.true_and, acc_e0]
    constructor
    · rintro ⟨d, r, rfl, h1, h2⟩; exact ⟨c :: d, r, rfl, digs_cons.2 ⟨hd, h1⟩, by simp, h2⟩
    · rintro ⟨d, r, h, h1, h3, h2⟩
      cases d with
      | nil => exact absurd rfl h3
      | cons b d =>
        obtain ⟨rfl, rfl⟩ := List.cons.inj h
        exact ⟨d, r, rfl, (digs_cons.1 h1).2, h2⟩
  · rw [if_neg hd]
    constructor
    · intro h; simp [accr] at h
    · rintro ⟨d, r, h, h1, h3, h2⟩
      cases d with
      | nil => exact absurd rfl h3
      | cons b d =>
        obtain ⟨rfl, rfl⟩ := List.cons.inj h
        exact absurd (digs_cons.1 h1).1 hd

theorem acc_eSign (ps : List Ps) (t : GoStr) : (S .eSign ps).acc t = true ↔ ∃ d r, t = d ++ r ∧ Digs d ∧ d ≠ [] ∧ (S .endValue ps).acc r = true := by
  cases t with
  | nil =>
    constructor
    · intro h; cases ps <;> cases h
    · rintro ⟨d, r, h, _, h3, _⟩; exact absurd (List.append_eq_nil_iff.1 h.symm).1 h3
  | cons c t => exact accr_digits ps c t (S .eSign ps)

theorem acc_e (ps : List Ps) (t : GoStr) : (S .e ps).acc t = true ↔
    ∃ s d r, t = s ++ d ++ r ∧ (s = [] ∨ s = [43] ∨ s = [45]) ∧ Digs d ∧ d ≠ [] ∧ (S .endValue ps).acc r = true := by
  cases t with
  | nil =>
    constructor
    · intro h; cases ps <;> cases h
    · rintro ⟨s, d, r, h, _, _, h3, _⟩
      exact absurd (List.append_eq_nil_iff.1 (List.append_eq_nil_iff.1 h.symm).1).2 h3
  | cons c t =>
    have hn : (S .e ps).next c = if c = 43 ∨ c = 45 then (S .eSign ps, .continue) else (if digit c then (S .e0 ps, .continue) else (S .e ps, .error)) := rfl
    rw [acc_cons, hn]
    by_cases hs : c = 43 ∨ c = 45
    · rw [if_pos hs]
      show (true && (S .eSign ps).acc t) = true ↔ _
      rw [Bool.true_and, acc_eSign]
      constructor
      · rintro ⟨d, r, rfl, h1, h3, h2⟩; exact ⟨[c], d, r, rfl, by rcases hs with rfl | rfl <;> simp, h1, h3, h2⟩
      · rintro ⟨s, d, r, h, hs', h1, h3, h2⟩
        rcases hs' with rfl | rfl | rfl
        · cases d with
          | nil => exact absurd rfl h3
          | cons b d =>
            obtain ⟨rfl, rfl⟩ := List.cons.inj h
            have := (digs_cons.1 h1).1
            rcases hs with rfl | rfl <;> cases this
        all_goals
          obtain ⟨_, rfl⟩ := List.cons.inj h
          exact ⟨d, r, by simp, h1, h3, h2⟩
    · rw [if_neg hs, accr_digits]
      constructor
      · rintro ⟨d, r, h, h1, h3, h2⟩; exact ⟨[], d, r, h, .inl rfl, h1, h3, h2⟩
      · rintro ⟨s, d, r, h, hs', h1, h3, h2⟩
        rcases hs' with rfl | rfl | rfl
        · exact ⟨d, r, h, h1, h3, h2⟩
        all_goals
          obtain ⟨rfl, _⟩ := List.cons.inj h
          exact absurd (by simp) hs

/-- The end of a number: a place where an exponent may begin. -/
theorem acc_exp (ps : List Ps) {st : St} (h0 : (S st ps).acc [] = (S .endValue ps).acc []) (t : GoStr)
    (hn : ∀ c t', t = c :: t' → accr ((S st ps).next c) t' = accr (if c = 101 ∨ c = 69 then (S .e ps, .continue) else stateEndValue (S st ps) c) t') :
    (S st ps).acc t = true ↔ ∃ x r, t = x ++ r ∧ IsExp x ∧ (S .endValue ps).acc r = true := by
  cases t with
  | nil =>
    rw [h0]
    constructor
    · intro h; exact ⟨[], [], rfl, .no, h⟩
    · rintro ⟨x, r, h, _, hr⟩
      obtain ⟨rfl, rfl⟩ := List.append_eq_nil_iff.1 h.symm
      exact hr
  | cons c t =>
    rw [acc_cons, hn c t rfl]
    by_cases he : c = 101 ∨ c = 69
    · rw [if_pos he]
      show (true && (S .e ps).acc t) = true ↔ _
      rw [Bool.true_and, acc_e]
      constructor
      · rintro ⟨s, d, r, rfl, h1, h2, h3, h4⟩
        exact ⟨c :: (s ++ d), r, rfl, .yes he h1 h2 h3, h4⟩
      · rintro ⟨x, r, h, hx, hr⟩
        cases hx with
        | no =>
          rw [← (show c :: t = r from h), acc_cons] at hr
          have := ender_not (end_first hr)
          rcases he with rfl | rfl
          · exact absurd rfl this.2.1
          · exact absurd rfl this.2.2.1
        | @yes e s d h1 h2 h3 h4 =>
          obtain ⟨rfl, rfl⟩ := List.cons.inj h
          exact ⟨s, d, r, rfl, h2, h3, h4, hr⟩
    · rw [if_neg he, accr_end_same st .endValue]
      constructor
      · intro h; exact ⟨[], c :: t, rfl, .no, h⟩
      · rintro ⟨x, r, h, hx, hr⟩
        cases hx with
        | no => rw [← (show c :: t = r from h)] at hr; exact hr
        | yes h1 h2 h3 h4 =>
          obtain ⟨rfl, _⟩ := List.cons.inj h
          exact absurd h1 he

theorem acc_dot0 (ps : List Ps) (t : GoStr) : (S .dot0 ps).acc t = true ↔ ∃ d x r, t = d ++ x ++ r ∧ Digs d ∧ IsExp x ∧ (S .endValue ps).acc r = true := by
  induction t with
  | nil =>
    constructor
    · intro h; exact ⟨[], [], [], rfl, digs_nil, .no, by cases ps <;> exact h⟩
    · rintro ⟨d, x, r, h, _, _, hr⟩
      obtain ⟨h', rfl⟩ := List.append_eq_nil_iff.1 h.symm
      cases ps <;> exact hr
  | cons c t ih =>
    have hn : (S .dot0 ps).next c = if digit c then (S .dot0 ps, .continue) else if c = 101 ∨ c = 69 then (S .e ps, .continue) else stateEndValue (S .dot0 ps) c := rfl
    by_cases hd : digit c = true
    · rw [acc_cons, hn, if_pos hd]
      show (true && (S .dot0 ps).acc t) = true ↔ _
      rw [Bool.true_and, ih]
      constructor
      · rintro ⟨d, x, r, rfl, h1, h2⟩; exact ⟨c :: d, x, r, rfl, digs_cons.2 ⟨hd, h1⟩, h2⟩
      · rintro ⟨d, x, r, h, h1, h2, h3⟩
        cases d with
        | nil =>
          exfalso
          cases h2 with
          | no =>
            rw [← (show c :: t = r from h), acc_cons] at h3
            rw [(ender_not (end_first h3)).1] at hd; cases hd
          | yes h4 =>
            obtain ⟨rfl, _⟩ := List.cons.inj h
            rcases h4 with rfl | rfl <;> cases hd
        | cons b d =>
          obtain ⟨rfl, rfl⟩ := List.cons.inj h
          exact ⟨d, x, r, rfl, (digs_cons.1 h1).2, h2, h3⟩
    · rw [acc_exp ps (st := .dot0) (by cases ps <;> rfl) (c :: t) (by rintro c' t' h; obtain ⟨rfl, rfl⟩ := List.cons.inj h; rw [hn, if_neg hd])]
      constructor
      · rintro ⟨x, r, h, h1, h2⟩; exact ⟨[], x, r, h, digs_nil, h1, h2⟩
      · rintro ⟨d, x, r, h, h1, h2, h3⟩
        cases d with
        | nil => exact ⟨x, r, h, h2, h3⟩
        | cons b d =>
          obtain ⟨rfl, rfl⟩ := List.cons.inj h
          exact absurd (digs_cons.1 h1).1 hd

theorem acc_dot (ps : List Ps) (t : GoStr) : (S .dot ps).acc t = true ↔ ∃ d x r, t = d ++ x ++ r ∧ Digs d ∧ d ≠ [] ∧ IsExp x ∧ (S .endValue ps).acc r = true := by
  cases t with
  | nil =>
    constructor
    · intro h; cases ps <;> cases h
    · rintro ⟨d, x, r, h, _, h3, _⟩
      exact absurd (List.append_eq_nil_iff.1 (List.append_eq_nil_iff.1 h.symm).1).1 h3
  | cons c t =>
    have hn : (S .dot ps).next c = if digit c then (S .dot0 ps, .continue) else (S .dot ps, .error) := rfl
    rw [acc_cons, hn]
    by_cases hd : digit c = true
    · rw [if_pos hd]
      show (true && (S .dot0 ps).acc t) = true ↔ _
      rw [Bool.true_and, acc_dot0]
      constructor
      · rintro ⟨d, x, r, rfl, h1, h2⟩; exact ⟨c :: d, x, r, rfl, digs_cons.2 ⟨hd, h1⟩, by simp, h2⟩
      · rintro ⟨d, x, r, h, h1, h3, h2⟩
        cases d with
        | nil => exact absurd rfl h3
        | cons b d =>
          obtain ⟨rfl, rfl⟩ := List.cons.inj h
          exact ⟨d, x, r, rfl, (digs_cons.1 h1).2, h2⟩
    · rw [if_neg hd]
      constructor
      · intro h; simp [accr] at h
      · rintro ⟨d, x, r, h, h1, h3, h2⟩
        cases d with
        | nil => exact absurd rfl h3
        | cons b d =>
          obtain ⟨rfl, rfl⟩ := List.cons.inj h
          exact absurd (digs_cons.1 h1).1 hd

/-- After the integer part. -/
theorem acc_zero (ps : List Ps) {st : St} (h0 : (S st ps).acc [] = (S .endValue ps).acc []) (t : GoStr)
    (hn : ∀ c t', t = c :: t' → accr ((S st ps).next c) t' = accr (state0 (S st ps) c) t') :
    (S st ps).acc t = true ↔ ∃ f x r, t = f ++ x ++ r ∧ IsFrac f ∧ IsExp x ∧ (S .endValue ps).acc r = true := by
  cases t with
  | nil =>
    rw [h0]
    constructor
    · intro h; exact ⟨[], [], [], rfl, .no, .no, h⟩
    · rintro ⟨f, x, r, h, _, _, hr⟩
      obtain ⟨_, rfl⟩ := List.append_eq_nil_iff.1 h.symm
      exact hr
  | cons c t =>
    by_cases hp : c = 46
    · rw [acc_cons, hn c t rfl]
      unfold state0
      rw [if_pos hp]
      show (true && (S .dot ps).acc t) = true ↔ _
      rw [Bool.true_and, acc_dot]
      subst hp
      constructor
      · rintro ⟨d, x, r, rfl, h1, h2, h3, h4⟩
        exact ⟨46 :: d, x, r, rfl, .yes h1 h2, h3, h4⟩
      · rintro ⟨f, x, r, h, hf, hx, hr⟩
        cases hf with
        | no =>
          exfalso
          cases hx with
          | no =>
            rw [← (show (46 : Byte) :: t = r from h), acc_cons] at hr
            exact (ender_not (end_first hr)).2.2.2 rfl
          | yes h4 =>
            obtain ⟨rfl, _⟩ := List.cons.inj h
            rcases h4 with h4 | h4 <;> cases h4
        | yes h1 h2 =>
          obtain ⟨_, rfl⟩ := List.cons.inj h
          exact ⟨_, x, r, rfl, h1, h2, hx, hr⟩
    · rw [acc_exp ps h0 (c :: t) (by
        rintro c' t' h; obtain ⟨rfl, rfl⟩ := List.cons.inj h; rw [hn c t rfl]; unfold state0; rw [if_neg hp])]
      constructor
      · rintro ⟨x, r, h, h1, h2⟩; exact ⟨[], x, r, h, .no, h1, h2⟩
      · rintro ⟨f, x, r, h, hf, hx, hr⟩
        cases hf with
        | no => exact ⟨x, r, h, hx, hr⟩
        | yes =>
          obtain ⟨rfl, _⟩ := List.cons.inj h
          exact absurd rfl hp

theorem acc_one (ps : List Ps) (t : GoStr) : (S .one ps).acc t = true ↔
    ∃ d f x r, t = d ++ f ++ x ++ r ∧ Digs d ∧ IsFrac f ∧ IsExp x ∧ (S .endValue ps).acc r = true := by
  induction t with
  | nil =>
    constructor
    · intro h; exact ⟨[], [], [], [], rfl, digs_nil, .no, .no, by cases ps <;> exact h⟩
    · rintro ⟨d, f, x, r, h, _, _, _, hr⟩
      obtain ⟨h', rfl⟩ := List.append_eq_nil_iff.1 h.symm
      cases ps <;> exact hr
  | cons c t ih =>
    have hn : (S .one ps).next c = if digit c then (S .one ps, .continue) else state0 (S .one ps) c := rfl
    by_cases hd : digit c = true
    · rw [acc_cons, hn, if_pos hd]
      show (true && (S .one ps).acc t) = true ↔ _
      rw [Bool.true_and, ih]
      constructor
      · rintro ⟨d, f, x, r, rfl, h1, h2⟩; exact ⟨c :: d, f, x, r, rfl, digs_cons.2 ⟨hd, h1⟩, h2⟩
      · rintro ⟨d, f, x, r, h, h1, h2, h3, h4⟩
        cases d with
        | nil =>
          exfalso
          cases h2 with
          | no =>
            cases h3 with
            | no =>
              rw [← (show c :: t = r from h), acc_cons] at h4
              rw [(ender_not (end_first h4)).1] at hd; cases hd
            | yes h4 =>
              obtain ⟨rfl, _⟩ := List.cons.inj h
              rcases h4 with rfl | rfl <;> cases hd
          | yes =>
            obtain ⟨rfl, _⟩ := List.cons.inj h
            cases hd
        | cons b d =>
          obtain ⟨rfl, rfl⟩ := List.cons.inj h
          exact ⟨d, f, x, r, rfl, (digs_cons.1 h1).2, h2, h3, h4⟩
    · rw [acc_zero ps (st := .one) (by cases ps <;> rfl) (c :: t) (by rintro c' t' h; obtain ⟨rfl, rfl⟩ := List.cons.inj h; rw [hn, if_neg hd])]
      constructor
      · rintro ⟨f, x, r, h, h1, h2⟩; exact ⟨[], f, x, r, h, digs_nil, h1, h2⟩
      · rintro ⟨d, f, x, r, h, h1, h2, h3⟩
        cases d with
        | nil => exact ⟨f, x, r, h, h2, h3⟩
        | cons b d =>
          obtain ⟨rfl, rfl⟩ := List.cons.inj h
          exact absurd (digs_cons.1 h1).1 hd

theorem acc_zero' (ps : List Ps) (t : GoStr) : (S .zero ps).acc t = true ↔
    ∃ f x r, t = f ++ x ++ r ∧ IsFrac f ∧ IsExp x ∧ (S .endValue ps).acc r = true :=
  acc_zero ps (st := .zero) (by cases ps <;> rfl) t (fun _ _ _ => rfl)

/-- A number without its sign, in any state from which it is begun. -/
theorem accr_int (ps : List Ps) (s : Scan) (k : Code) (hk : k ≠ .error) (c : Byte) (t : GoStr) :
    accr (if c = 48 then (S .zero ps, k) else if 49 ≤ c && c ≤ 57 then (S .one ps, k) else (s, .error)) t = true ↔
    ∃ i f x r, c :: t = i ++ f ++ x ++ r ∧ IsInt i ∧ IsFrac f ∧ IsExp x ∧ (S .endValue ps).acc r = true := by
  have range : (49 ≤ c && c ≤ 57) = true ↔ 49 ≤ c.toNat ∧ c.toNat ≤ 57 := by
    simp only [Bool.and_eq_true, decide_eq_true_eq, UInt8.le_iff_toNat_le]; rfl
  have hk' : decide (k ≠ .error) = true := decide_eq_true hk
  by_cases h0 : c = 48
  · rw [if_pos h0]
    show (decide (k ≠ .error) && (S .zero ps).acc t) = true ↔ _
    rw [hk', Bool.true_and, acc_zero']
    subst h0
    constructor
    · rintro ⟨f, x, r, rfl, h⟩; exact ⟨[48], f, x, r, rfl, .zero, h⟩
    · rintro ⟨i, f, x, r, h, hi, h'⟩
      cases hi with
      | zero => obtain ⟨_, rfl⟩ := List.cons.inj h; exact ⟨f, x, r, rfl, h'⟩
      | pos h1 => obtain ⟨rfl, _⟩ := List.cons.inj h; exact absurd h1 (by decide)
  · rw [if_neg h0]
    by_cases hp : (49 ≤ c && c ≤ 57) = true
    · rw [if_pos hp]
      show (decide (k ≠ .error) && (S .one ps).acc t) = true ↔ _
      rw [hk', Bool.true_and, acc_one]
      constructor
      · rintro ⟨d, f, x, r, rfl, h1, h⟩; exact ⟨c :: d, f, x, r, rfl, .pos (range.1 hp).1 (range.1 hp).2 h1, h⟩
      · rintro ⟨i, f, x, r, h, hi, h'⟩
        cases hi with
        | zero => obtain ⟨rfl, _⟩ := List.cons.inj h; exact absurd rfl h0
        | pos h1 h2 h3 => obtain ⟨_, rfl⟩ := List.cons.inj h; exact ⟨_, f, x, r, rfl, h3, h'⟩
    · rw [if_neg hp]
      constructor
      · intro h; simp [accr] at h
      · rintro ⟨i, f, x, r, h, hi, h'⟩
        cases hi with
        | zero => obtain ⟨rfl, _⟩ := List.cons.inj h; exact absurd rfl h0
        | pos h1 h2 h3 => obtain ⟨rfl, _⟩ := List.cons.inj h; exact absurd (range.2 ⟨h1, h2⟩) hp

theorem acc_neg (ps : List Ps) (t : GoStr) : (S .neg ps).acc t = true ↔
    ∃ i f x r, t = i ++ f ++ x ++ r ∧ IsInt i ∧ IsFrac f ∧ IsExp x ∧ (S .endValue ps).acc r = true := by
  cases t with
  | nil =>
    constructor
    · intro h; cases ps <;> cases h
    · rintro ⟨i, f, x, r, h, hi, _⟩
      have := (List.append_eq_nil_iff.1 (List.append_eq_nil_iff.1 (List.append_eq_nil_iff.1 h.symm).1).1).1
      subst this; cases hi
  | cons c t => exact accr_int ps (S .neg ps) .continue (by decide) c t

/-! ## Strings -/

theorem isHex_iff (c : Byte) : isHex c = true ↔ Hexdig c := by
  unfold isHex Hexdig
  simp only [Bool.or_eq_true, Bool.and_eq_true, decide_eq_true_eq, UInt8.le_iff_toNat_le, or_assoc]; rfl

theorem accr_want (s : Scan) (ok : Bool) (st : St) (t : GoStr) : accr (want s ok st) t = true ↔ ok = true ∧ Scan.acc { s with step := st } t = true := by
  cases ok <;> simp [want, accr]

theorem acc_want_nil {st : St} (h : (S st []).acc [] = false) (h' : ∀ p ps, (S st (p :: ps)).acc [] = false) (ps : List Ps) : (S st ps).acc [] = false := by
  cases ps with
  | nil => exact h
  | cons p ps => exact h' p ps

theorem acc_hex (ps : List Ps) (st st' : St) (h0 : ∀ ps, (S st ps).acc [] = false) (hn : ∀ c, (S st ps).next c = want (S st ps) (isHex c) st') (t : GoStr) :
    (S st ps).acc t = true ↔ ∃ c r, t = c :: r ∧ Hexdig c ∧ (S st' ps).acc r = true := by
  cases t with
  | nil => rw [h0]; constructor <;> intro h <;> simp at h
  | cons c t =>
    rw [acc_cons, hn, accr_want, isHex_iff]
    constructor
    · rintro ⟨h1, h2⟩; exact ⟨c, t, rfl, h1, h2⟩
    · rintro ⟨c', r, h, h1, h2⟩; obtain ⟨rfl, rfl⟩ := List.cons.inj h; exact ⟨h1, h2⟩

theorem esc_same (b : Byte) : b ∈ lit "bfnrt\\/\"" ↔ b ∈ lit "\"\\/bfnrt" := by
  revert b
  exact fun b => forall_byte (P := fun b => b ∈ lit "bfnrt\\/\"" ↔ b ∈ lit "\"\\/bfnrt") (by decide +kernel) b

theorem acc_esc (ps : List Ps) (t : GoStr) : (S .inStringEsc ps).acc t = true ↔
    (∃ b r, t = b :: r ∧ b ∈ lit "\"\\/bfnrt" ∧ (S .inString ps).acc r = true) ∨
    ∃ a b c d r, t = 117 :: a :: b :: c :: d :: r ∧ Hexdig a ∧ Hexdig b ∧ Hexdig c ∧ Hexdig d ∧ (S .inString ps).acc r = true := by
  cases t with
  | nil =>
    constructor
    · intro h; cases ps <;> cases h
    · rintro (⟨b, r, h, _⟩ | ⟨a, b, c, d, r, h, _⟩) <;> cases h
  | cons x t =>
    have hn : (S .inStringEsc ps).next x = if x = 117 then (S .inStringEscU ps, .continue) else want (S .inStringEsc ps) (decide (x ∈ lit "bfnrt\\/\"")) .inString := rfl
    rw [acc_cons, hn]
    by_cases hx : x = 117
    · subst hx
      rw [if_pos rfl]
      show (true && (S .inStringEscU ps).acc t) = true ↔ _
      rw [Bool.true_and, acc_hex ps .inStringEscU .inStringEscU1 (fun ps => by cases ps <;> rfl) (fun c => rfl)]
      constructor
      · rintro ⟨a, r, rfl, ha, h⟩
        rw [acc_hex ps .inStringEscU1 .inStringEscU12 (fun ps => by cases ps <;> rfl) (fun c => rfl)] at h
        obtain ⟨b, r, rfl, hb, h⟩ := h
        rw [acc_hex ps .inStringEscU12 .inStringEscU123 (fun ps => by cases ps <;> rfl) (fun c => rfl)] at h
        obtain ⟨c, r, rfl, hc, h⟩ := h
        rw [acc_hex ps .inStringEscU123 .inString (fun ps => by cases ps <;> rfl) (fun c => rfl)] at h
        obtain ⟨d, r, rfl, hd, h⟩ := h
        exact .inr ⟨a, b, c, d, r, rfl, ha, hb, hc, hd, h⟩
      · rintro (⟨b, r, h, h1, _⟩ | ⟨a, b, c, d, r, h, ha, hb, hc, hd, h'⟩)
        · obtain ⟨rfl, _⟩ := List.cons.inj h
          exact absurd h1 (by decide +kernel)
        · obtain ⟨_, rfl⟩ := List.cons.inj h
          refine ⟨a, _, rfl, ha, ?_⟩
          rw [acc_hex ps .inStringEscU1 .inStringEscU12 (fun ps => by cases ps <;> rfl) (fun c => rfl)]
          refine ⟨b, _, rfl, hb, ?_⟩
          rw [acc_hex ps .inStringEscU12 .inStringEscU123 (fun ps => by cases ps <;> rfl) (fun c => rfl)]
          refine ⟨c, _, rfl, hc, ?_⟩
          rw [acc_hex ps .inStringEscU123 .inString (fun ps => by cases ps <;> rfl) (fun c => rfl)]
          exact ⟨d, _, rfl, hd, h'⟩
    · rw [if_neg hx, accr_want, decide_eq_true_eq, esc_same]
      constructor
      · rintro ⟨h1, h2⟩; exact .inl ⟨x, t, rfl, h1, h2⟩
      · rintro (⟨b, r, h, h1, h2⟩ | ⟨a, b, c, d, r, h, _⟩)
        · obtain ⟨rfl, rfl⟩ := List.cons.inj h; exact ⟨h1, h2⟩
        · obtain ⟨rfl, _⟩ := List.cons.inj h; exact absurd rfl hx

theorem lt_space (c : Byte) : c < 0x20 ↔ ¬ 32 ≤ c.toNat := by
  rw [UInt8.lt_iff_toNat_lt]; show c.toNat < 32 ↔ _; omega

theorem next_inString (ps : List Ps) (c : Byte) : (S .inString ps).next c =
    if c = 34 then (S .endValue ps, .continue) else if c = 92 then (S .inStringEsc ps, .continue) else if c < 0x20 then (S .inString ps, .error) else (S .inString ps, .continue) := rfl

theorem chars_acc (ps : List Ps) {q : GoStr} (h : IsChars q) {r : GoStr} (hr : (S .endValue ps).acc r = true) : (S .inString ps).acc (q ++ 34 :: r) = true := by
  induction h with
  | nil => rw [List.nil_append, acc_cons, next_inString, if_pos rfl]; exact hr
  | plain h1 h2 h3 _ ih =>
    rw [List.cons_append, acc_cons, next_inString, if_neg h2, if_neg h3, if_neg (fun h => (lt_space _).1 h h1)]; exact ih
  | escape h1 _ ih =>
    rw [List.cons_append, acc_cons, next_inString, if_neg (by decide), if_pos rfl]
    show (true && (S .inStringEsc ps).acc _) = true
    rw [Bool.true_and, acc_esc]
    exact .inl ⟨_, _, rfl, h1, ih⟩
  | unit ha hb hc hd _ ih =>
    rw [List.cons_append, acc_cons, next_inString, if_neg (by decide), if_pos rfl]
    show (true && (S .inStringEsc ps).acc _) = true
    rw [Bool.true_and, acc_esc]
    exact .inr ⟨_, _, _, _, _, rfl, ha, hb, hc, hd, ih⟩

theorem acc_chars (ps : List Ps) : ∀ (L : Nat) (t : GoStr), t.length ≤ L → (S .inString ps).acc t = true →
    ∃ q r, t = q ++ 34 :: r ∧ IsChars q ∧ (S .endValue ps).acc r = true := by
  intro L
  induction L with
  | zero =>
    intro t hl h
    rw [List.eq_nil_of_length_eq_zero (by omega : t.length = 0)] at h
    cases ps <;> cases h
  | succ L ih =>
    intro t hl h
    cases t with
    | nil => cases ps <;> cases h
    | cons c t =>
      simp only [List.length_cons] at hl
      rw [acc_cons, next_inString] at h
      by_cases h1 : c = 34
      · subst h1
        rw [if_pos rfl] at h
        exact ⟨[], t, rfl, .nil, h⟩
      · rw [if_neg h1] at h
        by_cases h2 : c = 92
        · subst h2
          rw [if_pos rfl] at h
          replace h : (S .inStringEsc ps).acc t = true := h
          rw [acc_esc] at h
          rcases h with ⟨b, r, rfl, hb, h⟩ | ⟨a, b, c, d, r, rfl, ha, hb, hc, hd, h⟩
          · simp only [List.length_cons] at hl
            obtain ⟨q, r', rfl, hq, hr⟩ := ih r (by omega) h
            exact ⟨92 :: b :: q, r', rfl, .escape hb hq, hr⟩
          · simp only [List.length_cons] at hl
            obtain ⟨q, r', rfl, hq, hr⟩ := ih r (by omega) h
            exact ⟨92 :: 117 :: a :: b :: c :: d :: q, r', rfl, .unit ha hb hc hd hq, hr⟩
        · rw [if_neg h2] at h
          by_cases h3 : c < 0x20
          · rw [if_pos h3] at h; simp [accr] at h
          · rw [if_neg h3] at h
            obtain ⟨q, r', rfl, hq, hr⟩ := ih t (by omega) h
            exact ⟨c :: q, r', rfl, .plain (Decidable.of_not_not fun hc => h3 ((lt_space c).2 hc)) h1 h2 hq, hr⟩

/-! ## Words -/

theorem acc_letter (ps : List Ps) (st st' : St) (b : Byte) (h0 : ∀ ps, (S st ps).acc [] = false) (hn : ∀ c, (S st ps).next c = want (S st ps) (decide (c = b)) st') (t : GoStr) :
    (S st ps).acc t = true ↔ ∃ r, t = b :: r ∧ (S st' ps).acc r = true := by
  cases t with
  | nil => rw [h0]; constructor <;> intro h <;> simp at h
  | cons c t =>
    rw [acc_cons, hn, accr_want, decide_eq_true_eq]
    constructor
    · rintro ⟨rfl, h2⟩; exact ⟨t, rfl, h2⟩
    · rintro ⟨r, h, h2⟩; obtain ⟨rfl, rfl⟩ := List.cons.inj h; exact ⟨rfl, h2⟩

theorem acc_ull (ps : List Ps) (t : GoStr) : (S .n ps).acc t = true ↔ ∃ r, t = 117 :: 108 :: 108 :: r ∧ (S .endValue ps).acc r = true := by
  rw [acc_letter ps .n .nu 117 (fun ps => by cases ps <;> rfl) (fun c => rfl)]
  simp only [acc_letter ps .nu .nul 108 (fun ps => by cases ps <;> rfl) (fun c => rfl), acc_letter ps .nul .endValue 108 (fun ps => by cases ps <;> rfl) (fun c => rfl)]
  constructor
  · rintro ⟨r, rfl, r, rfl, r, rfl, h⟩; exact ⟨_, rfl, h⟩
  · rintro ⟨r, rfl, h⟩; exact ⟨_, rfl, _, rfl, _, rfl, h⟩

theorem acc_rue (ps : List Ps) (t : GoStr) : (S .t ps).acc t = true ↔ ∃ r, t = 114 :: 117 :: 101 :: r ∧ (S .endValue ps).acc r = true := by
  rw [acc_letter ps .t .tr 114 (fun ps => by cases ps <;> rfl) (fun c => rfl)]
  simp only [acc_letter ps .tr .tru 117 (fun ps => by cases ps <;> rfl) (fun c => rfl), acc_letter ps .tru .endValue 101 (fun ps => by cases ps <;> rfl) (fun c => rfl)]
  constructor
  · rintro ⟨r, rfl, r, rfl, r, rfl, h⟩; exact ⟨_, rfl, h⟩
  · rintro ⟨r, rfl, h⟩; exact ⟨_, rfl, _, rfl, _, rfl, h⟩

theorem acc_alse (ps : List Ps) (t : GoStr) : (S .f ps).acc t = true ↔ ∃ r, t = 97 :: 108 :: 115 :: 101 :: r ∧ (S .endValue ps).acc r = true := by
  rw [acc_letter ps .f .fa 97 (fun ps => by cases ps <;> rfl) (fun c => rfl)]
  simp only [acc_letter ps .fa .fal 108 (fun ps => by cases ps <;> rfl) (fun c => rfl), acc_letter ps .fal .fals 115 (fun ps => by cases ps <;> rfl) (fun c => rfl),
    acc_letter ps .fals .endValue 101 (fun ps => by cases ps <;> rfl) (fun c => rfl)]
  constructor
  · rintro ⟨r, rfl, r, rfl, r, rfl, r, rfl, h⟩; exact ⟨_, rfl, h⟩
  · rintro ⟨r, rfl, h⟩; exact ⟨_, rfl, _, rfl, _, rfl, _, rfl, h⟩

end Verif.Json
