import Verif.Model.Consume
import Verif.Spec.Consume
import Verif.Spec.Failing
import Verif.Proofs.Success

/-! # The functions of the standard library over a Body -/

set_option autoImplicit false

namespace Verif
open Spec
variable {β ω S : Type} {B : BodyOps β} {P : β → List Byte → Prop} {K : Nat} {E : Err → Prop}

theorem Spec.Lively.source (hB : Lively B P K) : Source B P K (· = .eof) := by
  refine ⟨fun b C k h0 hk hP => ?_⟩
  obtain ⟨b', d, e, C', h1, h2, h3, h4, h5⟩ := hB.read b C k h0 hk hP
  refine ⟨b', d, e, C', h1, h2, h3, h4, ?_⟩
  rcases h5 with h5 | ⟨h5, h6⟩
  · exact .inl h5
  · exact .inr ⟨_, h5, rfl, h6⟩

theorem Spec.Failing.source {e : Err} (hB : Failing B P K e) : Source B P K (· = e) := by
  refine ⟨fun b C k h0 hk hP => ?_⟩
  obtain ⟨b', d, e, C', h1, h2, h3, h4, h5⟩ := hB.read b C k h0 hk hP
  refine ⟨b', d, e, C', h1, h2, h3, h4, ?_⟩
  rcases h5 with h5 | ⟨h5, h6⟩
  · exact .inl h5
  · exact .inr ⟨_, h5, rfl, h6⟩

/-! ## `io.ReadAll` -/

theorem readAllLoop_source (hB : Source B P K E) (grow : Nat → Nat) (N : Nat) (hg : ∀ n, n ≤ N → n < grow n ∧ grow n ≤ K) (fuel : Nat) :
    ∀ (b : β) (C buf : List Byte) (cap : Nat), P b C → C.length < fuel → buf.length + C.length ≤ N → buf.length ≤ cap → cap ≤ K →
      ∃ b' e, readAllLoop B grow fuel b buf cap = (b', .ret (buf ++ C, if e = .eof then none else some e)) ∧ E e ∧ P b' [] := by
  induction fuel with
  | zero => intro b C buf cap _ h; omega
  | succ fuel ih =>
    intro b C buf cap hP hf hN hc hK
    have hcap : buf.length < (if buf.length = cap then grow cap else cap) ∧ (if buf.length = cap then grow cap else cap) ≤ K := by
      split
      · rename_i h
        have := hg cap (by omega)
        omega
      · omega
    obtain ⟨b', d, er, C', h1, h2, rfl, h4, h5⟩ := hB.read b C _ (Nat.sub_pos_of_lt hcap.1) (by omega) hP
    simp only [readAllLoop, h1]
    rw [if_neg (by omega)]
    rcases h5 with ⟨rfl, hd⟩ | ⟨e, rfl, hE, rfl⟩
    · have hd0 : 0 < d.length := List.length_pos_iff.2 hd
      simp only [List.length_append] at hf hN
      obtain ⟨b'', e, h6, h7, h8⟩ := ih b' C' (buf ++ d) _ h4 (by omega) (by rw [List.length_append]; omega)
        (by rw [List.length_append]; omega) hcap.2
      exact ⟨b'', e, by rw [h6, List.append_assoc], h7, h8⟩
    · exact ⟨b', e, by simp, hE, h4⟩

/-! ## `io.ReadAtLeast` -/

theorem atLeastLoop_source (hB : Source B P K E) (size least : Nat) (hs : least ≤ size) (hK : size ≤ K) (fuel : Nat) :
    ∀ (b : β) (C buf : List Byte), P b C → C.length < fuel → buf.length ≤ size →
      ∃ b', (∃ m, least ≤ m ∧ m ≤ size ∧ m ≤ (buf ++ C).length ∧ buf.length ≤ m ∧
          atLeastLoop B size least fuel b buf = (b', .ret ((buf ++ C).take m, none)) ∧ P b' ((buf ++ C).drop m)) ∨
        ((buf ++ C).length < least ∧ ∃ e, E e ∧ atLeastLoop B size least fuel b buf =
            (b', .ret (buf ++ C, some (if buf ++ C ≠ [] ∧ e = .eof then errUnexpectedEOF else e))) ∧ P b' []) := by
  induction fuel with
  | zero => intro b C buf _ h; omega
  | succ fuel ih =>
    intro b C buf hP hf hb
    simp only [atLeastLoop]
    by_cases hle : least ≤ buf.length
    · rw [if_pos hle]
      exact ⟨b, .inl ⟨buf.length, hle, hb, by simp, Nat.le_refl _, by simp, by simpa using hP⟩⟩
    · rw [if_neg hle]
      obtain ⟨b', d, er, C', h1, h2, rfl, h4, h5⟩ := hB.read b C (size - buf.length) (by omega) (by omega) hP
      rw [h1]
      rcases h5 with ⟨rfl, hd⟩ | ⟨e, rfl, hE, rfl⟩
      · have hd0 : 0 < d.length := List.length_pos_iff.2 hd
        simp only [List.length_append] at hf
        obtain ⟨b'', h6⟩ := ih b' C' (buf ++ d) h4 (by omega) (by rw [List.length_append]; omega)
        simp only [List.append_assoc] at h6
        refine ⟨b'', ?_⟩
        rcases h6 with ⟨m, a1, a2, a3, a4, a5, a6⟩ | h6
        · simp only [List.length_append] at a4
          exact .inl ⟨m, a1, a2, a3, by omega, a5, a6⟩
        · exact .inr h6
      · simp only [List.append_nil]
        by_cases hge : least ≤ (buf ++ d).length
        · rw [if_pos hge]
          exact ⟨b', .inl ⟨(buf ++ d).length, hge, by simp; omega, by simp, by simp, by rw [List.take_length], by simpa using h4⟩⟩
        · rw [if_neg hge]
          refine ⟨b', .inr ⟨by omega, e, hE, ?_, h4⟩⟩
          by_cases h0 : buf ++ d ≠ [] ∧ e = .eof
          · rw [if_pos h0, if_pos ⟨List.length_pos_iff.2 h0.1, h0.2⟩]
          · rw [if_neg h0, if_neg (fun h => h0 ⟨List.length_pos_iff.1 h.1, h.2⟩)]

/-! ## `io.LimitReader` -/

theorem limited_source (hB : Source B P K E) (R : List Byte) :
    Source (limited B) (UpToLimit P R) K (fun e => e = .eof ∨ R = [] ∧ E e) := by
  refine ⟨?_⟩
  rintro ⟨b, n⟩ C k h0 hk ⟨hP, hn⟩
  dsimp only at hP hn
  simp only [limited]
  by_cases hz : n ≤ 0
  · rw [if_pos hz]
    have : C = [] := List.length_eq_zero_iff.1 (by omega)
    subst this
    exact ⟨(b, n), [], some .eof, [], rfl, by simp, rfl, ⟨hP, hn⟩, .inr ⟨_, rfl, .inl rfl, rfl⟩⟩
  · rw [if_neg hz]
    have hk' : 0 < (if n < (k : Int) then n.toNat else k) ∧ (if n < (k : Int) then n.toNat else k) ≤ k ∧
        ((if n < (k : Int) then n.toNat else k : Nat) : Int) ≤ n := by split <;> omega
    obtain ⟨b', d, er, C', h1, h2, h3, h4, h5⟩ := hB.read b _ _ hk'.1 (by omega) hP
    rw [h1]
    have hsplit : ∃ C₁, C = d ++ C₁ ∧ C' = C₁ ++ R := by
      rcases List.append_eq_append_iff.1 h3 with ⟨t, e1, e2⟩ | ⟨t, e1, e2⟩
      · -- d is longer than C
        rcases hn with hn | ⟨hn, rfl⟩
        · have hl := congrArg List.length e1
          simp only [List.length_append] at hl
          have : t = [] := List.length_eq_zero_iff.1 (by omega)
          subst this
          exact ⟨[], by simpa using e1.symm, by simpa using e2.symm⟩
        · have : t = [] ∧ C' = [] := by
            have h := List.append_eq_nil_iff.1 e2.symm
            exact h
          obtain ⟨rfl, rfl⟩ := this
          exact ⟨[], by simpa using e1.symm, by simp⟩
      · exact ⟨t, e1, e2⟩
    obtain ⟨C₁, rfl, rfl⟩ := hsplit
    refine ⟨(b', n - d.length), d, er, C₁, rfl, by omega, rfl, ⟨h4, ?_⟩, ?_⟩
    · simp only [List.length_append] at hn
      dsimp only
      rcases hn with hn | ⟨hn, h⟩
      · left; omega
      · right; exact ⟨by omega, h⟩
    · rcases h5 with h5 | ⟨e, h5, hE, h6⟩
      · exact .inl h5
      · obtain ⟨rfl, rfl⟩ := List.append_eq_nil_iff.1 h6
        exact .inr ⟨e, h5, .inr ⟨rfl, hE⟩, rfl⟩

/-- A limit that is not reached: the end is that of the Body. -/
theorem limited_beyond (hB : Source B P K E) :
    Source (limited B) (fun s C => P s.1 C ∧ (C.length : Int) < s.2) K E := by
  refine ⟨?_⟩
  rintro ⟨b, n⟩ C k h0 hk ⟨hP, hn⟩
  dsimp only at hP hn
  simp only [limited]
  rw [if_neg (by omega)]
  have hk' : 0 < (if n < (k : Int) then n.toNat else k) ∧ (if n < (k : Int) then n.toNat else k) ≤ k := by split <;> omega
  obtain ⟨b', d, er, C', h1, h2, rfl, h4, h5⟩ := hB.read b _ _ hk'.1 (by omega) hP
  rw [h1]
  simp only [List.length_append] at hn
  exact ⟨(b', n - d.length), d, er, C', rfl, by omega, rfl, ⟨h4, by dsimp only; omega⟩, h5⟩

/-! ## `io.Copy`, with the count -/

theorem source_runRF (hB : Source B P K (· = .eof)) {ok : ω → List Byte → Prop} (hw : B.isWriterTo = false) (hK : 32768 ≤ K) (fuel : Nat) (t : RF ω) :
    ∀ (C l : List Byte) (b : β), RFTakes K ok t l C → P b C → C.length < fuel →
      ∃ b' w', runRF B fuel t b = (b', w', .ret ((l ++ C).length, none)) ∧ P b' [] ∧ ok w' (l ++ C) := by
  induction t with
  | done w n err => intro C l b h; exact h.elim
  | read w k cont ih =>
    rintro C l b ⟨h0, hk, h⟩ hP hf
    obtain ⟨b', d, e, C', h1, h2, rfl, h4, ⟨rfl, h5⟩ | ⟨e, rfl, rfl, rfl⟩⟩ := hB.read b C k h0 hk hP
    · simp only [runRF, h1]
      have := ih d none C' (l ++ d) b' ((h d C' rfl h2).1 h5) h4 (by simp at hf; omega)
      simpa using this
    · obtain ⟨w', h6, h7⟩ := (h d [] rfl h2).2 rfl
      simp only [runRF, h1, h6]
      exact ⟨b', w', by simp, h4, by simpa using h7⟩
  | drain w cont ih =>
    rintro C l b ⟨w', h1, h2⟩ hP hf
    have key : ∀ (fuel : Nat) (b : β) (C : List Byte) (n : Int), P b C → C.length < fuel →
        ∃ b', discardLoop B fuel b n = (b', .ret (n + C.length, none)) ∧ P b' [] := by
      intro fuel
      induction fuel with
      | zero => intro b C n _ h; omega
      | succ fuel ih =>
        intro b C n hP hf
        obtain ⟨b', d, e, C', h1, h2, rfl, h4, ⟨rfl, h5⟩ | ⟨e, rfl, rfl, rfl⟩⟩ := hB.read b C 8192 (by omega) (by omega) hP
        · simp only [discardLoop, h1]
          have hd : 0 < d.length := List.length_pos_iff.2 h5
          obtain ⟨b'', h6, h7⟩ := ih b' C' (n + d.length) h4 (by simp at hf; omega)
          exact ⟨b'', by rw [h6]; simp; omega, h7⟩
        · simp only [discardLoop, h1]
          exact ⟨b', by simp, h4⟩
    obtain ⟨b', h3, h4⟩ := key fuel b C 0 hP hf
    simp only [runRF, discardAll, hw, Bool.false_eq_true, if_false, h3]
    rw [Int.zero_add, h1]
    exact ⟨b', w', rfl, h4, h2⟩
  | panic w p => intro C l b h; exact h.elim
  | hang w => intro C l b h; exact h.elim

theorem source_copyLoop (hB : Source B P K (· = .eof)) (hK : 32768 ≤ K) {ok : ω → List Byte → Prop} {D : RW ω} {C₀ : List Byte} (hD : Takes D K ok C₀)
    (fuel : Nat) :
    ∀ (C l : List Byte) (b : β) (w : ω), P b C → ok w l → C.length < fuel →
      ∃ b' w', copyLoop D B fuel b w l.length = (b', w', .ret ((l ++ C).length, none)) ∧ P b' [] ∧ ok w' (l ++ C) := by
  induction fuel with
  | zero => intro C l b w _ _ h; omega
  | succ fuel ih =>
    intro C l b w hP hw hf
    obtain ⟨b', d, e, C', h1, h2, rfl, h4, h5⟩ := hB.read b C 32768 (by omega) hK hP
    obtain ⟨w', h6, h7⟩ := hD.write w l d hw
    simp only [copyLoop, h1]
    by_cases hd : d = []
    · subst hd
      rcases h5 with ⟨-, h5⟩ | ⟨e, rfl, rfl, rfl⟩
      · exact absurd rfl h5
      · simp only [List.length_nil, gt_iff_lt, Nat.lt_irrefl, if_false, if_true]
        exact ⟨b', w, by simp, h4, by simpa using hw⟩
    · have hd0 : 0 < d.length := List.length_pos_iff.2 hd
      rw [if_pos hd0, if_neg (by omega), h6]
      have hbad : decide ((d.length : Int) < 0 ∨ (d.length : Int) < d.length) = false := by simp
      simp only [hbad, Bool.false_and, Bool.false_eq_true, if_false, ne_eq, not_true_eq_false]
      rcases h5 with ⟨rfl, -⟩ | ⟨e, rfl, rfl, rfl⟩
      · obtain ⟨b'', w'', h8, h9, h10⟩ := ih C' (l ++ d) b' w' h4 h7 (by simp at hf; omega)
        refine ⟨b'', w'', ?_, h9, by simpa using h10⟩
        simpa using h8
      · simp only [if_true]
        exact ⟨b', w', by simp, h4, by simpa using h7⟩

theorem source_ioCopy (hB : Source B P K (· = .eof)) (hw : B.isWriterTo = false) (hK : 32768 ≤ K) {ok : ω → List Byte → Prop} {D : RW ω} {C : List Byte}
    (hD : Takes D K ok C) (fuel : Nat) (b : β) (w : ω) (hP : P b C) (h0 : ok w []) (hf : C.length < fuel) :
    ∃ b' w', ioCopy D B fuel b w = (b', w', .ret (C.length, none)) ∧ P b' [] ∧ ok w' C := by
  unfold ioCopy
  rw [if_neg (by simp [hw])]
  by_cases h2 : D.isReaderFrom = true
  · rw [if_pos h2]
    exact source_runRF hB hw hK fuel _ C [] b (hD.readFrom h2 w h0) hP hf
  · rw [if_neg h2]
    exact source_copyLoop hB hK hD fuel C [] b w hP h0 hf

/-! ## `io.MultiReader` -/

theorem multi_source (hB : Source B P K (· = .eof)) : Source (multi B) (InTurn P) K (· = .eof) := by
  refine ⟨?_⟩
  intro bs C k h0 hk hP
  show ∃ b' d er C', multiRead B bs k = _ ∧ _
  induction hP with
  | nil => exact ⟨[], [], _, [], rfl, by simp, rfl, .nil, .inr ⟨_, rfl, rfl, rfl⟩⟩
  | cons b bs C D hP hbs ih =>
    obtain ⟨b', d, e, C', h1, h2, rfl, h4, ⟨rfl, h5⟩ | ⟨e, rfl, rfl, rfl⟩⟩ := hB.read b C k h0 hk hP
    · simp only [multiRead, h1]
      exact ⟨b' :: bs, d, none, C' ++ D, by simp, h2, by simp, .cons b' bs C' D h4 hbs, .inl ⟨rfl, h5⟩⟩
    · simp only [multiRead, h1, if_true, List.append_nil]
      by_cases hd : 0 < d.length
      · rw [if_pos hd]
        refine ⟨bs, d, _, D, rfl, h2, rfl, hbs, ?_⟩
        cases hbs with
        | nil => exact .inr ⟨_, rfl, rfl, rfl⟩
        | cons => exact .inl ⟨rfl, List.length_pos_iff.1 hd⟩
      · rw [if_neg hd]
        have : d = [] := List.length_eq_zero_iff.1 (by omega)
        subst this
        simpa using ih

/-! ## `io.SectionReader` -/

theorem section_source {step : S → Op → S × Out} {h : Nat} {I : S → Prop} {data : List Byte} (hR : ReadsAt step h I data) (limit : Int)
    (hl : limit < 2 ^ 63) (K : Nat) (hK : K < 2 ^ 62) : Source (sectionOf step h limit) (InSection I data limit) K (· = .eof) := by
  refine ⟨?_⟩
  rintro ⟨s, off⟩ C k h0 hk ⟨hI, ho, rfl⟩
  dsimp only at hI ho
  simp only [sectionOf]
  by_cases hz : limit ≤ off
  · rw [if_pos hz]
    have : (limit - off).toNat = 0 := by omega
    refine ⟨(s, off), [], some .eof, [], rfl, by simp, by simp [this], ⟨hI, ho, by simp [this]⟩, .inr ⟨_, rfl, rfl, rfl⟩⟩
  · rw [if_neg hz]
    have hk' : 0 < (if limit - off < (k : Int) then (limit - off).toNat else k) ∧ (if limit - off < (k : Int) then (limit - off).toNat else k) ≤ k ∧
        (if limit - off < (k : Int) then (limit - off).toNat else k) ≤ (limit - off).toNat := by split <;> omega
    generalize (if limit - off < (k : Int) then (limit - off).toNat else k) = k' at hk'
    obtain ⟨s', e, h1, h2, h3, h4, h5⟩ := hR.readAt s k' off hI (by omega) ho (by omega)
    rw [h1]
    refine ⟨(s', off + ((data.drop off.toNat).take k').length), _, e, ((data.drop off.toNat).drop k').take ((limit - off).toNat - k'), rfl,
      by rw [List.length_take]; omega, ?_, ⟨h2, by dsimp only; omega, ?_⟩, ?_⟩
    · have e1 : (limit - off).toNat = k' + ((limit - off).toNat - k') := by omega
      conv => lhs; rw [e1, List.take_add]
    · dsimp only
      by_cases hs : data.length ≤ off.toNat + k'
      · have e1 : data.drop (off + ((data.drop off.toNat).take k').length).toNat = [] :=
          List.drop_eq_nil_of_le (by rw [List.length_take, List.length_drop]; omega)
        rw [List.drop_eq_nil_of_le (as := data.drop off.toNat) (by simp; omega), e1]
        simp
      · have e2 : ((data.drop off.toNat).take k').length = k' := by simp; omega
        rw [e2, List.drop_drop]
        congr 1
        · omega
        · congr 1; omega
    · by_cases hs : ((data.drop off.toNat).take k').length < k'
      · refine .inr ⟨.eof, h3 hs, rfl, ?_⟩
        rw [List.length_take, List.length_drop] at hs
        rw [List.drop_eq_nil_of_le (by simp; omega)]
        simp
      · rcases h5 with h5 | h5
        · refine .inl ⟨h5, ?_⟩
          intro h
          rw [h] at hs
          simp at hs
          omega
        · refine .inr ⟨.eof, h5, rfl, ?_⟩
          have : ¬ off.toNat + k' < data.length := by
            intro h
            rw [h4 h] at h5
            cases h5
          rw [List.drop_eq_nil_of_le (by simp; omega)]
          simp

end Verif
