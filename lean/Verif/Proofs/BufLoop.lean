import Verif.Model.Buffered
import Verif.Spec.Stream
import Verif.Proofs.Sim

/-! # The pieces of the buffered body: rounding, scanning, the read loop -/

set_option linter.unusedSimpArgs false

set_option autoImplicit false

namespace Verif
open Spec

/-! ## Rounding -/

theorem mask_eq (x : BitVec 64) : x &&& ~~~ (BitVec.ofInt 64 (blockSize - 1)) = (x >>> 16) <<< 16 := by
  have hm : BitVec.ofInt 64 (blockSize - 1) = (BitVec.allOnes 16).setWidth 64 := by decide
  have hm' : ∀ i, i < 64 → (BitVec.ofInt 64 (blockSize - 1)).getLsbD i = decide (i < 16) := by
    intro i hi
    rw [hm, BitVec.getLsbD_setWidth, BitVec.getLsbD_allOnes]
    simp [hi]
  generalize BitVec.ofInt 64 (blockSize - 1) = m at hm'
  apply BitVec.eq_of_getLsbD_eq
  intro i hi
  rw [BitVec.getLsbD_and, BitVec.getLsbD_not, hm' i hi, BitVec.getLsbD_shiftLeft, BitVec.getLsbD_ushiftRight]
  by_cases h : i < 16
  · simp [h]
  · have : 16 + (i - 16) = i := by omega
    simp [h, this, hi]

theorem roundUp_eq (n : Int) (h0 : 0 ≤ n) (h1 : n < 2 ^ 62) :
    BufSys.roundUp n = (n + 65535) / 65536 * 65536 := by
  unfold BufSys.roundUp
  rw [mask_eq]
  have e : n + blockSize - 1 = ((n + 65535).toNat : Int) := by unfold blockSize; omega
  rw [e]
  generalize hm : (n + 65535).toNat = m
  have hn : n + 65535 = (m : Int) := by omega
  rw [hn]
  have hlt : m < 2 ^ 63 := by omega
  have h3 : (BitVec.ofInt 64 (m : Int)).toNat = m := by
    rw [BitVec.ofInt_natCast, BitVec.toNat_ofNat]; omega
  have h2 : ((BitVec.ofInt 64 (m : Int)) >>> 16 <<< 16).toNat = m / 65536 * 65536 := by
    rw [BitVec.toNat_shiftLeft, BitVec.toNat_ushiftRight, h3, Nat.shiftLeft_eq, Nat.shiftRight_eq_div_pow]
    have : m / 2 ^ 16 * 2 ^ 16 ≤ m := Nat.div_mul_le_self m (2 ^ 16)
    rw [Nat.mod_eq_of_lt (by omega)]
  rw [BitVec.toInt_eq_toNat_of_lt (by rw [h2]; omega), h2]
  simp

/-- The rounding yields the next multiple of the block size. -/
theorem roundUp_spec (n : Int) (h0 : 0 < n) (h1 : n < 2 ^ 62) :
    n ≤ BufSys.roundUp n ∧ BufSys.roundUp n < n + 65536 ∧ 65536 ∣ BufSys.roundUp n := by
  rw [roundUp_eq n (by omega) h1]
  omega

/-! ## Scanning the set of bodies -/

/-- The loop of `updateStart` finds the minimum and counts it. -/
theorem scan_spec (l : List Int) : ∀ (acc r : Int × Int), r = l.foldl BufSys.scan acc → 0 ≤ acc.2 →
    (0 < acc.2 → r.1 ≤ acc.1 ∧ (∀ x ∈ l, r.1 ≤ x) ∧
      r.2 = (if r.1 = acc.1 then acc.2 else 0) + l.count r.1 ∧ 0 < r.2 ∧ (r.1 = acc.1 ∨ r.1 ∈ l)) ∧
    (acc.2 = 0 → l ≠ [] → (∀ x ∈ l, r.1 ≤ x) ∧ r.2 = l.count r.1 ∧ 0 < r.2 ∧ r.1 ∈ l) := by
  induction l with
  | nil => intro acc r hr h; simp at hr; subst hr; simp
  | cons x l ih =>
    intro acc r hr h
    rw [List.foldl_cons] at hr
    by_cases hs : acc.2 ≤ 0 ∨ x < acc.1
    · have e : BufSys.scan acc x = (x, 1) := by simp [BufSys.scan, hs]
      rw [e] at hr
      obtain ⟨ih1, _⟩ := ih (x, 1) r hr (by simp)
      obtain ⟨i1, i2, i3, i4, i5⟩ := ih1 (by simp)
      simp only at i1 i2 i3 i4 i5
      refine ⟨?_, ?_⟩
      · intro hp
        have hx : x < acc.1 := by omega
        refine ⟨by omega, ?_, ?_, i4, ?_⟩
        · intro y hy; rcases List.mem_cons.1 hy with rfl | hy; exact i1; exact i2 y hy
        · rw [if_neg (by omega), i3, List.count_cons]
          by_cases hrx : r.1 = x
          · simp [hrx]; omega
          · have : ¬ x = r.1 := fun e => hrx e.symm
            simp [hrx, this]
        · right; simp; rcases i5 with h | h; exact .inl h; exact .inr h
      · intro _ _
        refine ⟨?_, ?_, i4, ?_⟩
        · intro y hy; rcases List.mem_cons.1 hy with rfl | hy; exact i1; exact i2 y hy
        · rw [i3, List.count_cons]
          by_cases hrx : r.1 = x
          · simp [hrx]; omega
          · have : ¬ x = r.1 := fun e => hrx e.symm
            simp [hrx, this]
        · simp; rcases i5 with h | h; exact .inl h; exact .inr h
    · have hs1 : ¬ acc.2 ≤ 0 := fun h => hs (.inl h)
      have hs2 : ¬ x < acc.1 := fun h => hs (.inr h)
      have e : BufSys.scan acc x = (acc.1, if x = acc.1 then acc.2 + 1 else acc.2) := by
        simp only [BufSys.scan, hs, if_false]; split <;> simp
      rw [e] at hr
      obtain ⟨ih1, _⟩ := ih (acc.1, if x = acc.1 then acc.2 + 1 else acc.2) r hr (by simp only; split <;> omega)
      obtain ⟨i1, i2, i3, i4, i5⟩ := ih1 (by simp only; split <;> omega)
      simp only at i1 i2 i3 i4 i5
      refine ⟨?_, by intro h0; omega⟩
      intro hp
      refine ⟨i1, ?_, ?_, i4, ?_⟩
      · intro y hy; rcases List.mem_cons.1 hy with rfl | hy
        · omega
        · exact i2 y hy
      · rw [i3, List.count_cons]
        by_cases hr : r.1 = acc.1
        · by_cases hx : x = acc.1
          · simp [hr, hx]; omega
          · have : ¬ x = r.1 := by rw [hr]; exact hx
            simp [hr, hx, this]
        · have : ¬ x = r.1 := by intro e; omega
          simp [hr, this]
      · rcases i5 with h | h
        · exact .inl h
        · exact .inr (by simp [h])

/-! ## Logs -/

theorem obtained_append (a b : List Call) : obtained (a ++ b) = obtained a ++ obtained b := by
  induction a with
  | nil => rfl
  | cons c a ih =>
    cases c with
    | read n r => cases r <;> simp [obtained, ih]
    | _ => simp [obtained, ih]

theorem ended_append (a b : List Call) : ended (a ++ b) = (ended a).or (ended b) := by
  induction a with
  | nil => rfl
  | cons c a ih =>
    cases c with
    | read n r =>
      cases r with
      | got d e =>
        cases e with
        | none => simpa [ended] using ih
        | some e =>
          simp only [List.cons_append, ended]
          split <;> simp [ih]
      | _ => simpa [ended] using ih
    | _ => simpa [ended] using ih

/-- What the read loop asks for: positive requests that together with what was obtained before stay
within `num`, and nothing after an error. -/
def ReqOk (num : Int) (ext : List Call) : Prop :=
  ∀ pre c post, ext = pre ++ c :: post →
    ∃ (n : Nat) (r : RResp), c = .read n r ∧ 0 < n ∧ (obtained pre).length + (n : Int) ≤ num ∧ ended pre = none ∧
      (∀ n' d', Call.read n' d' ∈ pre → ∃ d, d' = .got d none ∧ d.length ≤ n')

theorem ReqOk.nil (num : Int) : ReqOk num [] := by
  intro pre c post h; simp at h

theorem ReqOk.single {num : Int} {n : Nat} {r : RResp} (h : 0 < n) (hn : (n : Int) ≤ num) :
    ReqOk num [.read n r] := by
  intro pre c post he
  cases pre with
  | nil =>
    simp at he
    exact ⟨n, r, he.1.symm, h, by simpa [obtained] using hn, rfl, by simp⟩
  | cons x pre => simp at he

theorem ReqOk.cons {num : Int} {n : Nat} {d : List Byte} {ext : List Call} (h : 0 < n)
    (hn : (n : Int) ≤ num) (hd : d.length ≤ n) (hx : ReqOk (num - d.length) ext) :
    ReqOk num (.read n (.got d none) :: ext) := by
  intro pre c post he
  cases pre with
  | nil =>
    simp at he
    exact ⟨n, _, he.1.symm, h, by simpa [obtained] using hn, rfl, by simp⟩
  | cons x pre =>
    simp at he
    obtain ⟨rfl, he⟩ := he
    obtain ⟨n', r', h1, h2, h3, h4, h5⟩ := hx pre c post he
    refine ⟨n', r', h1, h2, ?_, ?_, ?_⟩
    · simp [obtained, hd]; omega
    · simpa [ended] using h4
    · intro n2 d2 hm
      rcases List.mem_cons.1 hm with hm | hm
      · cases hm; exact ⟨d, rfl, hd⟩
      · exact h5 n2 d2 hm

/-! ## The read loop -/

theorem readLoop_done {σ : Type} (R : Rdr σ) (fuel : Nat) (c : BufCommon σ) (num : Int) (h : ¬ num > 0) :
    BufSys.readLoop R fuel c num = (c, none) := by
  unfold BufSys.readLoop; rw [if_pos h]

theorem readLoop_zero {σ : Type} (R : Rdr σ) (c : BufCommon σ) (num : Int) (h : num > 0) :
    BufSys.readLoop R 0 c num = (c, some .hang) := by
  unfold BufSys.readLoop; rw [if_neg (by omega)]

theorem readLoop_succ {σ : Type} (R : Rdr σ) (fuel : Nat) (c : BufCommon σ) (num : Int) (h : num > 0)
    (hR : c.hasR = true) (st' : σ) (resp : RResp) (hr : R.read c.rdr num.toNat = (st', resp)) :
    BufSys.readLoop R (fuel + 1) c num =
      match (generalizing := false) resp with
      | .panics p => ({ c with rdr := st' }, some (.panic p))
      | .negative => ({ c with rdr := st' }, some (.panic .badReader))
      | .got d err =>
        if ¬ (d.length : Int) ≤ num then ({ c with rdr := st' }, some (.panic .badReader))
        else match (generalizing := false) err with
          | some e => ({ c with rdr := st', bytes := c.bytes ++ d,
                                length := c.start + (c.bytes ++ d).length, err := some e }, none)
          | none => BufSys.readLoop R fuel { c with rdr := st', bytes := c.bytes ++ d } (num - d.length) := by
  rw [BufSys.readLoop, if_neg (by omega)]
  simp only [hr, hR]
  cases resp <;> rfl

/-- What a run of the loop did. -/
structure LoopRes {σ : Type} (c : BufCommon (Rec σ)) (num : Int) (r : BufCommon (Rec σ) × Option Out)
    (ext : List Call) : Prop where
  log : r.1.rdr.log = c.rdr.log ++ ext
  bytes : r.1.bytes = c.bytes ++ obtained ext
  hasR : r.1.hasR = c.hasR
  bodies : r.1.bodies = c.bodies
  start : r.1.start = c.start
  refcnt : r.1.refcnt = c.refcnt
  len : ((obtained ext).length : Int) ≤ max num 0
  req : ReqOk num ext
  res : (r.2 = none ∧ r.1.err = none ∧ r.1.length = c.length ∧ ended ext = none ∧
          (obtained ext).length = num.toNat) ∨
       (∃ e, r.2 = none ∧ r.1.err = some e ∧ ended ext = some e ∧
          r.1.length = r.1.start + r.1.bytes.length) ∨
       (∃ o, r.2 = some o ∧ r.1.err = none ∧ r.1.length = c.length ∧ ended ext = none ∧
          (o = .hang ∨ ∃ p, o = .panic p ∧ Blame p ext))

theorem readLoop_spec {σ : Type} (R : Rdr σ) (fuel : Nat) : ∀ (c : BufCommon (Rec σ)) (num : Int),
    c.hasR = true → c.err = none →
    ∃ ext : List Call, LoopRes c num (BufSys.readLoop R.record fuel c num) ext := by
  induction fuel with
  | zero =>
    intro c num hR he
    by_cases hn : num > 0
    · rw [readLoop_zero _ _ _ hn]
      exact ⟨[], by simp, by simp [obtained], rfl, rfl, rfl, rfl, by simp [obtained]; omega, ReqOk.nil _,
        .inr (.inr ⟨_, rfl, he, rfl, rfl, .inl rfl⟩)⟩
    · rw [readLoop_done _ _ _ _ hn]
      exact ⟨[], by simp, by simp [obtained], rfl, rfl, rfl, rfl, by simp [obtained]; omega, ReqOk.nil _,
        .inl ⟨rfl, he, rfl, rfl, by simp [obtained]; omega⟩⟩
  | succ fuel ih =>
    intro c num hR he
    by_cases hn : num > 0
    · have hnp : 0 < num.toNat := by omega
      have hnn : ((num.toNat : Nat) : Int) ≤ num := by omega
      rcases hrr : R.read c.rdr.inner num.toNat with ⟨st', resp⟩
      have hrr' : R.record.read c.rdr num.toNat = (⟨st', c.rdr.log ++ [.read num.toNat resp]⟩, resp) := by
        simp [Rdr.record, hrr]
      rw [readLoop_succ _ _ _ _ hn hR _ _ hrr']
      cases resp with
      | panics p =>
        exact ⟨[.read num.toNat (.panics p)], rfl, by simp [obtained], rfl, rfl, rfl, rfl,
          by simp [obtained]; omega, ReqOk.single hnp hnn,
          .inr (.inr ⟨_, rfl, he, rfl, rfl, .inr ⟨p, rfl, [], _, _, rfl, .inr rfl⟩⟩)⟩
      | negative =>
        exact ⟨[.read num.toNat .negative], rfl, by simp [obtained], rfl, rfl, rfl, rfl,
          by simp [obtained]; omega, ReqOk.single hnp hnn,
          .inr (.inr ⟨_, rfl, he, rfl, rfl, .inr ⟨_, rfl, [], _, _, rfl, .inl ⟨rfl, .inl rfl⟩⟩⟩)⟩
      | got d err =>
        simp only
        by_cases hd : (d.length : Int) ≤ num
        · rw [if_neg (by omega)]
          have hdn : d.length ≤ num.toNat := by omega
          cases err with
          | some e =>
            exact ⟨[.read num.toNat (.got d (some e))], rfl, by simp [obtained, hdn], rfl, rfl, rfl, rfl,
              by simp [obtained, hdn]; omega, ReqOk.single hnp hnn,
              .inr (.inl ⟨e, rfl, rfl, by simp [ended, hdn], rfl⟩)⟩
          | none =>
            obtain ⟨ext, h1, h2, h3, h4, h5, h6, h7, h8, h9⟩ :=
              ih { c with rdr := ⟨st', c.rdr.log ++ [.read num.toNat (.got d none)]⟩, bytes := c.bytes ++ d }
                (num - d.length) hR he
            refine ⟨.read num.toNat (.got d none) :: ext, ?_, ?_, h3, h4, h5, h6, ?_, ReqOk.cons hnp hnn hdn h8, ?_⟩
            · rw [h1]; simp
            · rw [h2]; simp [obtained, hdn]
            · simp [obtained, hdn]; omega
            · rcases h9 with ⟨a1, a2, a3, a4, a5⟩ | ⟨e, a1, a2, a3, a4⟩ | ⟨o, a1, a2, a3, a4, a5⟩
              · left
                refine ⟨a1, a2, a3, by simpa [ended] using a4, ?_⟩
                simp [obtained, hdn]; omega
              · right; left
                exact ⟨e, a1, a2, by simpa [ended] using a3, a4⟩
              · right; right
                refine ⟨o, a1, a2, a3, by simpa [ended] using a4, ?_⟩
                rcases a5 with a5 | ⟨p, a5, pre, n, r, a6, a7⟩
                · exact .inl a5
                · exact .inr ⟨p, a5, .read num.toNat (.got d none) :: pre, n, r, by simp [a6], a7⟩
        · rw [if_pos hd]
          have hdn : ¬ d.length ≤ num.toNat := by omega
          refine ⟨[.read num.toNat (.got d err)], rfl, by simp [obtained, hdn], rfl, rfl, rfl, rfl,
            by simp [obtained, hdn]; omega, ReqOk.single hnp hnn,
            .inr (.inr ⟨_, rfl, he, rfl, ?_, .inr ⟨_, rfl, [], _, _, rfl, .inl ⟨rfl, .inr ⟨d, err, rfl, by omega⟩⟩⟩⟩)⟩
          cases err <;> simp [ended, hdn]
    · rw [readLoop_done _ _ _ _ hn]
      exact ⟨[], by simp, by simp [obtained], rfl, rfl, rfl, rfl, by simp [obtained]; omega, ReqOk.nil _,
        .inl ⟨rfl, he, rfl, rfl, by simp [obtained]; omega⟩⟩

end Verif
