import Verif.Proofs.BufRun

/-!
# Readers whose `Close` panics

Until its `Close` panics, such a reader cannot be told from one whose `Close` returns nil instead.
-/

set_option autoImplicit false

namespace Verif
open Spec

variable {σ : Type}

/-- The same reader, but `Close` returns nil where it would panic. -/
def Rdr.calm (R : Rdr σ) : Rdr σ :=
  { R with close := fun st => ((R.close st).1, match (R.close st).2 with | .ok e => .ok e | .panics _ => .ok none) }

instance (R : Rdr σ) : R.calm.CloseOk := ⟨fun _ st => by
  simp only [Rdr.calm]
  cases (R.close st).2 with
  | ok e => exact ⟨e, rfl⟩
  | panics p => exact ⟨none, rfl⟩⟩

theorem readLoop_read {R R' : Rdr σ} (h : R.read = R'.read) (fuel : Nat) : ∀ (c : BufCommon σ) (n : Int),
    BufSys.readLoop R fuel c n = BufSys.readLoop R' fuel c n := by
  induction fuel with
  | zero => intro c n; unfold BufSys.readLoop; rfl
  | succ fuel ih =>
    intro c n
    unfold BufSys.readLoop
    rw [h]
    simp only [ih]

theorem fill_read {R R' : Rdr σ} (h : R.read = R'.read) (fuel : Nat) (c : BufCommon σ) (n : Int) :
    BufSys.fill R fuel c n = BufSys.fill R' fuel c n := by
  unfold BufSys.fill
  simp only [readLoop_read h]

theorem unref_calm (R : Rdr σ) (s : BufSys (Rec σ)) (h : Nat) (b : BufBody) :
    BufSys.unref R.record s h b = BufSys.unref R.calm.record s h b ∨
      ∃ p, (BufSys.unref R.record s h b).2.2 = some p ∧
        (BufSys.unref R.record s h b).1.common.rdr.log = s.common.rdr.log ++ [.close (.panics p)] := by
  have hic : R.record.isCloser = R.calm.record.isCloser := rfl
  simp only [BufSys.unref, hic]
  split
  · exact .inl rfl
  · split
    · rcases hc : (R.close s.common.rdr.inner).2 with e | p
      · left
        have h1 : R.record.close s.common.rdr = R.calm.record.close s.common.rdr := by
          simp only [Rdr.record, Rdr.calm, hc]
        rw [h1]
      · right
        have h1 : R.record.close s.common.rdr =
            (⟨(R.close s.common.rdr.inner).1, s.common.rdr.log ++ [.close (.panics p)]⟩, .panics p) := by
          simp only [Rdr.record, hc]
        rw [h1]
        exact ⟨p, rfl, rfl⟩
    · exact .inl rfl

/-- The two readers behave alike in a call, unless `Close` panics in it. -/
theorem step_calm (R : Rdr σ) (fuel : Nat) (s : BufSys (Rec σ)) (op : Op) :
    s.step R.record fuel op = s.step R.calm.record fuel op ∨
      ∃ p, (s.step R.record fuel op).2 = .panic p ∧
        (s.step R.record fuel op).1.common.rdr.log = s.common.rdr.log ++ [.close (.panics p)] := by
  have hread : R.record.read = R.calm.record.read := rfl
  have hic : R.record.isCloser = R.calm.record.isCloser := rfl
  unfold BufSys.step
  cases s.heap[op.h]? with
  | none => exact .inl rfl
  | some b =>
    cases op with
    | read h k => left; simp only [BufSys.read, fill_read hread]
    | close h =>
      simp only [BufSys.close]
      by_cases hcl : b.closed = true
      · left; rw [if_pos hcl, if_pos hcl]
      rw [if_neg hcl, if_neg hcl]
      rcases unref_calm R s h b with h1 | ⟨p, h1, h2⟩
      · left; rw [h1]
      · right
        refine ⟨p, ?_, ?_⟩
        · rw [h1]
        · rw [h1]; exact h2
    | _ => exact .inl rfl

/-- The log only grows. -/
theorem readLoop_log (R : Rdr σ) (fuel : Nat) : ∀ (c : BufCommon (Rec σ)) (n : Int),
    c.rdr.log <+: (BufSys.readLoop R.record fuel c n).1.rdr.log := by
  induction fuel with
  | zero =>
    intro c n
    unfold BufSys.readLoop
    split <;> exact List.prefix_refl _
  | succ fuel ih =>
    intro c n
    unfold BufSys.readLoop
    split
    · exact List.prefix_refl _
    simp only
    split
    · exact List.prefix_refl _
    have h1 : c.rdr.log <+: (R.record.read c.rdr n.toNat).1.log := ⟨[_], rfl⟩
    split
    · exact h1
    · exact h1
    · split
      · exact h1
      · split
        · exact h1
        · exact h1.trans (ih { c with rdr := (R.record.read c.rdr n.toNat).1, bytes := c.bytes ++ _ } _)

theorem fill_log (R : Rdr σ) (fuel : Nat) (c : BufCommon (Rec σ)) (n : Int) :
    c.rdr.log <+: (BufSys.fill R.record fuel c n).1.rdr.log := by
  unfold BufSys.fill
  simp only
  split
  · split
    · exact List.prefix_refl _
    · generalize hx : BufSys.readLoop R.record fuel c _ = x
      have : c.rdr.log <+: x.1.rdr.log := by
        rw [← hx]
        exact readLoop_log R fuel c _
      split
      · exact this
      · split <;> exact this
  · exact List.prefix_refl _

theorem step_log (R : Rdr σ) (fuel : Nat) (s : BufSys (Rec σ)) (op : Op) :
    s.common.rdr.log <+: (s.step R.record fuel op).1.common.rdr.log := by
  unfold BufSys.step
  cases s.heap[op.h]? with
  | none => exact List.prefix_refl _
  | some b =>
    cases op with
    | read h k =>
      simp only [BufSys.read]
      split
      · exact List.prefix_refl _
      · split
        · exact List.prefix_refl _
        · split
          · exact List.prefix_refl _
          · have := fill_log R fuel s.common (b.offset + k)
            split
            · exact this
            · rw [finishRead_rdr]; exact this
    | copy h =>
      simp only [BufSys.copy, BufSys.ref]
      split
      · exact List.prefix_refl _
      · split
        · exact List.prefix_refl _
        · simp only; split <;> exact List.prefix_refl _
    | close h =>
      simp only [BufSys.close]
      split
      · exact List.prefix_refl _
      · have : s.common.rdr.log <+: (BufSys.unref R.record s h b).1.common.rdr.log := by
          unfold BufSys.unref
          simp only
          split
          · split
            · split
              · rw [updateStart_rdr]; exact List.prefix_refl _
              · exact List.prefix_refl _
            · exact List.prefix_refl _
          · split
            · split <;> exact ⟨[_], rfl⟩
            · exact List.prefix_refl _
        split <;> exact this
    | _ => exact List.prefix_refl _

theorem run_log (R : Rdr σ) (fuel : Nat) (ops : List Op) : ∀ s : BufSys (Rec σ),
    s.common.rdr.log <+: (run (BufSys.step R.record fuel) s ops).1.common.rdr.log := by
  induction ops with
  | nil => intro s; exact List.prefix_refl _
  | cons op ops ih => intro s; rw [run_cons]; exact (step_log R fuel s op).trans (ih _)

/-- Histories in which `Close` does not panic. -/
theorem run_calm (R : Rdr σ) (fuel : Nat) (ops : List Op) : ∀ s : BufSys (Rec σ),
    (∀ p, Call.close (.panics p) ∉ (run (BufSys.step R.record fuel) s ops).1.common.rdr.log) →
    run (BufSys.step R.record fuel) s ops = run (BufSys.step R.calm.record fuel) s ops := by
  induction ops with
  | nil => intro s _; rfl
  | cons op ops ih =>
    intro s h
    rw [run_cons] at h ⊢
    rw [run_cons]
    rcases step_calm R fuel s op with h1 | ⟨p, _, h2⟩
    · rw [← h1, ih _ h]
    · refine absurd ((run_log R fuel ops _).mem ?_) (h p)
      rw [h2]; simp

end Verif
