import Verif.Spec.Cursor
import Verif.Spec.Observe
import Verif.Proofs.Sim

/-! # Facts about families of cursors -/

set_option linter.unusedSimpArgs false

set_option autoImplicit false

namespace Verif
open Spec

namespace Spec

theorem delivered_append (xs ys : List Out) : delivered (xs ++ ys) = delivered xs ++ delivered ys := by
  induction xs with
  | nil => rfl
  | cons x xs ih => cases x <;> simp [delivered, ih]

theorem run_append (cfg : Cfg) (f : List Cursor) (xs ys : List (Choice × Op)) :
    Spec.run cfg f (xs ++ ys) =
      ((Spec.run cfg (Spec.run cfg f xs).1 ys).1,
        (Spec.run cfg f xs).2 ++ (Spec.run cfg (Spec.run cfg f xs).1 ys).2) := by
  induction xs generalizing f with
  | nil => simp [Spec.run]
  | cons x xs ih => simp [Spec.run, ih]

theorem run_length (cfg : Cfg) (f : List Cursor) (xs : List (Choice × Op)) :
    (Spec.run cfg f xs).2.length = xs.length := by
  induction xs generalizing f with
  | nil => simp [Spec.run]
  | cons x xs ih => simp [Spec.run, ih]

theorem set_get {α : Type} {l : List α} {i : Nat} {a b : α} (h : l[i]? = some a) :
    (l.set i b)[i]? = some b := by
  obtain ⟨h', e⟩ := List.getElem?_eq_some_iff.1 h
  simp [h']

/-- The default choice at every call. -/
def dflt (ops : List Op) : List (Choice × Op) := ops.map (({} : Choice), ·)

/-- Reading after the end has been reported. -/
theorem reads_done (cfg : Cfg) (h : Nat) (xs : List (Choice × Op)) (f : List Cursor) (c : Cursor)
    (hc : f[h]? = some c) (ho : c.isOpen = true) (hd : c.done = true)
    (hx : ∀ x ∈ xs, ∃ k, x.2 = Op.read h k) :
    Spec.run cfg f xs = (f, xs.map (fun _ => Out.read [] (some cfg.fin))) := by
  induction xs with
  | nil => simp [Spec.run]
  | cons x xs ih =>
    obtain ⟨ch, op⟩ := x
    obtain ⟨k, hk⟩ := hx (ch, op) (by simp)
    simp only at hk; subst hk
    simp only [Spec.run, Spec.step, Op.h, hc]
    have e : c.read cfg ch k = (c, .read [] (some cfg.fin)) := by simp [Cursor.read, ho, hd]
    simp only [e, set_self hc]
    rw [ih (fun x hx' => hx x (by simp [hx']))]
    simp

/-- Reading from position `p` with buffers `ks`: the exact results (no early end reports). -/
theorem reads_exact (cfg : Cfg) (h : Nat) (ks : List Nat) (f : List Cursor) (c : Cursor)
    (hc : f[h]? = some c) (ho : c.isOpen = true) (hd : c.done = false) (hp : c.pos ≤ c.content.length) :
    ∀ (i k : Nat), ks[i]? = some k →
      (Spec.run cfg f (dflt (ks.map (Op.read h)))).2[i]? =
        some (Out.read ((c.content.drop (c.pos + (ks.take i).sum)).take k)
          (if c.content.length < c.pos + (ks.take (i+1)).sum then some cfg.fin else none)) := by
  induction ks generalizing f c with
  | nil => intro i k hi; simp at hi
  | cons k0 ks ih =>
    intro i k hi
    simp only [dflt, List.map_cons, Spec.run, Spec.step, Op.h, hc]
    by_cases hend : c.content.length < c.pos + k0
    · have e : c.read cfg {} k0 =
          ({ c with pos := c.content.length, done := true },
            .read ((c.content.drop c.pos).take k0) (some cfg.fin)) := by
        simp [Cursor.read, ho, hd, hend]; omega
      simp only [e]
      cases i with
      | zero =>
        simp at hi; subst hi
        simp [hend]
      | succ i =>
        simp only [List.getElem?_cons_succ] at hi ⊢
        rw [reads_done cfg h _ (f.set h _) _ (set_get (b :=
          { c with pos := c.content.length, done := true }) hc) ho rfl (by simp)]
        have e1 : c.content.length < c.pos + ((k0 :: ks).take (i + 1 + 1)).sum := by
          simp [List.sum_cons]; omega
        have e2 : c.content.length ≤ c.pos + ((k0 :: ks).take (i + 1)).sum := by
          simp [List.sum_cons]; omega
        rw [if_pos e1, List.drop_eq_nil_of_le e2]
        simp [hi]
    · have e : c.read cfg {} k0 =
          ({ c with pos := c.pos + k0, done := false },
            .read ((c.content.drop c.pos).take k0) none) := by
        simp [Cursor.read, ho, hd, hend]; omega
      simp only [e]
      cases i with
      | zero =>
        simp at hi; subst hi
        simp [hend]
      | succ i =>
        simp only [List.getElem?_cons_succ] at hi ⊢
        have := ih (f.set h { c with pos := c.pos + k0, done := false }) { c with pos := c.pos + k0, done := false } (set_get hc) ho rfl
          (by simp; omega) i k hi
        simp only [dflt] at this
        rw [this]
        simp [Nat.add_assoc]

end Spec
end Verif

namespace Verif
namespace Spec

/-- Reading with arbitrary choices: what is delivered, and what an error means. -/
theorem reads_delivered (cfg : Cfg) (h : Nat) (ks : List Nat) (chs : List Choice)
    (hl : chs.length = ks.length) (hcr : ∀ ch ∈ chs, ch.crash = none) (f : List Cursor) (c : Cursor)
    (hc : f[h]? = some c) (ho : c.isOpen = true) (hd : c.done = true → c.pos = c.content.length)
    (hp : c.pos ≤ c.content.length) :
    let outs := (Spec.run cfg f (chs.zip (ks.map (Op.read h)))).2
    delivered outs = (c.content.drop c.pos).take ks.sum ∧
    (∀ (i : Nat) (o : Out), outs[i]? = some o → ∃ d e, o = .read d e ∧
      (e ≠ none → e = some cfg.fin ∧ delivered (outs.take (i+1)) = c.content.drop c.pos)) := by
  induction ks generalizing f c chs with
  | nil => simp [Spec.run, delivered]
  | cons k ks ih =>
    cases chs with
    | nil => simp at hl
    | cons ch chs =>
      simp only [List.map_cons, List.zip_cons_cons, Spec.run, Spec.step, Op.h, hc]
      have key : ∃ d e c', c.read cfg ch k = (c', .read d e) ∧ c'.isOpen = true ∧
          c'.content = c.content ∧ c'.pos = c.pos + d.length ∧ d = (c.content.drop c.pos).take k ∧
          c'.pos ≤ c.content.length ∧
          (c'.done = true → c'.pos = c.content.length) ∧
          (e ≠ none → e = some cfg.fin ∧ c'.done = true) := by
        unfold Cursor.read
        simp only [ho]
        by_cases hdn : c.done = true
        · have := hd hdn
          exact ⟨[], some cfg.fin, c, by simp [hdn], ho, rfl, by simp, by simp [this], hp, hd, by simp [hdn]⟩
        · have hdn' : c.done = false := by simpa using hdn
          refine ⟨_, _, _, by rw [if_neg (by simp), if_neg hdn, hcr ch (by simp)], ?_⟩
          simp
          refine ⟨by omega, ?_, ?_⟩
          · intro hh; rcases hh with hh | hh <;> omega
          · intro hh
            refine ⟨hh, ?_⟩
            by_cases hle : c.pos + k ≤ c.content.length
            · have := hh hle; exact .inr ⟨⟨this.1, this.2.1⟩, this.2.2⟩
            · exact .inl (by omega)
      obtain ⟨d, e, c', hr, ho', hct, hpos, hdk, hple, hd', he⟩ := key
      have := ih chs (by simpa using hl) (fun x hx => hcr x (by simp [hx])) (f.set h c') c' (set_get hc) ho' (by rw [hct]; exact hd')
        (by rw [hct]; exact hple)
      simp only [hr]
      simp only [delivered]
      rw [hct, hpos] at this
      have hsum : d ++ ((c.content.drop (c.pos + d.length)).take ks.sum) =
          (c.content.drop c.pos).take (k :: ks).sum := by
        rw [List.sum_cons, List.take_add]
        subst hdk
        congr 1
        rw [List.drop_drop]
        by_cases hk : c.pos + k ≤ c.content.length
        · congr 2; simp; omega
        · rw [List.drop_eq_nil_of_le (by simp; omega), List.drop_eq_nil_of_le (by omega)]
      refine ⟨by rw [this.1, hsum], ?_⟩
      intro i o hi
      cases i with
      | zero =>
        simp at hi
        refine ⟨d, e, hi.symm, ?_⟩
        intro hne
        obtain ⟨h1, h2⟩ := he hne
        refine ⟨h1, ?_⟩
        have h3 := hd' h2
        simp [delivered]
        subst hdk
        rw [List.take_of_length_le]
        simp at hpos ⊢; omega
      | succ i =>
        simp only [List.getElem?_cons_succ] at hi
        obtain ⟨d2, e2, h1, h2⟩ := this.2 i o hi
        refine ⟨d2, e2, h1, ?_⟩
        intro hne
        obtain ⟨h3, h4⟩ := h2 hne
        refine ⟨h3, ?_⟩
        rw [List.take_succ_cons]
        simp only [delivered, h4]
        rw [← List.drop_drop]
        have : d = (c.content.drop c.pos).take d.length := by subst hdk; simp [List.take_take]
        conv => lhs; lhs; rw [this]
        rw [List.take_append_drop]

/-- Cursors stay inside their content, and closed or not they keep it. -/
def FamOk (data : List Byte) (f : List Cursor) : Prop :=
  ∀ c ∈ f, c.content = data ∧ c.pos ≤ data.length

/-- In addition the end is only reported at the end. -/
def FamTight (data : List Byte) (f : List Cursor) : Prop :=
  FamOk data f ∧ ∀ c ∈ f, c.done = true → c.pos = data.length

theorem mem_set_cases {α : Type} {l : List α} {i : Nat} {a x : α} (h : x ∈ l.set i a) : x ∈ l ∨ x = a := by
  rcases List.mem_or_eq_of_mem_set h with h | h
  · exact .inl h
  · exact .inr h

/-- The effect of one step on the addressed cursor. -/
inductive StepShape (cfg : Cfg) (ch : Choice) (f : List Cursor) (op : Op) : List Cursor → Prop
  | same : StepShape cfg ch f op f
  | set (c c' : Cursor) (hc : f[op.h]? = some c)
      (hcont : c'.content = c.content) (hpos : c.pos ≤ c.content.length → c'.pos ≤ c.content.length)
      (hdone : c.pos ≤ c.content.length → (c.done = true → c.pos = c.content.length) → NoPartialWrite op →
        c'.done = true → c'.pos = c.content.length) :
      StepShape cfg ch f op (f.set op.h c')
  | copy (c : Cursor) (hc : f[op.h]? = some c) : StepShape cfg ch f op (f ++ [c])

theorem step_shape (cfg : Cfg) (ch : Choice) (f : List Cursor) (op : Op) :
    StepShape cfg ch f op (Spec.step cfg ch f op).1 := by
  unfold Spec.step
  cases hc : f[op.h]? with
  | none => exact .same
  | some c =>
    cases op with
    | read h k =>
      refine .set c _ hc ?_ ?_ ?_
      · simp only [Cursor.read]; split; rfl; split; rfl; split <;> rfl
      · intro hp
        simp only [Cursor.read]; split; exact hp; split; exact hp; split; exact hp
        simp; omega
      · intro hp hd _
        simp only [Cursor.read]; split; exact hd; split; exact hd; split; exact hd
        simp; omega
    | readAt h k off => simp only; split <;> exact .same
    | seek h off wh =>
      simp only
      split
      · refine .set c _ hc ?_ ?_ ?_
        · simp only [Cursor.seek]; repeat' split
          all_goals rfl
        · intro hp; simp only [Cursor.seek]; repeat' split
          all_goals first | exact hp | (simp; omega)
        · intro hp hd _; simp only [Cursor.seek]; repeat' split
          all_goals first | exact hd | simp
      · exact .same
    | remaining h => exact .same
    | writeTo h w =>
      simp only
      split
      · refine .set c _ hc ?_ ?_ ?_
        · simp only [Cursor.writeTo]; repeat' split
          all_goals rfl
        · intro hp; simp only [Cursor.writeTo]; repeat' split
          all_goals first | exact hp | (rename_i hh; simp at hh ⊢; omega)
        · intro hp hd hnp; simp only [Cursor.writeTo]; repeat' split
          all_goals first
            | exact hd
            | (rename_i hw hh
               have := hnp (c.content.drop c.pos) _ _ hw
               simp at hh this ⊢; omega)
      · exact .same
    | copy h =>
      simp only
      split
      · exact .copy c hc
      · exact .same
    | close h =>
      simp only
      split
      · exact .set c _ hc rfl (fun h => h) (fun _ h _ => h)
      · exact .same
    | unwrap h => exact .same

theorem famOk_step {data : List Byte} {cfg : Cfg} {ch : Choice} {f : List Cursor} (op : Op)
    (hf : FamOk data f) : FamOk data (Spec.step cfg ch f op).1 := by
  have := step_shape cfg ch f op
  generalize (Spec.step cfg ch f op).1 = f' at this ⊢
  cases this with
  | same => exact hf
  | set c c' hc h1 h2 h3 =>
    intro x hx
    have := hf c (List.mem_of_getElem? hc)
    rcases mem_set_cases hx with hx | rfl
    · exact hf x hx
    · rw [h1]; exact ⟨this.1, by rw [← this.1]; exact h2 (by rw [this.1]; exact this.2)⟩
  | copy c hc =>
    intro x hx
    rcases List.mem_append.1 hx with hx | hx
    · exact hf x hx
    · simp at hx; subst hx; exact hf _ (List.mem_of_getElem? hc)

theorem famTight_step {data : List Byte} {cfg : Cfg} {ch : Choice} {f : List Cursor} (op : Op)
    (hnp : NoPartialWrite op) (hf : FamTight data f) : FamTight data (Spec.step cfg ch f op).1 := by
  refine ⟨famOk_step op hf.1, ?_⟩
  have := step_shape cfg ch f op
  generalize (Spec.step cfg ch f op).1 = f' at this ⊢
  cases this with
  | same => exact hf.2
  | set c c' hc h1 h2 h3 =>
    intro x hx
    have hm := List.mem_of_getElem? hc
    have := hf.1 c hm
    rcases mem_set_cases hx with hx | rfl
    · exact hf.2 x hx
    · rw [← this.1]; exact h3 (by rw [this.1]; exact this.2) (by rw [this.1]; exact hf.2 c hm) hnp
  | copy c hc =>
    intro x hx
    rcases List.mem_append.1 hx with hx | hx
    · exact hf.2 x hx
    · simp at hx; subst hx; exact hf.2 _ (List.mem_of_getElem? hc)

theorem famOk_run {data : List Byte} {cfg : Cfg} (xs : List (Choice × Op)) {f : List Cursor}
    (hf : FamOk data f) : FamOk data (Spec.run cfg f xs).1 := by
  induction xs generalizing f with
  | nil => exact hf
  | cons x xs ih => exact ih (famOk_step _ hf)

theorem famTight_run {data : List Byte} {cfg : Cfg} (xs : List (Choice × Op)) {f : List Cursor}
    (hx : ∀ x ∈ xs, NoPartialWrite x.2)
    (hf : FamTight data f) : FamTight data (Spec.run cfg f xs).1 := by
  induction xs generalizing f with
  | nil => exact hf
  | cons x xs ih => exact ih (fun y hy => hx y (by simp [hy])) (famTight_step _ (hx x (by simp)) hf)

/-- Without `WriteTo` nothing else is needed. -/
theorem famTight_run_nd {data : List Byte} {cfg : Cfg} (hd : cfg.drains = false) (xs : List (Choice × Op))
    {f : List Cursor} (hf : FamTight data f) : FamTight data (Spec.run cfg f xs).1 := by
  induction xs generalizing f with
  | nil => exact hf
  | cons x xs ih =>
    refine ih ?_
    obtain ⟨ch, op⟩ := x
    cases op with
    | writeTo h w =>
      simp only [Spec.step, hd, Bool.false_eq_true, if_false]
      split <;> exact hf
    | _ => exact famTight_step _ trivial hf

theorem famTight_init (data : List Byte) : FamTight data [{ content := data }] := by
  refine ⟨?_, ?_⟩ <;> intro c hc <;> simp at hc <;> subst hc <;> simp

end Spec
end Verif
