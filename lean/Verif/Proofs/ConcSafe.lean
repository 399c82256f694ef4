import Verif.Proofs.ConcSim

/-!
# Rules for keeping to a discipline
-/

set_option autoImplicit false

namespace Verif

variable {Γ : Sig} {D : Disc Γ} {H : Held} {fin : Bool} {M : Mem Γ} {h : Nat}

namespace Safe

theorem ite {c : Prop} [Decidable c] {p q : Prog Γ} (hp : c → Safe D H fin M p) (hq : ¬ c → Safe D H fin M q) :
    Safe D H fin M (if c then p else q) := by
  by_cases hc : c
  · rw [if_pos hc]; exact hp hc
  · rw [if_neg hc]; exact hq hc

theorem get_c {f : Γ.CF} {k} (hc : H.c = true) (hk : Safe D H fin M (k (M (.c f)))) : Safe D H fin M (.get (.c f) k) := .inl ⟨hc, hk⟩

theorem get_next {k} (hc : H.c = true) (hk : Safe D H fin M (k (M .next))) : Safe D H fin M (.get .next k) := .inl ⟨hc, hk⟩

theorem get_b {f : Γ.BF} {k} (hb : H.b = some h) (hk : Safe D H fin M (k (M (.b h f)))) : Safe D H fin M (.get (.b h f) k) :=
  .inl ⟨.inl hb, hk⟩

/-- A member's field, with the family's lock. -/
theorem get_memb {f : Γ.BF} {k} (hc : H.c = true) (hf : D.shared f) (hm : D.mem M h) (hk : Safe D H fin M (k (M (.b h f)))) :
    Safe D H fin M (.get (.b h f) k) := .inl ⟨.inr (.inr ⟨hc, hf, hm⟩), hk⟩

theorem get_new {f : Γ.BF} {k} (hc : H.c = true) (hn : M .next ≤ h) (hk : Safe D H fin M (k (M (.b h f)))) :
    Safe D H fin M (.get (.b h f) k) := .inl ⟨.inr (.inl ⟨hc, hn⟩), hk⟩

theorem put_b {f : Γ.BF} {v k} (hb : H.b = some h) (hf : ¬ D.shared f ∨ H.c = true ∨ ¬ D.mem M h)
    (hk : Safe D H fin (M.set (.b h f) v) k) : Safe D H fin M (.put (.b h f) v k) := ⟨.inl ⟨hb, hf⟩, .inl ⟨id, hk⟩⟩

theorem put_new {i : Nat} {f : Γ.BF} {v k} (hc : H.c = true) (hi : M .next ≤ i) (hk : Safe D H fin (M.set (.b i f) v) k) :
    Safe D H fin M (.put (.b i f) v k) := ⟨.inr ⟨hc, hi⟩, .inl ⟨id, hk⟩⟩

theorem put_c {f : Γ.CF} {v k} (hc : H.c = true) (hr : ¬ D.racyC f)
    (hm : ∀ h, (D.mem (M.set (.c f) v) h ↔ D.mem M h) ∨ H.b = some h ∨ M .next ≤ h)
    (hk : Safe D H fin (M.set (.c f) v) k) : Safe D H fin M (.put (.c f) v k) := ⟨⟨hc, hm⟩, .inl ⟨hr, hk⟩⟩

theorem put_next {v : Nat} {k} (hc : H.c = true) (hv : M .next ≤ v) (hk : Safe D H true (M.set .next v) k) :
    Safe D H false M (.put .next v k) := ⟨⟨hc, hv⟩, .inr ⟨rfl, trivial, hk⟩⟩

theorem lock_body {k} (hh : h < M .next) (hk : ∀ M' : Mem Γ, M .next ≤ M' .next → Safe D ⟨some h, false⟩ false M' k) :
    Safe D .none false M (.lock (.body h) k) := ⟨rfl, rfl, hh, fun M' hr => hk M' hr.next⟩

theorem lock_common {k} (hk : ∀ M' : Mem Γ, Safe D ⟨some h, true⟩ false M' k) :
    Safe D ⟨some h, false⟩ false M (.lock .common k) := ⟨rfl, rfl, fun M' _ => hk M'⟩

theorem unlock_common {k} (hk : ∀ M' : Mem Γ, ((∃ f, D.shared f) → (D.mem M' h ↔ D.mem M h)) → Safe D ⟨some h, false⟩ true M' k) :
    Safe D ⟨some h, true⟩ fin M (.unlock .common k) := ⟨rfl, fun M' hr => hk M' (hr.mem h rfl)⟩

theorem unlock_body {o : Out} : Safe D ⟨some h, false⟩ fin M (.unlock (.body h) (.ret o)) := ⟨rfl, fun _ _ => rfl⟩

end Safe

theorem Mem.set_self (M : Mem Γ) (l : Loc Γ) : M.set l (M l) = M := by
  funext l'
  by_cases e : l' = l
  · subst e; rw [Mem.set_same]
  · rw [Mem.set_other _ _ e]

theorem Mem.next_b (M : Mem Γ) (h : Nat) (f : Γ.BF) (v) : (M.set (.b h f) v) .next = M .next := Mem.set_other _ _ (by simp)

theorem Mem.next_c (M : Mem Γ) (f : Γ.CF) (v) : (M.set (.c f) v) .next = M .next := Mem.set_other _ _ (by simp)

end Verif
