import Verif.Proofs.WireCut

/-!
# A body that is shorter than declared
-/

set_option autoImplicit false

namespace Verif
namespace WireP
open Spec.Wire Wire

/-- How the fields announce a declared length. -/
theorem announced {c : Choices} {w : NetW} (h1 : 200 ≤ w.status) (hd : w.declared = declaredLength w.hdrs)
    (hn : (w.hdrs.map Prod.fst).Nodup) (hA : ¬ (w.isHEAD = true ∨ w.status = 204 ∨ w.status = 304)) (hnf : NoFraming w.hdrs) (hl : LengthOk w.hdrs)
    (hc : Sound c w) {n : Nat} (hdc : w.declared = some n) :
    (plan c w).chunking = false ∧ valuesOf (sent c w) (lit "transfer-encoding") = [] ∧ valuesOf (sent c w) (lit "content-length") ≠ [] ∧
      ∀ v ∈ valuesOf (sent c w) (lit "content-length"), lengthOf v = some n := by
  obtain ⟨a1, a2, a3⟩ : w.isHEAD ≠ true ∧ w.status ≠ 204 ∧ w.status ≠ 304 := by
    simpa only [not_or] using hA
  have a1' : w.isHEAD = false := by simpa using a1
  have hba : bodyAllowed w.status = true := by
    unfold bodyAllowed
    rw [if_neg (by omega), if_neg a2, if_neg a3]
  have hnb : noBody w = false := by simp [noBody, a1', hba, a2]
  have hsup : suppressed w.status = [] := by simp [suppressed, a3, hba]
  have hte0 : first w.hdrs (lit "Transfer-Encoding") = [] := by unfold first; rw [no_te hnf]; rfl
  have hdel : lit "Content-Length" ∈ (plan c w).del ↔ (plan c w).chunking = true := by
    simp only [plan, hsup, hte0, List.mem_append, mem_if]
    have q1 : lit "Content-Length" ≠ lit "Transfer-Encoding" := by decide
    have q2 : lit "Content-Length" ≠ lit "Connection" := by decide
    simp [q1, q2]
  have hk : (plan c w).chunking = false := by
    rw [plan_chunking hnf, hnb, hdc]; rfl
  have hte : valuesOf (sent c w) (lit "transfer-encoding") = [] := by
    unfold sent
    rw [values_append, kept_te hc hnf, extra_te, hk]
    rfl
  have hnd : lit "Content-Length" ∉ (plan c w).del := fun h => by rw [hdel.1 h] at hk; cases hk
  rw [hd] at hdc
  have hau : autoLen c w = false := by
    unfold autoLen first
    unfold declaredLength at hdc
    cases hg : hdrGet w.hdrs (lit "Content-Length") with
    | nil => rw [hg] at hdc; cases hdc
    | cons x l =>
      rw [hg] at hdc
      cases x with
      | nil => exact absurd hdc (by simp [parseLength])
      | cons a b => simp
  have ev : valuesOf (sent c w) (lit "content-length") =
      valuesOf (entries (c.order.filter fun e => e.1 ∉ (plan c w).del)) (lit "content-length") := by
    unfold sent
    rw [values_append, extra_cl hnf, hau]
    simp only [Bool.false_eq_true, if_false, List.append_nil]
  refine ⟨hk, hte, ?_, ?_⟩
  · have : ∃ u, u ∈ hdrGet w.hdrs (lit "Content-Length") := by
      unfold declaredLength at hdc
      cases hg : hdrGet w.hdrs (lit "Content-Length") with
      | nil => rw [hg] at hdc; cases hdc
      | cons x l => exact ⟨x, by simp⟩
    obtain ⟨u, hu⟩ := this
    rw [ev]
    exact List.ne_nil_of_mem ((kept_cl hc hn hnf).2 ⟨hnd, u, hu, rfl⟩)
  · intro v hv'
    rw [ev] at hv'
    obtain ⟨_, u, hu, rfl⟩ := (kept_cl hc hn hnf).1 hv'
    exact hl.1 n hdc u hu

/-- If the body is too short, what is sent is not a message, and no part of it is. -/
theorem receive_short (strict : Bool) {c : Choices} {w : NetW} (h1 : 200 ≤ w.status) (h2 : w.status ≤ 999) (hd : w.declared = declaredLength w.hdrs)
    (hn : (w.hdrs.map Prod.fst).Nodup) (hA : ¬ (w.isHEAD = true ∨ w.status = 204 ∨ w.status = 304)) (hnf : NoFraming w.hdrs) (hl : LengthOk w.hdrs)
    (hc : Sound c w) {n : Nat} (hdc : w.declared = some n) (hs : w.body.length < n) {s t : GoStr} (hw : wire c w = s ++ t) :
    receive strict w.isHEAD s = none := by
  obtain ⟨k1, k2, k3, k4⟩ := announced h1 hd hn hA hnf hl hc hdc
  have a1 : w.isHEAD = false := by
    cases h : w.isHEAD with
    | false => rfl
    | true => exact absurd (.inl h) hA
  have hp : payload c w (plan c w).chunking = w.body := by simp [payload, a1, k1]
  have hs' : ¬ (w.isHEAD = true ∨ w.status.toNat < 200 ∨ w.status.toNat = 204 ∨ w.status.toNat = 304) := by
    rintro (h | h | h | h)
    · exact hA (.inl h)
    · omega
    · exact hA (.inr (.inl (by omega)))
    · exact hA (.inr (.inr (by omega)))
  have hb : body strict w.isHEAD w.status.toNat (sent c w) w.body = none := by
    unfold body
    rw [if_neg hs', k2]
    dsimp only
    cases hvs : valuesOf (sent c w) (lit "content-length") with
    | nil => exact absurd hvs k3
    | cons v vs =>
      rw [hvs] at k4
      have hv : lengthOf v = some n := k4 v (by simp)
      simp only [hv, Option.bind_eq_bind, Option.bind_some]
      rw [if_neg]
      rintro ⟨-, h⟩
      omega
  have h0 : receive strict w.isHEAD (wire c w) = none := by
    have := head_read strict (by omega) h2 hc []
    rw [List.append_nil, hp, List.append_nil, hb] at this
    exact this
  cases hr : receive strict w.isHEAD s with
  | none => rfl
  | some x =>
    exfalso
    rcases receive_more (r := x.2) (m := x.1) t hr with h | h
    · rw [← hw, h0] at h; cases h
    · obtain ⟨m', h⟩ := h t
      rw [← hw, h0] at h; cases h

end WireP
end Verif
