import Verif.Spec.Coding
import Verif.Props.Wire

/-!
# C76: Transfer-Encoding headers of the handler

What becomes of a response with a Transfer-Encoding header, exactly.
-/

set_option autoImplicit false

namespace Verif
open Spec.Wire Wire WireP

theorem kept_key {c : Choices} {w : NetW} (hc : Sound c w) (hn : (w.hdrs.map Prod.fst).Nodup) {K n : GoStr} (hK : isName K = true) (hl : Spec.lower K = n)
    (hs : ∀ e ∈ w.hdrs, e.2 ≠ [] → Spec.lower e.1 = n → e.1 = K) {v : GoStr} :
    v ∈ valuesOf (entries (c.order.filter fun e => e.1 ∉ (plan c w).del)) n ↔
      K ∉ (plan c w).del ∧ ∃ u ∈ hdrGet w.hdrs K, v = cleaned u := by
  rw [mem_values]
  constructor
  · rintro ⟨e, he, _, hl, u, hu, rfl⟩
    obtain ⟨hm, hd⟩ := List.mem_filter.1 he
    have hm := hc.order.mem_iff.1 hm
    have hk := hs e hm (List.ne_nil_of_mem hu) hl
    have := hdrGet_mem hn hm
    rw [hk] at this hd
    exact ⟨by simpa using hd, u, this ▸ hu, clean_eq u⟩
  · rintro ⟨hd, u, hu, rfl⟩
    have : ∃ e ∈ w.hdrs, e.1 = K := by
      refine Classical.byContradiction fun h => ?_
      rw [hdrGet_none fun e he hk => h ⟨e, he, hk⟩] at hu
      cases hu
    obtain ⟨e, he, hk⟩ := this
    have hg := hdrGet_mem hn he
    rw [hk] at hg
    refine ⟨e, List.mem_filter.2 ⟨hc.order.mem_iff.2 he, by rw [hk]; simpa using hd⟩, by rw [hk, validName_eq]; exact hK, by rw [hk]; exact hl, u, hg ▸ hu, (clean_eq u).symm⟩

/-- Whether the server counts the bytes of the body itself, if there is a Transfer-Encoding. -/
def counts (c : Choices) (w : NetW) : Bool := autoLen c w && decide (first w.hdrs (lit "Transfer-Encoding") = [])

theorem extra_counts {c : Choices} {w : NetW} :
    valuesOf ((plan c w).extra.map fun e => (e.1, strip e.2)) (lit "content-length") =
      if counts c w then [itoa (if w.isHEAD then (c.headLength : Int) else w.body.length)] else [] := by
  have h1 : Spec.lower (lit "Date") ≠ lit "content-length" := by decide
  have h2 : Spec.lower (lit "Content-Length") = lit "content-length" := by decide
  have h3 : Spec.lower (lit "Content-Type") ≠ lit "content-length" := by decide
  have h4 : Spec.lower (lit "Connection") ≠ lit "content-length" := by decide
  have h5 : Spec.lower (lit "Transfer-Encoding") ≠ lit "content-length" := by decide
  simp only [plan, List.map_append, values_append, values_if, values_ifn, h1, h2, h3, h4, h5, and_false, if_false, List.nil_append, and_true,
    List.append_nil, autoLen, counts]
  have hs : strip (itoa (if w.isHEAD = true then (c.headLength : Int) else w.body.length)) =
      itoa (if w.isHEAD = true then (c.headLength : Int) else w.body.length) := by
    split
    · exact (itoa_read _).2.2
    · exact (itoa_read _).2.2
  rw [hs]
  congr 1
  by_cases ht : first w.hdrs (lit "Transfer-Encoding") = [] <;> simp [ht]

/-- No body. -/
theorem coded_mute {c : Choices} {w : NetW} (h : Coded w) (hc : Sound c w) (hA : w.isHEAD = true ∨ w.status = 204 ∨ w.status = 304) (strict : Bool) (next : GoStr) :
    receive strict w.isHEAD (wire c w ++ next) = some ({ status := w.status.toNat, fields := sent c w, body := w.body }, next) := by
  have h1 := h.final
  have hf := h.empty hA
  have hnb : (plan c w).chunking = false := by
    rcases hA with h | h | h
    · simp [plan, h]
    · simp [plan, h]
    · simp [plan, h, bodyAllowed]
  have hp : payload c w (plan c w).chunking = [] := by
    rw [hnb]
    simp [payload, hf]
  have hs : w.isHEAD = true ∨ w.status.toNat < 200 ∨ w.status.toNat = 204 ∨ w.status.toNat = 304 := by
    rcases hA with h | h | h
    · exact Or.inl h
    · right; right; left; omega
    · right; right; right; omega
  rw [head_read strict (by omega) h.three hc]
  unfold body
  rw [if_pos hs, hp, hf]
  rfl

/-- The decisions of the server for a response that may have a body. -/
theorem coded_plan {c : Choices} {w : NetW} (h : Coded w) (hA : ¬ (w.isHEAD = true ∨ w.status = 204 ∨ w.status = 304)) :
    let te := first w.hdrs (lit "Transfer-Encoding")
    ((plan c w).chunking = true ↔ te ≠ lit "identity" ∧ (te ≠ [] ∨ w.declared = none ∧ autoLen c w = false)) ∧
    (lit "Transfer-Encoding" ∈ (plan c w).del ↔ te = lit "identity" ∨ te = lit "chunked" ∨ te = [] ∧ (w.declared ≠ none ∨ autoLen c w = true)) ∧
    (lit "Content-Length" ∈ (plan c w).del ↔ (plan c w).chunking = true) := by
  intro te
  obtain ⟨a1, a2, a3⟩ : w.isHEAD ≠ true ∧ w.status ≠ 204 ∧ w.status ≠ 304 := by simpa only [not_or] using hA
  have h1 := h.final
  have a1' : w.isHEAD = false := by simpa using a1
  have hba : bodyAllowed w.status = true := by
    unfold bodyAllowed
    rw [if_neg (by omega), if_neg a2, if_neg a3]
  have hsup : suppressed w.status = [] := by simp [suppressed, a3, hba]
  have q1 : lit "Content-Length" ≠ lit "Transfer-Encoding" := by decide
  have q2 : lit "Content-Length" ≠ lit "Connection" := by decide
  have q3 : lit "Transfer-Encoding" ≠ lit "Connection" := by decide
  have q4 : lit "Transfer-Encoding" ≠ lit "Content-Length" := by decide
  have hte : first w.hdrs (lit "Transfer-Encoding") = te := rfl
  have i1 : lit "identity" ≠ [] := by decide
  have i2 : lit "chunked" ≠ [] := by decide
  have i3 : lit "chunked" ≠ lit "identity" := by decide
  clear_value te
  simp only [plan, hsup, hte, a1', hba, List.mem_append, mem_if, autoLen]
  refine ⟨?_, ?_, ?_⟩
  · cases hd : w.declared <;> cases c.auto <;> by_cases t1 : te = [] <;> by_cases t2 : te = lit "identity" <;> simp_all
  · cases hd : w.declared <;> cases c.auto <;> by_cases t1 : te = [] <;> by_cases t2 : te = lit "identity" <;> by_cases t3 : te = lit "chunked" <;> simp_all
  · cases hd : w.declared <;> cases c.auto <;> by_cases t1 : te = [] <;> by_cases t2 : te = lit "identity" <;> simp_all

/-- The fields that speak of the transfer. -/
theorem coded_values {c : Choices} {w : NetW} (h : Coded w) (hc : Sound c w) (hA : ¬ (w.isHEAD = true ∨ w.status = 204 ∨ w.status = 304)) :
    (lit "Transfer-Encoding" ∈ (plan c w).del ∨ hdrGet w.hdrs (lit "Transfer-Encoding") = [] →
      valuesOf (sent c w) (lit "transfer-encoding") = if (plan c w).chunking then [lit "chunked"] else []) ∧
    (lit "Transfer-Encoding" ∉ (plan c w).del → hdrGet w.hdrs (lit "Transfer-Encoding") ≠ [] → (plan c w).chunking = true →
      ∃ a b l, valuesOf (sent c w) (lit "transfer-encoding") = a :: b :: l) ∧
    ∀ v, v ∈ valuesOf (sent c w) (lit "content-length") ↔
      ((plan c w).chunking = false ∧ ∃ u ∈ hdrGet w.hdrs (lit "Content-Length"), v = cleaned u) ∨ (counts c w = true ∧ v = itoa w.body.length) := by
  have kt := fun v => kept_key (v := v) hc h.once (K := lit "Transfer-Encoding") (n := lit "transfer-encoding") (by decide) (by decide) fun e he hne => (h.spelled e he hne).1
  have kc := fun v => kept_key (v := v) hc h.once (K := lit "Content-Length") (n := lit "content-length") (by decide) (by decide) fun e he hne => (h.spelled e he hne).2
  obtain ⟨-, -, p3⟩ := coded_plan (c := c) h hA
  have a1' : w.isHEAD = false := by
    cases hh : w.isHEAD
    · rfl
    · exact absurd (.inl hh) hA
  refine ⟨fun hd => ?_, fun hd hne hk => ?_, fun v => ?_⟩
  · unfold sent
    rw [values_append, extra_te]
    suffices hz : valuesOf (entries (c.order.filter fun e => e.1 ∉ (plan c w).del)) (lit "transfer-encoding") = [] by rw [hz, List.nil_append]
    rw [List.eq_nil_iff_forall_not_mem]
    intro v hv
    obtain ⟨k1, u, hu, -⟩ := (kt v).1 hv
    rcases hd with hd | hd
    · exact k1 hd
    · rw [hd] at hu; cases hu
  · unfold sent
    rw [values_append, extra_te, if_pos hk]
    obtain ⟨u, hu⟩ := List.exists_mem_of_ne_nil _ hne
    have := (kt (cleaned u)).2 ⟨hd, u, hu, rfl⟩
    cases hv : valuesOf (entries (c.order.filter fun e => e.1 ∉ (plan c w).del)) (lit "transfer-encoding") with
    | nil => rw [hv] at this; cases this
    | cons a l =>
      cases l with
      | nil => exact ⟨_, _, _, rfl⟩
      | cons b l => exact ⟨_, _, _, rfl⟩
  · unfold sent
    rw [values_append, extra_counts, List.mem_append, kc v, p3, a1']
    simp only [Bool.not_eq_true, Bool.false_eq_true, if_false, mem_if]

theorem coded_body {w : NetW} (h : Coded w) (hA : ¬ (w.isHEAD = true ∨ w.status = 204 ∨ w.status = 304)) :
    w.isHEAD = false ∧ ¬ (w.isHEAD = true ∨ w.status.toNat < 200 ∨ w.status.toNat = 204 ∨ w.status.toNat = 304) := by
  obtain ⟨a1, a2, a3⟩ : w.isHEAD ≠ true ∧ w.status ≠ 204 ∧ w.status ≠ 304 := by simpa only [not_or] using hA
  have := h.final
  refine ⟨by simpa using a1, ?_⟩
  rintro (h | h | h | h)
  · exact a1 h
  all_goals omega

theorem coded_chunks {c : Choices} {w : NetW} (h : Coded w) (hc : Sound c w) (hA : ¬ (w.isHEAD = true ∨ w.status = 204 ∨ w.status = 304))
    (hk : (plan c w).chunking = true) (ht : lit "Transfer-Encoding" ∈ (plan c w).del ∨ hdrGet w.hdrs (lit "Transfer-Encoding") = []) (hx : counts c w = false)
    (strict : Bool) (next : GoStr) :
    receive strict w.isHEAD (wire c w ++ next) = some ({ status := w.status.toNat, fields := sent c w, body := w.body }, next) := by
  obtain ⟨v1, -, v3⟩ := coded_values h hc hA
  obtain ⟨a1', hs⟩ := coded_body h hA
  have h1 := h.final
  have hcl : valuesOf (sent c w) (lit "content-length") = [] := by
    rw [List.eq_nil_iff_forall_not_mem]
    intro v hv
    rcases (v3 v).1 hv with ⟨h, -⟩ | ⟨h, -⟩
    · rw [hk] at h; cases h
    · rw [hx] at h; cases h
  have hlow : Spec.lower (lit "chunked") = lit "chunked" := by decide
  rw [head_read strict (by omega) h.three hc]
  unfold body
  rw [if_neg hs, v1 ht, if_pos hk]
  dsimp only
  rw [if_pos ⟨hlow, hcl⟩, hk]
  have e1 : payload c w true ++ next =
      c.chunks.flatMap writeChunk ++ (lit "0\r\n" ++ (lines (entries c.trailer) ++ 13 :: 10 :: next)) := by
    simp [payload, a1', crlf_lit, writeFields_lines]
  rw [e1, chunks_read strict next _ (entries_ok _) c.chunks _ _ hc.pieces, hc.chunks]
  · rfl
  · have := chunks_length c.chunks
    have := lines_length (entries c.trailer)
    simp only [List.length_append]
    omega

theorem coded_counted {c : Choices} {w : NetW} (h : Coded w) (hc : Sound c w) (hA : ¬ (w.isHEAD = true ∨ w.status = 204 ∨ w.status = 304))
    (hk : (plan c w).chunking = false) (ht : lit "Transfer-Encoding" ∈ (plan c w).del ∨ hdrGet w.hdrs (lit "Transfer-Encoding") = [])
    (hne : counts c w = true ∨ hdrGet w.hdrs (lit "Content-Length") ≠ []) (hall : ∀ u ∈ hdrGet w.hdrs (lit "Content-Length"), lengthOf (cleaned u) = some w.body.length)
    (strict : Bool) (next : GoStr) :
    receive strict w.isHEAD (wire c w ++ next) = some ({ status := w.status.toNat, fields := sent c w, body := w.body }, next) := by
  obtain ⟨v1, -, v3⟩ := coded_values h hc hA
  obtain ⟨a1', hs⟩ := coded_body h hA
  have h1 := h.final
  have k2 : ∀ v ∈ valuesOf (sent c w) (lit "content-length"), lengthOf v = some w.body.length := by
    intro v hv
    rcases (v3 v).1 hv with ⟨-, u, hu, rfl⟩ | ⟨-, rfl⟩
    · exact hall u hu
    · exact (itoa_read _).1
  have k1 : valuesOf (sent c w) (lit "content-length") ≠ [] := by
    rcases hne with hx | hx
    · exact List.ne_nil_of_mem ((v3 _).2 (.inr ⟨hx, rfl⟩))
    · obtain ⟨u, hu⟩ := List.exists_mem_of_ne_nil _ hx
      exact List.ne_nil_of_mem ((v3 _).2 (.inl ⟨hk, u, hu, rfl⟩))
  rw [head_read strict (by omega) h.three hc]
  unfold body
  rw [if_neg hs, v1 ht, hk, show payload c w false = w.body by simp [payload, a1']]
  simp only [Bool.false_eq_true, if_false]
  cases hvs : valuesOf (sent c w) (lit "content-length") with
  | nil => exact absurd hvs k1
  | cons v vs =>
    rw [hvs] at k2
    have hv : lengthOf v = some w.body.length := k2 v (by simp)
    simp only [hv, Option.bind_eq_bind, Option.bind_some]
    rw [if_pos ⟨by simpa using fun u hu => k2 u (by simp [hu]), by simp⟩]
    simp

theorem coded_open {c : Choices} {w : NetW} (h : Coded w) (hc : Sound c w) (hA : ¬ (w.isHEAD = true ∨ w.status = 204 ∨ w.status = 304))
    (hk : (plan c w).chunking = false) (ht : lit "Transfer-Encoding" ∈ (plan c w).del ∨ hdrGet w.hdrs (lit "Transfer-Encoding") = [])
    (hx : counts c w = false) (hz : hdrGet w.hdrs (lit "Content-Length") = []) (strict : Bool) (next : GoStr) :
    receive strict w.isHEAD (wire c w ++ next) = some ({ status := w.status.toNat, fields := sent c w, body := w.body ++ next }, []) := by
  obtain ⟨v1, -, v3⟩ := coded_values h hc hA
  obtain ⟨a1', hs⟩ := coded_body h hA
  have h1 := h.final
  have hcl : valuesOf (sent c w) (lit "content-length") = [] := by
    rw [List.eq_nil_iff_forall_not_mem]
    intro v hv
    rcases (v3 v).1 hv with ⟨-, u, hu, -⟩ | ⟨h, -⟩
    · rw [hz] at hu; cases hu
    · rw [hx] at h; cases h
  rw [head_read strict (by omega) h.three hc]
  unfold body
  rw [if_neg hs, v1 ht, hk, show payload c w false = w.body by simp [payload, a1'], hcl]
  simp

theorem coded_lost {c : Choices} {w : NetW} (h : Coded w) (hc : Sound c w) (hA : ¬ (w.isHEAD = true ∨ w.status = 204 ∨ w.status = 304))
    (hk : (plan c w).chunking = true) (ht : lit "Transfer-Encoding" ∉ (plan c w).del) (hne : hdrGet w.hdrs (lit "Transfer-Encoding") ≠ []) (strict : Bool) (next : GoStr) :
    receive strict w.isHEAD (wire c w ++ next) = none := by
  obtain ⟨-, v2, -⟩ := coded_values h hc hA
  obtain ⟨a, b, l, e⟩ := v2 ht hne hk
  obtain ⟨a1', hs⟩ := coded_body h hA
  have h1 := h.final
  rw [head_read strict (by omega) h.three hc]
  unfold body
  rw [if_neg hs, e]
  rfl

/-- **C76.** A Transfer-Encoding of `chunked` does no harm, whatever else the header says and whatever a Content-Length declares: the server encodes the body in this way
itself, and drops both headers.  Nor does any Transfer-Encoding where there is no body. -/
theorem C76_chunked {w : NetW} (h : Coded w) {c : Choices} (hc : Sound c w)
    (hte : first w.hdrs (lit "Transfer-Encoding") = lit "chunked" ∨ w.isHEAD = true ∨ w.status = 204 ∨ w.status = 304) (strict : Bool) (next : GoStr) :
    ∃ m, receive strict w.isHEAD (wire c w ++ next) = some (m, next) ∧ Says m w := by
  refine ⟨_, ?_, sent_says h.final h.once hc⟩
  by_cases hA : w.isHEAD = true ∨ w.status = 204 ∨ w.status = 304
  · exact coded_mute h hc hA strict next
  · have hte := hte.resolve_right hA
    obtain ⟨p1, p2, -⟩ := coded_plan (c := c) h hA
    refine coded_chunks h hc hA (p1.2 ?_) (.inl (p2.2 (.inr (.inl hte)))) ?_ strict next
    · rw [hte]; exact ⟨by decide, .inl (by decide)⟩
    · rw [counts, hte]
      exact Bool.and_eq_false_iff.2 (.inr (by decide))

/-- **C76.** What becomes of a response with any Transfer-Encoding header (or none), exactly. -/
theorem C76_fate {w : NetW} (h : Coded w) (hl : LengthOk w.hdrs) (hf : Spec.Framed w) (hA : ¬ (w.isHEAD = true ∨ w.status = 204 ∨ w.status = 304))
    (hi : first w.hdrs (lit "Transfer-Encoding") = lit "identity" → w.declared = none → hdrGet w.hdrs (lit "Content-Length") = [])
    {c : Choices} (hc : Sound c w) : ∃ m, Says m w ∧ ∀ strict next,
    receive strict w.isHEAD (wire c w ++ next) =
      match fate (hdrGet w.hdrs (lit "Transfer-Encoding")) (hdrGet w.hdrs (lit "Content-Length")) w.declared.isSome c.auto with
      | .chunked => some (m, next)
      | .counted => some (m, next)
      | .open => some ({ m with body := m.body ++ next }, [])
      | .lost => none := by
  refine ⟨_, sent_says h.final h.once hc, fun strict next => ?_⟩
  have hb := hf
  unfold Spec.Framed at hb
  rw [if_neg hA] at hb
  obtain ⟨a1, a2, a3⟩ : w.isHEAD ≠ true ∧ w.status ≠ 204 ∧ w.status ≠ 304 := by simpa only [not_or] using hA
  have hba : bodyAllowed w.status = true := by
    have := h.final
    unfold bodyAllowed
    rw [if_neg (by omega), if_neg a2, if_neg a3]
  obtain ⟨p1, p2, -⟩ := coded_plan (c := c) h hA
  have hauto : autoLen c w = true ↔ c.auto = true ∧ hdrGet w.hdrs (lit "Content-Length") = [] := by
    simp only [autoLen, hba, Bool.and_true, Bool.and_eq_true, decide_eq_true_eq]
    unfold first
    refine and_congr Iff.rfl ⟨fun hx => ?_, fun hx => by rw [hx]; rfl⟩
    have h2 := hl.2
    cases hg : hdrGet w.hdrs (lit "Content-Length") with
    | nil => rfl
    | cons x l =>
      rw [hg] at hx h2
      simp only [List.headD_cons] at hx
      rw [hx] at h2
      exact absurd rfl h2
  have hdecl : ∀ n, w.declared = some n → hdrGet w.hdrs (lit "Content-Length") ≠ [] ∧
      ∀ u ∈ hdrGet w.hdrs (lit "Content-Length"), lengthOf (cleaned u) = some w.body.length := by
    intro n hn
    have hlen := hb n hn
    rw [h.declared] at hn
    refine ⟨?_, by rw [hlen]; exact hl.1 n hn⟩
    intro hx
    unfold declaredLength at hn
    rw [hx] at hn
    cases hn
  -- by what is known of the length, if the coding leaves it to the server
  have plainly : first w.hdrs (lit "Transfer-Encoding") = [] →
      (w.declared.isSome = true ∨ autoLen c w = true → receive strict w.isHEAD (wire c w ++ next) = some ({ status := w.status.toNat, fields := sent c w, body := w.body }, next)) ∧
      (¬ (w.declared.isSome = true ∨ autoLen c w = true) → (plan c w).chunking = true ∧ lit "Transfer-Encoding" ∉ (plan c w).del ∧ counts c w = false) := by
    intro hte
    rw [hte] at p1 p2
    constructor
    · intro hx
      have hk : (plan c w).chunking = false := by
        rw [← Bool.not_eq_true, p1]
        rintro ⟨-, h | ⟨h1, h2⟩⟩
        · exact h rfl
        · rcases hx with hx | hx
          · rw [h1] at hx; cases hx
          · rw [h2] at hx; cases hx
      have ht : lit "Transfer-Encoding" ∈ (plan c w).del := p2.2 (.inr (.inr ⟨rfl, by
        rcases hx with hx | hx
        · exact .inl fun h => by rw [h] at hx; cases hx
        · exact .inr hx⟩))
      rcases hx with hx | hx
      · obtain ⟨n, hn⟩ := Option.isSome_iff_exists.1 hx
        exact coded_counted h hc hA hk (.inl ht) (.inr (hdecl n hn).1) (hdecl n hn).2 strict next
      · have hz := (hauto.1 hx).2
        exact coded_counted h hc hA hk (.inl ht) (.inl (by rw [counts, hx, hte]; rfl)) (by rw [hz]; simp) strict next
    · intro hx
      rw [not_or] at hx
      have hn : w.declared = none := by simpa using hx.1
      have hau : autoLen c w = false := by simpa using hx.2
      refine ⟨p1.2 ⟨by decide, .inr ⟨hn, hau⟩⟩, ?_, by rw [counts, hau]; rfl⟩
      rw [p2]
      rintro (h | h | ⟨-, h | h⟩)
      · exact absurd h (by decide)
      · exact absurd h (by decide)
      · exact h hn
      · rw [hau] at h; cases h
  cases hcod : hdrGet w.hdrs (lit "Transfer-Encoding") with
  | nil =>
    have hte : first w.hdrs (lit "Transfer-Encoding") = [] := by rw [first, hcod]; rfl
    obtain ⟨q1, q2⟩ := plainly hte
    by_cases hx : w.declared.isSome = true ∨ autoLen c w = true
    · rw [q1 hx]
      have : fate [] (hdrGet w.hdrs (lit "Content-Length")) w.declared.isSome c.auto = .counted := by
        rw [hauto] at hx
        grind [fate]
      rw [this]
    · obtain ⟨k1, k2, k3⟩ := q2 hx
      rw [coded_chunks h hc hA k1 (.inr hcod) k3]
      have : fate [] (hdrGet w.hdrs (lit "Content-Length")) w.declared.isSome c.auto = .chunked := by
        rw [hauto] at hx
        grind [fate]
      rw [this]
  | cons te l =>
    have hte : first w.hdrs (lit "Transfer-Encoding") = te := by rw [first, hcod]; rfl
    by_cases t1 : te = lit "chunked"
    · have : fate (te :: l) (hdrGet w.hdrs (lit "Content-Length")) w.declared.isSome c.auto = .chunked := by rw [fate, if_pos t1]
      rw [this]
      refine coded_chunks h hc hA (p1.2 ?_) (.inl (p2.2 (.inr (.inl (hte.trans t1))))) ?_ strict next
      · rw [hte, t1]; exact ⟨by decide, .inl (by decide)⟩
      · rw [counts, hte, t1]
        exact Bool.and_eq_false_iff.2 (.inr (by decide))
    · by_cases t2 : te = lit "identity"
      · have hk : (plan c w).chunking = false := by
          rw [← Bool.not_eq_true, p1, hte]
          exact fun h => h.1 t2
        have ht := p2.2 (.inl (hte.trans t2))
        have hx : counts c w = false := by
          rw [counts, hte, t2]
          exact Bool.and_eq_false_iff.2 (.inr (by decide))
        cases hd : w.declared with
        | some n =>
          rw [coded_counted h hc hA hk (.inl ht) (.inr (hdecl n hd).1) (hdecl n hd).2]
          rw [fate, if_neg t1, if_pos t2]
          rfl
        | none =>
          rw [coded_open h hc hA hk (.inl ht) hx (hi (hte.trans t2) hd)]
          rw [fate, if_neg t1, if_pos t2]
          rfl
      · by_cases t3 : te = []
        · obtain ⟨q1, q2⟩ := plainly (hte.trans t3)
          by_cases hx : w.declared.isSome = true ∨ autoLen c w = true
          · rw [q1 hx]
            have : fate (te :: l) (hdrGet w.hdrs (lit "Content-Length")) w.declared.isSome c.auto = .counted := by
              rw [hauto] at hx
              rw [fate, if_neg t1, if_neg t2, if_pos t3]
              grind
            rw [this]
          · obtain ⟨k1, k2, k3⟩ := q2 hx
            rw [coded_lost h hc hA k1 k2 (by rw [hcod]; simp)]
            have : fate (te :: l) (hdrGet w.hdrs (lit "Content-Length")) w.declared.isSome c.auto = .lost := by
              rw [hauto] at hx
              rw [fate, if_neg t1, if_neg t2, if_pos t3]
              grind
            rw [this]
        · have : fate (te :: l) (hdrGet w.hdrs (lit "Content-Length")) w.declared.isSome c.auto = .lost := by
            rw [fate, if_neg t1, if_neg t2, if_neg t3]
          rw [this]
          refine coded_lost h hc hA (p1.2 ?_) ?_ (by rw [hcod]; simp) strict next
          · rw [hte]; exact ⟨t2, .inl t3⟩
          · rw [p2, hte]
            rintro (h | h | ⟨h, -⟩)
            · exact t2 h
            · exact t1 h
            · exact t3 h

/-! ## Examples -/

/-- The handler asks for chunks, and declares a length that is wrong: the client gets all of the body. -/
example : let w : NetW := { isHEAD := false, hdrs := [(lit "Transfer-Encoding", [lit "chunked"]), (lit "Content-Length", [lit "9"])], status := 200, declared := some 9,
                            written := 5, body := lit "hello" }
    wire (plain false w) w = lit "HTTP/1.1 200 OK\r\nDate: \r\nTransfer-Encoding: chunked\r\n\r\n5\r\nhello\r\n0\r\n\r\n" ∧
    ∃ m, receive true false (wire (plain false w) w ++ lit "HTTP/1.1") = some (m, lit "HTTP/1.1") ∧ Says m w := by
  refine ⟨by decide +kernel, C76_chunked ⟨by decide, by decide, by decide +kernel, by decide, by decide, ?_⟩ (plain_sound _ _) (.inl (by decide)) true _⟩
  unfold Spelled
  decide +kernel

/-- `identity` without a length: the body has no end but that of the connection. -/
example : let w : NetW := { isHEAD := false, hdrs := [(lit "Transfer-Encoding", [lit "identity"])], status := 200, written := 5, body := lit "hello" }
    wire (plain false w) w = lit "HTTP/1.1 200 OK\r\nDate: \r\n\r\nhello" ∧
    (receive true false (wire (plain false w) w ++ lit "HTTP/1.1")).map (fun x => (x.1.body, x.2)) = some (lit "helloHTTP/1.1", []) := by decide +kernel

/-- **C76.** That a length which is not a number be absent with `identity` is needed: `" 3"` is none for the server, which sends all, and three for the client. -/
theorem C76_identity_length : let w : NetW := { isHEAD := false, hdrs := [(lit "Transfer-Encoding", [lit "identity"]), (lit "Content-Length", [lit " 3"])], status := 200, written := 5, body := lit "hello" }
    w.declared = declaredLength w.hdrs ∧ LengthOk w.hdrs ∧ Spec.Framed w ∧
    (receive true false (wire (plain false w) w)).map (fun x => (x.1.body, x.2)) = some (lit "hel", lit "lo") := by
  refine ⟨by decide +kernel, ?_, ?_, by decide +kernel⟩
  · exact lengthOk_none (by decide +kernel) (by decide +kernel)
  · unfold Spec.Framed
    rw [if_neg (by decide)]
    intro n hn
    cases hn

/-- The four cases. -/
example : fate [lit "chunked", lit "gzip"] [lit "5"] true false = .chunked ∧ fate [lit "identity"] [lit "5"] true false = .counted ∧
    fate [lit "identity"] [] false true = .open ∧ fate [lit "gzip"] [lit "5"] true false = .lost ∧ fate [[]] [] false true = .counted ∧
    fate [[]] [] false false = .lost ∧ fate [] [] false false = .chunked := by decide +kernel

end Verif
