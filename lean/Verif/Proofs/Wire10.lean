import Verif.Proofs.WireCut
import Verif.Model.Wire10
import Verif.Spec.Wire10

/-!
# Responses of HTTP/1.0 are read whole
-/

set_option autoImplicit false

namespace Verif
namespace Wire10P
open Spec.Wire Wire WireP

/-- The fields of a response, as they arrive. -/
def sent10 (c : Choices) (keep : Bool) (w : NetW) : List (GoStr × GoStr) :=
  entries (c.order.filter fun e => e.1 ∉ (plan10 c keep w).del) ++ (plan10 c keep w).extra.map fun e => (e.1, strip e.2)

theorem status_read10 {code : Int} (h1 : 100 ≤ code) (h2 : code ≤ 999) {reason : GoStr} (hr : OneLine reason) :
    OneLine (lit "HTTP/1.0 " ++ itoa code ++ lit " " ++ reason) ∧
    statusCode10 (lit "HTTP/1.0 " ++ itoa code ++ lit " " ++ reason) = some code.toNat := by
  obtain ⟨n, rfl⟩ : ∃ n : Nat, code = n := ⟨code.toNat, by omega⟩
  obtain ⟨s1, s2⟩ := status_read h1 h2 hr
  have e : ∀ s : GoStr, (lit "HTTP/1.0 " ++ s).drop 9 = s ∧ (lit "HTTP/1.1 " ++ s).drop 9 = s ∧ (lit "HTTP/1.0 " ++ s).take 9 = lit "HTTP/1.0 " ∧
      (lit "HTTP/1.1 " ++ s).take 9 = lit "HTTP/1.1 " := by
    intro s
    have l0 : (lit "HTTP/1.0 ").length = 9 := by decide +kernel
    have l1 : (lit "HTTP/1.1 ").length = 9 := by decide +kernel
    refine ⟨?_, ?_, ?_, ?_⟩
    · rw [List.drop_append_of_le_length (by omega), ← l0, List.drop_length]; rfl
    · rw [List.drop_append_of_le_length (by omega), ← l1, List.drop_length]; rfl
    · rw [List.take_append_of_le_length (by omega), ← l0, List.take_length]
    · rw [List.take_append_of_le_length (by omega), ← l1, List.take_length]
  rw [List.append_assoc, List.append_assoc] at s1 s2 ⊢
  generalize itoa (n : Int) ++ (lit " " ++ reason) = q at s1 s2 ⊢
  obtain ⟨e1, e2, e3, e4⟩ := e q
  constructor
  · have hl : (10 : Byte) ∉ lit "HTTP/1.0 " ∧ (13 : Byte) ∉ lit "HTTP/1.0 " := by decide +kernel
    exact ⟨fun h => (List.mem_append.1 h).elim hl.1 fun h => s1.1 (List.mem_append_right _ h),
      fun h => (List.mem_append.1 h).elim hl.2 fun h => s1.2 (List.mem_append_right _ h)⟩
  · unfold statusCode at s2
    unfold statusCode10
    rw [e2, e4] at s2
    rw [e1, e3]
    by_cases hq : (q.takeWhile (· ≠ 32)).length = 3
    · rw [if_pos ⟨rfl, hq⟩] at s2 ⊢
      exact s2
    · rw [if_neg fun h => hq h.2] at s2
      cases s2

theorem extra_ok10 {c : Choices} {keep : Bool} {w : NetW} (hc : Sound c w) : ∀ e ∈ (plan10 c keep w).extra, e.1 ∈ ownNames ∧ OneLine e.2 := by
  intro e he
  simp only [plan10, List.mem_append, mem_if, mem_ifn] at he
  rcases he with ((⟨_, rfl⟩ | ⟨_, rfl⟩) | ⟨_, rfl⟩) | ⟨_, rfl⟩
  · exact ⟨by simp [ownNames], hc.date⟩
  · refine ⟨by simp [ownNames], ?_⟩
    dsimp only
    split
    · exact (itoa_read _).2.1
    · exact (itoa_read _).2.1
  · exact ⟨by simp [ownNames], hc.sniffed⟩
  · exact ⟨by simp [ownNames], by unfold OneLine; decide⟩

/-- What comes before the body. -/
def head10 (c : Choices) (keep : Bool) (w : NetW) : GoStr :=
  lit "HTTP/1.0 " ++ itoa w.status ++ lit " " ++ c.reason ++ lit "\r\n" ++ writeFields (c.order.filter fun e => e.1 ∉ (plan10 c keep w).del) ++
    writeExtra (plan10 c keep w).extra ++ lit "\r\n"

/-- Up to the body. -/
theorem head_read10 (strict : Bool) {c : Choices} (keep : Bool) {w : NetW} (h1 : 100 ≤ w.status) (h2 : w.status ≤ 999) (hc : Sound c w) (q : GoStr) :
    receive10 strict w.isHEAD (head10 c keep w ++ q) =
      (body10 w.isHEAD w.status.toNat (sent10 c keep w) q).map fun x =>
        ({ status := w.status.toNat, fields := sent10 c keep w, body := x.1 }, x.2) := by
  obtain ⟨s1, s2⟩ := status_read10 h1 h2 hc.reason
  let L := entries (c.order.filter fun e => e.1 ∉ (plan10 c keep w).del) ++ (plan10 c keep w).extra
  have hL : ∀ e ∈ L, isName e.1 = true ∧ OneLine e.2 := by
    intro e he
    rcases List.mem_append.1 he with he | he
    · exact entries_ok _ e he
    · exact ⟨own_name _ (extra_ok10 hc e he).1, (extra_ok10 hc e he).2⟩
  have hm : L.map (fun e => (e.1, strip e.2)) = sent10 c keep w := by
    show (entries _ ++ _).map _ = _
    rw [List.map_append, entries_strip]
    rfl
  have ew : head10 c keep w ++ q = (lit "HTTP/1.0 " ++ itoa w.status ++ lit " " ++ c.reason) ++ 13 :: 10 ::
      (lines L ++ 13 :: 10 :: q) := by
    show _ = (_ : GoStr) ++ 13 :: 10 :: (lines (entries _ ++ _) ++ _)
    rw [lines_append, ← writeFields_lines]
    simp only [head10, crlf_lit, List.append_assoc, List.cons_append, List.nil_append]
    rfl
  have hlen : L.length < (head10 c keep w ++ q).length + 1 := by
    rw [ew]
    have := lines_length L
    simp only [List.length_append, List.length_cons]
    omega
  unfold receive10
  rw [ew, line_crlf strict s1, ← ew]
  simp only [Option.bind_eq_bind, Option.bind_some, s2]
  rw [fields_read strict _ L _ hlen hL, hm]
  simp only [Option.bind_some]
  cases body10 w.isHEAD w.status.toNat (sent10 c keep w) q <;> rfl

/-- Whether the server counts the bytes of the body itself. -/
def autoLen10 (c : Choices) (w : NetW) : Bool :=
  c.auto && !decide (first w.hdrs (lit "Transfer-Encoding") ≠ []) && bodyAllowed w.status && decide (first w.hdrs (lit "Content-Length") = [])

theorem extra_cl10 {c : Choices} {keep : Bool} {w : NetW} :
    valuesOf ((plan10 c keep w).extra.map fun e => (e.1, strip e.2)) (lit "content-length") =
      if autoLen10 c w then [itoa (if w.isHEAD then (c.headLength : Int) else w.body.length)] else [] := by
  have h1 : Spec.lower (lit "Date") ≠ lit "content-length" := by decide
  have h2 : Spec.lower (lit "Content-Length") = lit "content-length" := by decide
  have h3 : Spec.lower (lit "Content-Type") ≠ lit "content-length" := by decide
  have h4 : Spec.lower (lit "Connection") ≠ lit "content-length" := by decide
  simp only [plan10, List.map_append, values_append, values_if, values_ifn, h1, h2, h3, h4, and_false, if_false, List.nil_append, and_true,
    List.append_nil, autoLen10]
  have hs : strip (itoa (if w.isHEAD = true then (c.headLength : Int) else w.body.length)) =
      itoa (if w.isHEAD = true then (c.headLength : Int) else w.body.length) := by
    split
    · exact (itoa_read _).2.2
    · exact (itoa_read _).2.2
  rw [hs]
  congr

theorem kept_cl10 {c : Choices} {w : NetW} (hc : Sound c w) (hn : (w.hdrs.map Prod.fst).Nodup) (del : List GoStr)
    (hsp : ∀ e ∈ w.hdrs, e.2 ≠ [] → Spec.lower e.1 = lit "content-length" → e.1 = lit "Content-Length") {v : GoStr} :
    v ∈ valuesOf (entries (c.order.filter fun e => e.1 ∉ del)) (lit "content-length") ↔
      lit "Content-Length" ∉ del ∧ ∃ u ∈ hdrGet w.hdrs (lit "Content-Length"), v = cleaned u := by
  rw [mem_values]
  constructor
  · rintro ⟨e, he, _, hl, u, hu, rfl⟩
    obtain ⟨hm, hd⟩ := List.mem_filter.1 he
    have hm := hc.order.mem_iff.1 hm
    have hk := hsp e hm (List.ne_nil_of_mem hu) hl
    have := hdrGet_mem hn hm
    rw [hk] at this hd
    exact ⟨by simpa using hd, u, this ▸ hu, clean_eq u⟩
  · rintro ⟨hd, u, hu, rfl⟩
    have : ∃ e ∈ w.hdrs, e.1 = lit "Content-Length" := by
      refine Classical.byContradiction fun h => ?_
      rw [hdrGet_none fun e he hk => h ⟨e, he, hk⟩] at hu
      cases hu
    obtain ⟨e, he, hk⟩ := this
    have hg := hdrGet_mem hn he
    rw [hk] at hg
    refine ⟨e, List.mem_filter.2 ⟨hc.order.mem_iff.2 he, by rw [hk]; simpa using hd⟩, by rw [hk]; decide, by rw [hk]; decide, u, hg ▸ hu, (clean_eq u).symm⟩

/-- A Content-Length goes together with another encoding, and is left out. -/
def both10 (c : Choices) (w : NetW) : Bool :=
  (w.declared.isSome || autoLen10 c w) && decide (first w.hdrs (lit "Transfer-Encoding") ≠ []) && decide (first w.hdrs (lit "Transfer-Encoding") ≠ lit "identity")

theorem untilEnd_eq {c : Choices} {keep : Bool} {w : NetW} :
    (plan10 c keep w).untilEnd = (!noBody w && !((w.declared.isSome || autoLen10 c w) && !both10 c w)) := rfl

/-- The receiver takes the body, and leaves what follows it. -/
theorem body_read10 {c : Choices} {keep : Bool} {w : NetW} (h : Telling10 w) (hc : Sound c w) {next : GoStr}
    (hnext : (plan10 c keep w).untilEnd = true → next = []) :
    body10 w.isHEAD w.status.toNat (sent10 c keep w) ((if w.isHEAD then [] else w.body) ++ next) = some (w.body, next) := by
  have hf := h.framed
  have h1 := h.final
  unfold Spec.Framed at hf
  by_cases hA : w.isHEAD = true ∨ w.status = 204 ∨ w.status = 304
  · rw [if_pos hA] at hf
    have hs : w.isHEAD = true ∨ w.status.toNat < 200 ∨ w.status.toNat = 204 ∨ w.status.toNat = 304 := by
      rcases hA with h | h | h
      · exact Or.inl h
      · right; right; left; omega
      · right; right; right; omega
    unfold body10
    rw [if_pos hs, hf]
    simp
  · rw [if_neg hA] at hf
    obtain ⟨a1, a2, a3⟩ : w.isHEAD ≠ true ∧ w.status ≠ 204 ∧ w.status ≠ 304 := by
      simpa only [not_or] using hA
    have a1' : w.isHEAD = false := by simpa using a1
    have hba : bodyAllowed w.status = true := by
      unfold bodyAllowed
      rw [if_neg (by omega), if_neg a2, if_neg a3]
    have hnb : noBody w = false := by simp [noBody, a1', hba, a2]
    have hs : ¬ (w.isHEAD = true ∨ w.status.toNat < 200 ∨ w.status.toNat = 204 ∨ w.status.toNat = 304) := by
      rintro (h | h | h | h)
      · exact a1 h
      all_goals omega
    have hsup : suppressed w.status = [] := by simp [suppressed, a3, hba]
    have hdel : lit "Content-Length" ∈ (plan10 c keep w).del ↔ both10 c w = true := by
      have q1 : lit "Content-Length" ≠ lit "Transfer-Encoding" := by decide
      have q2 : lit "Content-Length" ≠ lit "Connection" := by decide
      simp only [plan10, hsup, List.mem_append, mem_if, q2, and_false, or_false, List.mem_singleton, q1, List.not_mem_nil, false_or, and_true]
      rfl
    rw [untilEnd_eq, hnb] at hnext
    have ev : valuesOf (sent10 c keep w) (lit "content-length") =
        valuesOf (entries (c.order.filter fun e => e.1 ∉ (plan10 c keep w).del)) (lit "content-length") ++
          if autoLen10 c w then [itoa (if w.isHEAD then (c.headLength : Int) else w.body.length)] else [] := by
      unfold sent10
      rw [values_append, extra_cl10]
    have hbl : (if w.isHEAD = true then [] else w.body) = w.body := by rw [a1']; rfl
    -- with a first Content-Length the server does not count
    have hdau : (declaredLength w.hdrs).isSome = true → autoLen10 c w = false := by
      intro hdc
      unfold declaredLength at hdc
      unfold autoLen10
      have : first w.hdrs (lit "Content-Length") ≠ [] := by
        unfold first
        cases hg : hdrGet w.hdrs (lit "Content-Length") with
        | nil => rw [hg] at hdc; cases hdc
        | cons x l =>
          rw [hg] at hdc
          cases x with
          | nil => exact absurd hdc (by simp [parseLength])
          | cons a b => simp
      rw [decide_eq_false this, Bool.and_false]
    rw [hbl]
    unfold body10
    rw [if_neg hs]
    -- is it told?
    have hau_both : autoLen10 c w = true → both10 c w = false := by
      intro ha
      unfold autoLen10 at ha
      unfold both10
      simp only [Bool.and_eq_true, Bool.not_eq_true'] at ha
      rw [ha.1.1.2]
      simp
    have none_kept : both10 c w = true ∨ declaredLength w.hdrs = none →
        valuesOf (entries (c.order.filter fun e => e.1 ∉ (plan10 c keep w).del)) (lit "content-length") = [] := by
      intro hh
      rw [List.eq_nil_iff_forall_not_mem]
      intro v hv
      obtain ⟨k1, u, hu, _⟩ := (kept_cl10 hc h.once _ h.spelled).1 hv
      rcases hh with hh | hh
      · exact k1 (hdel.2 hh)
      · rw [h.number hh] at hu; cases hu
    by_cases hb : both10 c w = true
    · have hau : autoLen10 c w = false := by
        cases ha : autoLen10 c w with
        | false => rfl
        | true => rw [hau_both ha] at hb; cases hb
      have hz : valuesOf (sent10 c keep w) (lit "content-length") = [] := by
        rw [ev, none_kept (.inl hb), hau]; rfl
      rw [hz, hnext (by rw [hb]; simp)]
      simp
    · have hb' : both10 c w = false := by simpa using hb
      have hnd : lit "Content-Length" ∉ (plan10 c keep w).del := fun k => hb (hdel.1 k)
      -- values that all say the length
      have finish : valuesOf (sent10 c keep w) (lit "content-length") ≠ [] →
          (∀ v ∈ valuesOf (sent10 c keep w) (lit "content-length"), lengthOf v = some w.body.length) →
          (match valuesOf (sent10 c keep w) (lit "content-length") with
          | [] => some (w.body ++ next, [])
          | v :: vs => do
            let n ← lengthOf v
            if vs.all (fun u => lengthOf u = some n) ∧ n ≤ (w.body ++ next).length then some ((w.body ++ next).take n, (w.body ++ next).drop n) else none) = some (w.body, next) := by
        intro k1 k2
        cases hvs : valuesOf (sent10 c keep w) (lit "content-length") with
        | nil => exact absurd hvs k1
        | cons v vs =>
          rw [hvs] at k2
          have hv : lengthOf v = some w.body.length := k2 v (by simp)
          simp only [hv, Option.bind_eq_bind, Option.bind_some]
          rw [if_pos ⟨by simpa using fun u hu => k2 u (by simp [hu]), by simp⟩]
          simp
      cases hdc : declaredLength w.hdrs with
      | some n =>
        have hlen := hf n (by rw [h.declared, hdc])
        have hv := h.agree n hdc
        have hau := hdau (by rw [hdc]; rfl)
        refine finish ?_ ?_
        · have : ∃ u, u ∈ hdrGet w.hdrs (lit "Content-Length") := by
            unfold declaredLength at hdc
            cases hg : hdrGet w.hdrs (lit "Content-Length") with
            | nil => rw [hg] at hdc; cases hdc
            | cons x l => exact ⟨x, by simp⟩
          obtain ⟨u, hu⟩ := this
          rw [ev]
          exact fun k => List.ne_nil_of_mem ((kept_cl10 hc h.once _ h.spelled).2 ⟨hnd, u, hu, rfl⟩) (List.append_eq_nil_iff.1 k).1
        · intro v hv'
          rw [ev, hau] at hv'
          simp only [Bool.false_eq_true, if_false, List.append_nil] at hv'
          obtain ⟨_, u, hu, rfl⟩ := (kept_cl10 hc h.once _ h.spelled).1 hv'
          rw [hlen]
          exact hv u hu
      | none =>
        rw [none_kept (.inr hdc), List.nil_append, a1'] at ev
        cases hau : autoLen10 c w with
        | true =>
          rw [hau] at ev
          simp only [if_true, Bool.false_eq_true, if_false] at ev
          refine finish (by rw [ev]; simp) fun v hv => ?_
          rw [ev] at hv
          rw [List.mem_singleton.1 hv]
          exact (itoa_read _).1
        | false =>
          rw [hau] at ev
          have hdn : w.declared = none := by rw [h.declared, hdc]
          rw [ev, hnext (by rw [hb', hdn, hau]; rfl)]
          simp

theorem del_own10 {c : Choices} {keep : Bool} {w : NetW} : ∀ k ∈ (plan10 c keep w).del, k ∈ ownNames := by
  intro k hk
  simp only [plan10, suppressed, List.mem_append, mem_if, List.mem_singleton] at hk
  rcases hk with ((hk | ⟨_, rfl⟩) | rfl) | ⟨_, rfl⟩
  · split at hk
    · simp only [List.mem_cons, List.not_mem_nil, or_false] at hk
      rcases hk with rfl | rfl | rfl <;> simp [ownNames]
    · split at hk
      · simp only [List.mem_cons, List.not_mem_nil, or_false] at hk
        rcases hk with rfl | rfl <;> simp [ownNames]
      · cases hk
  all_goals simp [ownNames]

theorem kept_named10 {c : Choices} {w : NetW} (hc : Sound c w) (hn : (w.hdrs.map Prod.fst).Nodup) (del : List GoStr) {k : GoStr} (hk : k ∉ del) :
    named (entries (c.order.filter fun e => e.1 ∉ del)) k = if isName k then (hdrGet w.hdrs k).map cleaned else [] := by
  have hno : (c.order.map Prod.fst).Nodup := (hc.order.map Prod.fst).nodup_iff.2 hn
  have hnf : ((c.order.filter fun e => e.1 ∉ del).map Prod.fst).Nodup := hno.sublist ((List.filter_sublist).map _)
  rw [named_entries hnf]
  have : hdrGet (c.order.filter fun e => e.1 ∉ del) k = hdrGet w.hdrs k := by
    rw [← hdrGet_perm hc.order hn]
    unfold hdrGet
    rw [List.find?_filter]
    congr 2
    funext e
    by_cases he : e.1 = k
    · simp [he, hk]
    · simp [he]
  rw [this]

theorem sent_says10 {c : Choices} {keep : Bool} {w : NetW} (h1 : 200 ≤ w.status) (hn : (w.hdrs.map Prod.fst).Nodup) (hc : Sound c w) :
    Says { status := w.status.toNat, fields := sent10 c keep w, body := w.body } w := by
  refine ⟨by show (w.status.toNat : Int) = _; omega, rfl, fun k hk => ?_, fun hs hh => ?_, fun hh => ?_⟩
  · show named (sent10 c keep w) k = _
    unfold sent10
    rw [named_append, kept_named10 hc hn _ fun h => hk (del_own10 k h), named_own, List.append_nil]
    rintro e he rfl
    exact hk (extra_ok10 hc e he).1
  · show named (sent10 c keep w) _ = _
    have hd : lit "Content-Type" ∉ (plan10 c keep w).del := by
      have h1 : lit "Content-Type" ≠ lit "Content-Length" := by decide
      have h2 : lit "Content-Type" ≠ lit "Transfer-Encoding" := by decide
      have h3 : lit "Content-Type" ≠ lit "Connection" := by decide
      simp only [plan10, List.mem_append, mem_if, suppressed, if_neg hs, h1, h2, h3, and_false, or_false, List.mem_singleton]
      split <;> simp [h1, h2]
    have hb : has w.hdrs (lit "Content-Type") = true := by
      simpa [has] using hh
    unfold sent10
    rw [named_append, kept_named10 hc hn _ hd, named_own, List.append_nil, if_pos (by decide)]
    intro e he hk
    simp only [plan10, List.mem_append, mem_if, mem_ifn, hb] at he
    rcases he with ((⟨_, rfl⟩ | ⟨_, rfl⟩) | ⟨h, rfl⟩) | ⟨_, rfl⟩
    · exact absurd hk (by dsimp only; decide)
    · exact absurd hk (by dsimp only; decide)
    · simp at h
    · exact absurd hk (by dsimp only; decide)
  · show named (sent10 c keep w) _ = _
    have hd : lit "Date" ∉ (plan10 c keep w).del := by
      have h0 : lit "Date" ≠ lit "Content-Type" := by decide
      have h1 : lit "Date" ≠ lit "Content-Length" := by decide
      have h2 : lit "Date" ≠ lit "Transfer-Encoding" := by decide
      have h3 : lit "Date" ≠ lit "Connection" := by decide
      simp only [plan10, List.mem_append, mem_if, suppressed, h1, h2, h3, and_false, or_false, List.mem_singleton]
      split
      · simp [h0, h1, h2]
      · split <;> simp [h1, h2]
    have hb : has w.hdrs (lit "Date") = true := by
      simpa [has] using hh
    unfold sent10
    rw [named_append, kept_named10 hc hn _ hd, named_own, List.append_nil, if_pos (by decide)]
    intro e he hk
    simp only [plan10, List.mem_append, mem_if, mem_ifn, hb] at he
    rcases he with ((⟨h, rfl⟩ | ⟨_, rfl⟩) | ⟨h, rfl⟩) | ⟨_, rfl⟩
    · simp at h
    · exact absurd hk (by dsimp only; decide)
    · exact absurd hk (by dsimp only; decide)
    · exact absurd hk (by dsimp only; decide)

theorem receive_wire10 (strict : Bool) {c : Choices} {keep : Bool} {w : NetW} (h : Telling10 w) (hc : Sound c w) {next : GoStr}
    (hnext : (plan10 c keep w).untilEnd = true → next = []) :
    receive10 strict w.isHEAD (wire10 c keep w ++ next) = some ({ status := w.status.toNat, fields := sent10 c keep w, body := w.body }, next) := by
  have := h.final
  rw [show wire10 c keep w ++ next = head10 c keep w ++ ((if w.isHEAD then [] else w.body) ++ next) from List.append_assoc _ _ _,
    head_read10 strict keep (by omega) h.three hc, body_read10 h hc hnext]
  rfl

/-- The length is not told. -/
theorem untold10 {c : Choices} {keep : Bool} {w : NetW} (h : Telling10 w) (hc : Sound c w) (hu : (plan10 c keep w).untilEnd = true) (q : GoStr) :
    body10 w.isHEAD w.status.toNat (sent10 c keep w) q = some (q, []) := by
  have h1 := h.final
  rw [untilEnd_eq, Bool.and_eq_true] at hu
  have hnb : noBody w = false := by simpa using hu.1
  have hs : ¬ (w.isHEAD = true ∨ w.status.toNat < 200 ∨ w.status.toNat = 204 ∨ w.status.toNat = 304) := by
    unfold noBody at hnb
    simp only [Bool.or_eq_false_iff, Bool.not_eq_false', decide_eq_false_iff_not] at hnb
    rintro (h | h | h | h)
    · rw [hnb.1.1] at h; cases h
    · omega
    · exact hnb.2 (by omega)
    · have : w.status = 304 := by omega
      rw [this] at hnb
      exact absurd hnb.1.2 (by decide)
  have hau : autoLen10 c w = false := by
    cases ha : autoLen10 c w with
    | false => rfl
    | true =>
      have hb : both10 c w = false := by
        unfold autoLen10 at ha
        unfold both10
        simp only [Bool.and_eq_true, Bool.not_eq_true'] at ha
        rw [ha.1.1.2]
        simp
      rw [ha, hb] at hu
      simp at hu
  have hz : valuesOf (sent10 c keep w) (lit "content-length") = [] := by
    unfold sent10
    rw [values_append, extra_cl10, hau]
    simp only [Bool.false_eq_true, if_false, List.append_nil]
    rw [List.eq_nil_iff_forall_not_mem]
    intro v hv
    obtain ⟨k1, u, hu', _⟩ := (kept_cl10 hc h.once _ h.spelled).1 hv
    cases hb : both10 c w with
    | true =>
      refine k1 ?_
      simp only [plan10, List.mem_append, mem_if]
      exact .inl (.inl (.inr ⟨hb, trivial⟩))
    | false =>
      rw [hb, hau] at hu
      have hd : w.declared = none := by simpa using hu.2
      rw [h.number (by rw [← h.declared, hd])] at hu'
      cases hu'
  unfold body10
  rw [if_neg hs, hz]

/-! ## Messages cut short -/

theorem body_more10 {isHEAD : Bool} {st : Nat} {fs : List (GoStr × GoStr)} {s r : GoStr} {b : List Byte} (t : GoStr)
    (h : body10 isHEAD st fs s = some (b, r)) : body10 isHEAD st fs (s ++ t) = some (b, r ++ t) ∨ ∀ z, body10 isHEAD st fs z = some (z, []) := by
  unfold body10 at h ⊢
  by_cases hs : isHEAD = true ∨ st < 200 ∨ st = 204 ∨ st = 304
  · rw [if_pos hs] at h ⊢
    cases h
    exact Or.inl rfl
  · rw [if_neg hs] at h ⊢
    simp only [if_neg hs]
    cases hc : valuesOf fs (lit "content-length") with
    | nil => exact Or.inr fun z => rfl
    | cons v vs =>
      left
      rw [hc] at h
      dsimp only at h ⊢
      cases hn : lengthOf v with
      | none => rw [hn] at h; cases h
      | some n =>
        rw [hn] at h
        simp only [Option.bind_eq_bind, Option.bind_some] at h ⊢
        split at h
        · rename_i hx
          rw [if_pos ⟨hx.1, by simp; omega⟩, List.take_append_of_le_length hx.2, List.drop_append_of_le_length hx.2]
          cases h; rfl
        · cases h

theorem receive_more10 {strict isHEAD : Bool} {s r : GoStr} {m : Message} (t : GoStr) (h : receive10 strict isHEAD s = some (m, r)) :
    receive10 strict isHEAD (s ++ t) = some (m, r ++ t) ∨ r = [] ∧ ∀ u, receive10 strict isHEAD (s ++ u) = some ({ m with body := m.body ++ u }, []) := by
  unfold receive10 at h ⊢
  cases hl : line strict s with
  | none => rw [hl] at h; cases h
  | some x =>
    obtain ⟨l, r'⟩ := x
    rw [hl] at h
    simp only [line_more _ hl]
    simp only [Option.bind_eq_bind, Option.bind_some] at h ⊢
    cases hc : statusCode10 l with
    | none => rw [hc] at h; cases h
    | some st =>
      rw [hc] at h
      simp only [Option.bind_some] at h ⊢
      cases hr : fields strict (s.length + 1) r' with
      | none => rw [hr] at h; cases h
      | some z =>
        obtain ⟨fs, r''⟩ := z
        rw [hr] at h
        have hmore : ∀ u, fields strict ((s ++ u).length + 1) (r' ++ u) = some (fs, r'' ++ u) := fun u => fields_more u hr (by simp)
        simp only [hmore]
        simp only [Option.bind_some] at h ⊢
        cases hb : body10 isHEAD st fs r'' with
        | none => rw [hb] at h; cases h
        | some y =>
          obtain ⟨b, r3⟩ := y
          rw [hb] at h
          simp only [Option.bind_some] at h
          rcases body_more10 t hb with hb' | hb'
          · left
            rw [hb']
            cases h; rfl
          · right
            have := hb' r''
            rw [hb] at this
            cases this
            cases h
            refine ⟨rfl, fun u => ?_⟩
            rw [hb' (_ ++ u)]
            rfl

end Wire10P
end Verif
