import Verif.Proofs.Wire

/-!
# Framing: every response is read whole, and nothing more
-/

set_option autoImplicit false

namespace Verif
namespace WireP
open Spec.Wire Wire

/-- The fields of a response, as they arrive. -/
def sent (c : Choices) (w : NetW) : List (GoStr × GoStr) :=
  entries (c.order.filter fun e => e.1 ∉ (plan c w).del) ++ (plan c w).extra.map fun e => (e.1, strip e.2)

theorem natValue_digit {s : GoStr} {n : Nat} (h : Spec.natValue s = some n) : ∀ c ∈ s, 48 ≤ c.toNat ∧ c.toNat ≤ 57 := by
  unfold Spec.natValue at h
  generalize some 0 = a at h
  induction s generalizing a with
  | nil => simp
  | cons d s ih =>
    rw [List.foldl_cons] at h
    have hn : ∀ s : GoStr, s.foldl (fun (a : Option Nat) (b : Byte) => a.bind fun a => if 48 ≤ b.toNat ∧ b.toNat ≤ 57 then some (10 * a + (b.toNat - 48)) else none) none = none := by
      intro s
      induction s with
      | nil => rfl
      | cons _ s ih => rw [List.foldl_cons]; exact ih
    intro c hc
    rcases List.mem_cons.1 hc with rfl | hc
    · cases a with
      | none => rw [Option.bind_none, hn] at h; cases h
      | some a =>
        rw [Option.bind_some] at h
        split at h
        · assumption
        · rw [hn] at h; cases h
    · exact ih _ h c hc

theorem itoa_read (n : Nat) : lengthOf (itoa n) = some n ∧ OneLine (itoa n) ∧ strip (itoa n) = itoa n := by
  have hi : itoa n = digits (n + 1) n := by
    unfold itoa
    rw [if_neg (by omega)]
    rfl
  have hv := natValue_digits (n + 1) n (by omega)
  have hd := natValue_digit hv
  rw [hi]
  refine ⟨?_, ⟨fun h => ?_, fun h => ?_⟩, strip_id fun c hc => ?_⟩
  · unfold lengthOf
    rw [if_neg (digits_ne_nil _ _ (by omega)), hv]
  · have := hd _ h; simp at this
  · have := hd _ h; simp at this
  · have h := hd _ hc
    have h1 : c ≠ 32 := by rintro rfl; simp at h
    have h2 : c ≠ 9 := by rintro rfl; simp at h
    simp [ows, h1, h2]

theorem own_name : ∀ k ∈ ownNames, isName k = true := by decide +kernel

theorem mem_if {α : Type} {b : Prop} [Decidable b] {x y : α} : x ∈ (if b then [y] else []) ↔ b ∧ x = y := by
  split <;> simp_all

theorem mem_ifn {α : Type} {b : Prop} [Decidable b] {x y : α} : x ∈ (if b then [] else [y]) ↔ ¬ b ∧ x = y := by
  split <;> simp_all

theorem extra_ok {c : Choices} {w : NetW} (hc : Sound c w) : ∀ e ∈ (plan c w).extra, e.1 ∈ ownNames ∧ OneLine e.2 := by
  intro e he
  simp only [plan, List.mem_append, mem_if, mem_ifn] at he
  rcases he with (((⟨_, rfl⟩ | ⟨_, rfl⟩) | ⟨_, rfl⟩) | ⟨_, rfl⟩) | ⟨_, rfl⟩
  · exact ⟨by simp [ownNames], hc.date⟩
  · refine ⟨by simp [ownNames], ?_⟩
    dsimp only
    split
    · exact (itoa_read _).2.1
    · exact (itoa_read _).2.1
  · exact ⟨by simp [ownNames], hc.sniffed⟩
  · exact ⟨by simp [ownNames], by unfold OneLine; decide⟩
  · exact ⟨by simp [ownNames], by unfold OneLine; decide⟩

theorem lines_length (L : List (GoStr × GoStr)) : L.length ≤ (lines L).length := by
  induction L with
  | nil => simp
  | cons e L ih => simp [lines, crlf_lit] at ih ⊢; omega

theorem chunks_length (cs : List (List Byte)) : cs.length ≤ (cs.flatMap writeChunk).length := by
  induction cs with
  | nil => simp
  | cons p cs ih => simp [writeChunk, crlf_lit] at ih ⊢; omega

/-- Up to the body. -/
theorem head_read (strict : Bool) {c : Choices} {w : NetW} (h1 : 100 ≤ w.status) (h2 : w.status ≤ 999) (hc : Sound c w) (next : GoStr) :
    receive strict w.isHEAD (wire c w ++ next) =
      (body strict w.isHEAD w.status.toNat (sent c w) (payload c w (plan c w).chunking ++ next)).map fun x =>
        ({ status := w.status.toNat, fields := sent c w, body := x.1 }, x.2) := by
  obtain ⟨s1, s2⟩ := status_read h1 h2 hc.reason
  let L := entries (c.order.filter fun e => e.1 ∉ (plan c w).del) ++ (plan c w).extra
  have hL : ∀ e ∈ L, isName e.1 = true ∧ OneLine e.2 := by
    intro e he
    rcases List.mem_append.1 he with he | he
    · exact entries_ok _ e he
    · exact ⟨own_name _ (extra_ok hc e he).1, (extra_ok hc e he).2⟩
  have hm : L.map (fun e => (e.1, strip e.2)) = sent c w := by
    show (entries _ ++ _).map _ = _
    rw [List.map_append, entries_strip]
    rfl
  have ew : wire c w ++ next = (lit "HTTP/1.1 " ++ itoa w.status ++ lit " " ++ c.reason) ++ 13 :: 10 ::
      (lines L ++ 13 :: 10 :: (payload c w (plan c w).chunking ++ next)) := by
    show _ = (_ : GoStr) ++ 13 :: 10 :: (lines (entries _ ++ _) ++ _)
    rw [lines_append, ← writeFields_lines]
    simp only [wire, crlf_lit, List.append_assoc, List.cons_append, List.nil_append]
    rfl
  have hlen : L.length < (wire c w ++ next).length + 1 := by
    rw [ew]
    have := lines_length L
    simp only [List.length_append, List.length_cons]
    omega
  unfold receive
  rw [ew, line_crlf strict s1, ← ew]
  simp only [Option.bind_eq_bind, Option.bind_some, s2]
  rw [fields_read strict _ L _ hlen hL, hm]
  simp only [Option.bind_some]
  cases body strict w.isHEAD w.status.toNat (sent c w) (payload c w (plan c w).chunking ++ next) <;> rfl

theorem values_if (b : Prop) [Decidable b] (k v n : GoStr) :
    valuesOf ((if b then [(k, v)] else []).map fun e => (e.1, strip e.2)) n = if b ∧ Spec.lower k = n then [strip v] else [] := by
  by_cases hb : b
  · by_cases h : Spec.lower k = n <;> simp [hb, h, valuesOf]
  · simp [hb, valuesOf]

theorem values_ifn (b : Prop) [Decidable b] (k v n : GoStr) :
    valuesOf ((if b then [] else [(k, v)]).map fun e => (e.1, strip e.2)) n = if ¬ b ∧ Spec.lower k = n then [strip v] else [] := by
  by_cases hb : b
  · simp [hb, valuesOf]
  · by_cases h : Spec.lower k = n <;> simp [hb, h, valuesOf]

theorem no_te {w : NetW} (hnf : NoFraming w.hdrs) : hdrGet w.hdrs (lit "Transfer-Encoding") = [] := by
  unfold hdrGet
  cases h : w.hdrs.find? fun e => e.1 = lit "Transfer-Encoding" with
  | none => rfl
  | some e =>
    have h1 := List.find?_some h
    have h2 := List.mem_of_find?_eq_some h
    simp only [decide_eq_true_eq] at h1
    dsimp only
    refine Classical.byContradiction fun hne => (hnf e h2 hne).1 ?_
    rw [h1]
    decide

/-- Whether the server counts the bytes of the body itself. -/
def autoLen (c : Choices) (w : NetW) : Bool := c.auto && bodyAllowed w.status && decide (first w.hdrs (lit "Content-Length") = [])

def noBody (w : NetW) : Bool := w.isHEAD || !bodyAllowed w.status || w.status = 204

theorem plan_chunking {c : Choices} {w : NetW} (hnf : NoFraming w.hdrs) :
    (plan c w).chunking = (!noBody w && !(w.declared.isSome || autoLen c w)) := by
  have : first w.hdrs (lit "Transfer-Encoding") = [] := by unfold first; rw [no_te hnf]; rfl
  simp only [plan, this, noBody, autoLen]
  simp

theorem extra_te {c : Choices} {w : NetW} :
    valuesOf ((plan c w).extra.map fun e => (e.1, strip e.2)) (lit "transfer-encoding") = if (plan c w).chunking then [lit "chunked"] else [] := by
  have h1 : Spec.lower (lit "Date") ≠ lit "transfer-encoding" := by decide
  have h2 : Spec.lower (lit "Content-Length") ≠ lit "transfer-encoding" := by decide
  have h3 : Spec.lower (lit "Content-Type") ≠ lit "transfer-encoding" := by decide
  have h4 : Spec.lower (lit "Connection") ≠ lit "transfer-encoding" := by decide
  have h5 : Spec.lower (lit "Transfer-Encoding") = lit "transfer-encoding" := by decide
  have h6 : strip (lit "chunked") = lit "chunked" := by decide
  simp only [plan, List.map_append, values_append, values_if, values_ifn, h1, h2, h3, h4, h5, h6, and_false, if_false, List.nil_append, and_true]
  congr

theorem extra_cl {c : Choices} {w : NetW} (hnf : NoFraming w.hdrs) :
    valuesOf ((plan c w).extra.map fun e => (e.1, strip e.2)) (lit "content-length") =
      if autoLen c w then [itoa (if w.isHEAD then (c.headLength : Int) else w.body.length)] else [] := by
  have : first w.hdrs (lit "Transfer-Encoding") = [] := by unfold first; rw [no_te hnf]; rfl
  have h1 : Spec.lower (lit "Date") ≠ lit "content-length" := by decide
  have h2 : Spec.lower (lit "Content-Length") = lit "content-length" := by decide
  have h3 : Spec.lower (lit "Content-Type") ≠ lit "content-length" := by decide
  have h4 : Spec.lower (lit "Connection") ≠ lit "content-length" := by decide
  have h5 : Spec.lower (lit "Transfer-Encoding") ≠ lit "content-length" := by decide
  simp only [plan, List.map_append, values_append, values_if, values_ifn, h1, h2, h3, h4, h5, and_false, if_false, List.nil_append, and_true,
    List.append_nil, this, autoLen]
  have hs : strip (itoa (if w.isHEAD = true then (c.headLength : Int) else w.body.length)) =
      itoa (if w.isHEAD = true then (c.headLength : Int) else w.body.length) := by
    split
    · exact (itoa_read _).2.2
    · exact (itoa_read _).2.2
  rw [hs]
  simp

theorem kept_te {c : Choices} {w : NetW} (hc : Sound c w) (hnf : NoFraming w.hdrs) (P : GoStr × List GoStr → Bool) :
    valuesOf (entries (c.order.filter P)) (lit "transfer-encoding") = [] := by
  rw [List.eq_nil_iff_forall_not_mem]
  intro v hv
  obtain ⟨e, he, _, hl, u, hu, _⟩ := mem_values.1 hv
  have hm := hc.order.mem_iff.1 (List.mem_filter.1 he).1
  exact (hnf e hm (List.ne_nil_of_mem hu)).1 hl

theorem kept_cl {c : Choices} {w : NetW} (hc : Sound c w) (hn : (w.hdrs.map Prod.fst).Nodup) (hnf : NoFraming w.hdrs) {v : GoStr} :
    v ∈ valuesOf (entries (c.order.filter fun e => e.1 ∉ (plan c w).del)) (lit "content-length") ↔
      lit "Content-Length" ∉ (plan c w).del ∧ ∃ u ∈ hdrGet w.hdrs (lit "Content-Length"), v = cleaned u := by
  rw [mem_values]
  constructor
  · rintro ⟨e, he, _, hl, u, hu, rfl⟩
    obtain ⟨hm, hd⟩ := List.mem_filter.1 he
    have hm := hc.order.mem_iff.1 hm
    have hk := (hnf e hm (List.ne_nil_of_mem hu)).2 hl
    have := hdrGet_mem hn hm
    rw [hk] at this hd
    exact ⟨by simpa using hd, u, this ▸ hu, clean_eq u⟩
  · rintro ⟨hd, u, hu, rfl⟩
    have : ∃ e ∈ w.hdrs, e.1 = lit "Content-Length" := by
      refine Classical.byContradiction fun h => ?_
      rw [hdrGet_none fun e he hk => h ⟨e, he, hk⟩] at hu
      cases hu
    obtain ⟨e, he, hk⟩ := this
    have hg := hdrGet_mem hn he
    rw [hk] at hg
    refine ⟨e, List.mem_filter.2 ⟨hc.order.mem_iff.2 he, by rw [hk]; simpa using hd⟩, by rw [hk]; decide, by rw [hk]; decide, u, hg ▸ hu, (clean_eq u).symm⟩

/-- The receiver takes the body, and leaves what follows it. -/
theorem body_read (strict : Bool) {c : Choices} {w : NetW} (h1 : 200 ≤ w.status) (hd : w.declared = declaredLength w.hdrs)
    (hn : (w.hdrs.map Prod.fst).Nodup) (hf : Spec.Framed w) (hnf : NoFraming w.hdrs) (hl : LengthOk w.hdrs) (hc : Sound c w) (next : GoStr) :
    body strict w.isHEAD w.status.toNat (sent c w) (payload c w (plan c w).chunking ++ next) = some (w.body, next) := by
  unfold Spec.Framed at hf
  by_cases hA : w.isHEAD = true ∨ w.status = 204 ∨ w.status = 304
  · rw [if_pos hA] at hf
    have hnb : noBody w = true := by
      rcases hA with h | h | h
      · simp [noBody, h]
      · simp [noBody, h]
      · simp [noBody, h, bodyAllowed]
    have hp : payload c w (plan c w).chunking = [] := by
      rw [plan_chunking hnf, hnb]
      simp [payload, hf]
    have hs : w.isHEAD = true ∨ w.status.toNat < 200 ∨ w.status.toNat = 204 ∨ w.status.toNat = 304 := by
      rcases hA with h | h | h
      · exact Or.inl h
      · right; right; left; omega
      · right; right; right; omega
    unfold body
    rw [if_pos hs, hp, hf]
    rfl
  · rw [if_neg hA] at hf
    obtain ⟨a1, a2, a3⟩ : w.isHEAD ≠ true ∧ w.status ≠ 204 ∧ w.status ≠ 304 := by
      simpa only [not_or] using hA
    have a1' : w.isHEAD = false := by simpa using a1
    have hba : bodyAllowed w.status = true := by
      unfold bodyAllowed
      rw [if_neg (by omega), if_neg a2, if_neg a3]
    have hnb : noBody w = false := by simp [noBody, a1', hba, a2]
    have hs : ¬ (w.isHEAD = true ∨ w.status.toNat < 200 ∨ w.status.toNat = 204 ∨ w.status.toNat = 304) := by
      rintro (h | h | h | h)
      · exact a1 h
      all_goals omega
    have hsup : suppressed w.status = [] := by simp [suppressed, a3, hba]
    have hte0 : first w.hdrs (lit "Transfer-Encoding") = [] := by unfold first; rw [no_te hnf]; rfl
    have hdel : lit "Content-Length" ∈ (plan c w).del ↔ (plan c w).chunking = true := by
      simp only [plan, hsup, hte0, List.mem_append, mem_if]
      have q1 : lit "Content-Length" ≠ lit "Transfer-Encoding" := by decide
      have q2 : lit "Content-Length" ≠ lit "Connection" := by decide
      simp [q1, q2]
    have hte : valuesOf (sent c w) (lit "transfer-encoding") = if (plan c w).chunking then [lit "chunked"] else [] := by
      unfold sent
      rw [values_append, kept_te hc hnf, extra_te]
      rfl
    have hch : (plan c w).chunking = !(w.declared.isSome || autoLen c w) := by
      rw [plan_chunking hnf, hnb]; rfl
    unfold body
    rw [if_neg hs, hte]
    by_cases hk : (plan c w).chunking = true
    · -- in chunks
      rw [if_pos hk]
      have hau : autoLen c w = false := by
        cases h : autoLen c w with
        | false => rfl
        | true => rw [hk, h, Bool.or_true] at hch; cases hch
      have hcl : valuesOf (sent c w) (lit "content-length") = [] := by
        unfold sent
        rw [values_append, extra_cl hnf, hau]
        simp only [Bool.false_eq_true, if_false, List.append_nil]
        rw [List.eq_nil_iff_forall_not_mem]
        intro v hv
        exact ((kept_cl hc hn hnf).1 hv).1 (hdel.2 hk)
      have hlow : Spec.lower (lit "chunked") = lit "chunked" := by decide
      dsimp only
      rw [if_pos ⟨hlow, hcl⟩, hk]
      have e1 : payload c w true ++ next =
          c.chunks.flatMap writeChunk ++ (lit "0\r\n" ++ (lines (entries c.trailer) ++ 13 :: 10 :: next)) := by
        simp [payload, a1', crlf_lit, writeFields_lines]
      rw [e1, chunks_read strict next _ (entries_ok _) c.chunks _ _ hc.pieces, hc.chunks]
      have := chunks_length c.chunks
      have := lines_length (entries c.trailer)
      simp only [List.length_append]
      omega
    · rw [if_neg hk]
      have hk' : (plan c w).chunking = false := by simpa using hk
      have hnd : lit "Content-Length" ∉ (plan c w).del := fun h => hk (hdel.1 h)
      have hp : payload c w (plan c w).chunking = w.body := by simp [payload, a1', hk']
      rw [hp]
      dsimp only
      -- the values are not none, and all say the length of the body
      have key : valuesOf (sent c w) (lit "content-length") ≠ [] ∧
          ∀ v ∈ valuesOf (sent c w) (lit "content-length"), lengthOf v = some w.body.length := by
        have ev : valuesOf (sent c w) (lit "content-length") =
            valuesOf (entries (c.order.filter fun e => e.1 ∉ (plan c w).del)) (lit "content-length") ++
              if autoLen c w then [itoa (if w.isHEAD then (c.headLength : Int) else w.body.length)] else [] := by
          unfold sent
          rw [values_append, extra_cl hnf]
        cases hdc : w.declared with
        | some n =>
          have hlen := hf n hdc
          rw [hd] at hdc
          have hv := hl.1 n hdc
          have hau : autoLen c w = false := by
            unfold autoLen first
            unfold declaredLength at hdc
            cases hg : hdrGet w.hdrs (lit "Content-Length") with
            | nil => rw [hg] at hdc; cases hdc
            | cons x l =>
              rw [hg] at hdc
              cases x with
              | nil => exact absurd hdc (by simp [parseLength])
              | cons a b => simp
          rw [ev, hau]
          simp only [Bool.false_eq_true, if_false, List.append_nil]
          constructor
          · have : ∃ u, u ∈ hdrGet w.hdrs (lit "Content-Length") := by
              unfold declaredLength at hdc
              cases hg : hdrGet w.hdrs (lit "Content-Length") with
              | nil => rw [hg] at hdc; cases hdc
              | cons x l => exact ⟨x, by simp⟩
            obtain ⟨u, hu⟩ := this
            exact List.ne_nil_of_mem ((kept_cl hc hn hnf).2 ⟨hnd, u, hu, rfl⟩)
          · intro v hv'
            obtain ⟨_, u, hu, rfl⟩ := (kept_cl hc hn hnf).1 hv'
            rw [hlen]
            exact hv u hu
        | none =>
          have hau : autoLen c w = true := by
            rw [hk', hdc] at hch
            simpa using hch
          have hg0 : hdrGet w.hdrs (lit "Content-Length") = [] := by
            unfold autoLen first at hau
            simp only [Bool.and_eq_true, decide_eq_true_eq] at hau
            have h2 := hl.2
            cases hg : hdrGet w.hdrs (lit "Content-Length") with
            | nil => rfl
            | cons x l =>
              rw [hg] at hau h2
              simp only [List.headD_cons] at hau
              rw [hau.2] at h2
              exact absurd rfl h2
          have hz : valuesOf (entries (c.order.filter fun e => e.1 ∉ (plan c w).del)) (lit "content-length") = [] := by
            rw [List.eq_nil_iff_forall_not_mem]
            intro v hv
            obtain ⟨_, u, hu, _⟩ := (kept_cl hc hn hnf).1 hv
            rw [hg0] at hu
            cases hu
          rw [ev, hz, hau, a1']
          simp only [if_true, List.nil_append, Bool.false_eq_true, if_false]
          refine ⟨by simp, fun v hv => ?_⟩
          rw [List.mem_singleton.1 hv]
          exact (itoa_read _).1
      obtain ⟨k1, k2⟩ := key
      cases hvs : valuesOf (sent c w) (lit "content-length") with
      | nil => exact absurd hvs k1
      | cons v vs =>
        rw [hvs] at k2
        have hv : lengthOf v = some w.body.length := k2 v (by simp)
        simp only [hv, Option.bind_eq_bind, Option.bind_some]
        rw [if_pos ⟨by simpa using fun u hu => k2 u (by simp [hu]), by simp⟩]
        simp

theorem receive_wire (strict : Bool) {c : Choices} {w : NetW} (h1 : 200 ≤ w.status) (h2 : w.status ≤ 999) (hd : w.declared = declaredLength w.hdrs)
    (hn : (w.hdrs.map Prod.fst).Nodup) (hf : Spec.Framed w) (hnf : NoFraming w.hdrs) (hl : LengthOk w.hdrs) (hc : Sound c w) (next : GoStr) :
    receive strict w.isHEAD (wire c w ++ next) = some ({ status := w.status.toNat, fields := sent c w, body := w.body }, next) := by
  rw [head_read strict (by omega) h2 hc, body_read strict h1 hd hn hf hnf hl hc]
  rfl

theorem named_own {l : List (GoStr × GoStr)} {k : GoStr} (h : ∀ e ∈ l, e.1 ≠ k) : named (l.map fun e => (e.1, strip e.2)) k = [] := by
  unfold named
  rw [List.filter_eq_nil_iff.2, List.map_nil]
  intro x hx
  obtain ⟨e, he, rfl⟩ := List.mem_map.1 hx
  simpa using h e he

theorem del_own {c : Choices} {w : NetW} : ∀ k ∈ (plan c w).del, k ∈ ownNames := by
  intro k hk
  simp only [plan, suppressed, List.mem_append, mem_if] at hk
  rcases hk with (((hk | ⟨_, rfl⟩) | ⟨_, rfl⟩) | ⟨_, rfl⟩) | ⟨_, rfl⟩
  · split at hk
    · simp only [List.mem_cons, List.not_mem_nil, or_false] at hk
      rcases hk with rfl | rfl | rfl <;> simp [ownNames]
    · split at hk
      · simp only [List.mem_cons, List.not_mem_nil, or_false] at hk
        rcases hk with rfl | rfl <;> simp [ownNames]
      · cases hk
  all_goals simp [ownNames]

theorem kept_named {c : Choices} {w : NetW} (hc : Sound c w) (hn : (w.hdrs.map Prod.fst).Nodup) {k : GoStr} (hk : k ∉ (plan c w).del) :
    named (entries (c.order.filter fun e => e.1 ∉ (plan c w).del)) k = if isName k then (hdrGet w.hdrs k).map cleaned else [] := by
  have hno : (c.order.map Prod.fst).Nodup := (hc.order.map Prod.fst).nodup_iff.2 hn
  have hnf : ((c.order.filter fun e => e.1 ∉ (plan c w).del).map Prod.fst).Nodup := hno.sublist ((List.filter_sublist).map _)
  rw [named_entries hnf]
  have : hdrGet (c.order.filter fun e => e.1 ∉ (plan c w).del) k = hdrGet w.hdrs k := by
    rw [← hdrGet_perm hc.order hn]
    unfold hdrGet
    rw [List.find?_filter]
    congr 2
    funext e
    by_cases he : e.1 = k
    · simp [he, hk]
    · simp [he]
  rw [this]

theorem sent_says {c : Choices} {w : NetW} (h1 : 200 ≤ w.status) (hn : (w.hdrs.map Prod.fst).Nodup) (hc : Sound c w) :
    Says { status := w.status.toNat, fields := sent c w, body := w.body } w := by
  refine ⟨by show (w.status.toNat : Int) = _; omega, rfl, fun k hk => ?_, fun hs hh => ?_, fun hh => ?_⟩
  · show named (sent c w) k = _
    unfold sent
    rw [named_append, kept_named hc hn fun h => hk (del_own k h), named_own, List.append_nil]
    rintro e he rfl
    exact hk (extra_ok hc e he).1
  · show named (sent c w) _ = _
    have hd : lit "Content-Type" ∉ (plan c w).del := by
      have h1 : lit "Content-Type" ≠ lit "Content-Length" := by decide
      have h2 : lit "Content-Type" ≠ lit "Transfer-Encoding" := by decide
      have h3 : lit "Content-Type" ≠ lit "Connection" := by decide
      simp only [plan, List.mem_append, mem_if, suppressed, if_neg hs, h1, h2, h3, and_false, or_false]
      split <;> simp [h1, h2]
    have hb : has w.hdrs (lit "Content-Type") = true := by
      simpa [has] using hh
    unfold sent
    rw [named_append, kept_named hc hn hd, named_own, List.append_nil, if_pos (by decide)]
    intro e he hk
    simp only [plan, List.mem_append, mem_if, mem_ifn, hb] at he
    rcases he with (((⟨_, rfl⟩ | ⟨_, rfl⟩) | ⟨h, rfl⟩) | ⟨_, rfl⟩) | ⟨_, rfl⟩
    · exact absurd hk (by dsimp only; decide)
    · exact absurd hk (by dsimp only; decide)
    · simp at h
    · exact absurd hk (by dsimp only; decide)
    · exact absurd hk (by dsimp only; decide)
  · show named (sent c w) _ = _
    have hd : lit "Date" ∉ (plan c w).del := by
      have h0 : lit "Date" ≠ lit "Content-Type" := by decide
      have h1 : lit "Date" ≠ lit "Content-Length" := by decide
      have h2 : lit "Date" ≠ lit "Transfer-Encoding" := by decide
      have h3 : lit "Date" ≠ lit "Connection" := by decide
      simp only [plan, List.mem_append, mem_if, suppressed, h1, h2, h3, and_false, or_false]
      split
      · simp [h0, h1, h2]
      · split <;> simp [h1, h2]
    have hb : has w.hdrs (lit "Date") = true := by
      simpa [has] using hh
    unfold sent
    rw [named_append, kept_named hc hn hd, named_own, List.append_nil, if_pos (by decide)]
    intro e he hk
    simp only [plan, List.mem_append, mem_if, mem_ifn, hb] at he
    rcases he with (((⟨h, rfl⟩ | ⟨_, rfl⟩) | ⟨h, rfl⟩) | ⟨_, rfl⟩) | ⟨_, rfl⟩
    · simp at h
    · exact absurd hk (by dsimp only; decide)
    · exact absurd hk (by dsimp only; decide)
    · exact absurd hk (by dsimp only; decide)
    · exact absurd hk (by dsimp only; decide)

end WireP
end Verif
