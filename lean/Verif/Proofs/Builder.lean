import Verif.Proofs.Heap

/-!
# Builders behave as if headers were values
-/

set_option autoImplicit false

namespace Verif

open Spec

variable {B : Type}

/-- Generators do not return a map that exists already. -/
def NoShared (E : BEnv B) : Prop :=
  ∀ g X, (∀ c l r b, ((E.gens g).redirect X c l).2 ≠ .ret (.shared r, b)) ∧
    ∀ c e r b, ((E.gens g).error X c e).2 ≠ .ret (.shared r, b)

/-- What the map argument of the call contains. -/
def argOf (H : Heap) : BOp → Hdrs
  | .on _ (.withHeaders m) => H.lookup m
  | _ => .none

@[inherit_doc argOf] def largOf (H : Heap) : LOp → Hdrs
  | .withHeaders m => H.lookup m
  | _ => .none

/-- The Builder is as expected. -/
structure BldRel (om oa : Nat → Tag) (t : Tag) (H : Heap) (b : Bld) (sb : SBld) : Prop where
  gen : b.gen = sb.gen
  code : b.code = sb.code
  body : b.body = sb.body
  err : b.err = sb.err
  hdrs : Holds om oa t H b.hdrs sb.hdrs

variable {om oa : Nat → Tag} {t : Tag} {H H' : Heap}

theorem headers_spec (hw : H.WF) (hf : FreshTo om oa t H) {b : Bld} {f : Hdrs} (h : Holds om oa t H b.hdrs f) :
    ∃ i, (b.headers H).2.2 = .own i ∧ (b.headers H).2.1 = { b with hdrs := some (.own i) } ∧ Upd om oa t H (b.headers H).1 ∧
      HoldsAt om oa t (b.headers H).1 i f := by
  unfold Bld.headers
  rcases h with ⟨h1, h2⟩ | ⟨i, h1, h2⟩
  · rw [h1]
    subst h2
    exact ⟨_, rfl, rfl, upd_newMap hw hf, holds_newMap hf⟩
  · rw [h1]
    refine ⟨i, rfl, ?_, .refl hw, h2⟩
    cases b
    simp_all

theorem set_sim (hw : H.WF) (hf : FreshTo om oa t H) {b : Bld} {sb : SBld} (r : BldRel om oa t H b sb) (name v : GoStr) :
    Upd om oa t H (b.set H name v).1 ∧ BldRel om oa t (b.set H name v).1 (b.set H name v).2 (sb.set name v) := by
  obtain ⟨i, h1, h2, h3, h4⟩ := headers_spec hw hf r.hdrs
  have h5 := h4.set h3.wf (hf.mono h3) name v
  unfold Bld.set
  simp only [h1, h2]
  exact ⟨h3.trans h5.1, r.gen, r.code, r.body, r.err, .inr ⟨i, rfl, h5.2⟩⟩

theorem add_sim (spare : Nat → Nat) (hw : H.WF) (hf : FreshTo om oa t H) {b : Bld} {sb : SBld} (r : BldRel om oa t H b sb)
    (name v : GoStr) :
    Upd om oa t H (b.add spare H name v).1 ∧ BldRel om oa t (b.add spare H name v).1 (b.add spare H name v).2 (sb.add name v) := by
  obtain ⟨i, h1, h2, h3, h4⟩ := headers_spec hw hf r.hdrs
  have h5 := h4.add spare h3.wf (hf.mono h3) name v
  unfold Bld.add
  simp only [h1, h2]
  exact ⟨h3.trans h5.1, r.gen, r.code, r.body, r.err, .inr ⟨i, rfl, h5.2⟩⟩

theorem made_sim (hw : H.WF) (hf : FreshTo om oa t H) {b : Bld} {sb : SBld} (r : BldRel om oa t H b sb) (m : Res Nat) (c : GoStr) :
    Upd om oa t H (b.made H m c).1 ∧ BldRel om oa t (b.made H m c).1 (b.made H m c).2.1 (sb.made m c).1 ∧
      (b.made H m c).2.2 = (sb.made m c).2 := by
  unfold Bld.made SBld.made
  cases m with
  | panic p => exact ⟨.refl hw, r, rfl⟩
  | hang => exact ⟨.refl hw, r, rfl⟩
  | ret i =>
    have := set_sim (b := { b with body := some i }) (sb := { sb with body := some i }) hw hf
      ⟨r.gen, r.code, rfl, r.err, r.hdrs⟩ (lit "Content-Type") c
    exact ⟨this.1, this.2, rfl⟩

theorem page_sim (hw : H.WF) (hf : FreshTo om oa t H) {b : Bld} {sb : SBld} (r : BldRel om oa t H b sb) (code : Int)
    (err : Option Err) (X : B) (h : GenHdrs) (body : Option Nat) (hs : ∀ r, h ≠ .shared r) :
    Upd om oa t H (b.page H code err h body).1 ∧
      BldRel om oa t (b.page H code err h body).1 (b.page H code err h body).2 (sb.page code err (X, .ret (h, body))).2.1 ∧
      (sb.page code err (X, .ret (h, body))).1 = X ∧ (sb.page code err (X, .ret (h, body))).2.2 = .unit := by
  unfold Bld.page SBld.page
  cases h with
  | nil => exact ⟨.refl hw, ⟨r.gen, rfl, rfl, rfl, .inl ⟨rfl, rfl⟩⟩, rfl, rfl⟩
  | fresh v =>
    have := alloc_spec hw hf v
    exact ⟨this.1, ⟨r.gen, rfl, rfl, rfl, this.2⟩, rfl, rfl⟩
  | shared r => exact absurd rfl (hs r)

/-- One call on a Builder. -/
theorem lstep_sim {E : BEnv B} (hE : NoShared E) (hw : H.WF) (hf : FreshTo om oa t H) (X : B) {b : Bld} {sb : SBld}
    (r : BldRel om oa t H b sb) (op : LOp) :
    Upd om oa t H (b.step E H X op).1 ∧ (b.step E H X op).2.1 = (sb.step E X (largOf H op) op).1 ∧
      BldRel om oa t (b.step E H X op).1 (b.step E H X op).2.2.1 (sb.step E X (largOf H op) op).2.1 ∧
      (b.step E H X op).2.2.2 = (sb.step E X (largOf H op) op).2.2 := by
  have same : Upd om oa t H H := .refl hw
  cases op with
  | pageGenerator => exact ⟨same, rfl, r, by simp [Bld.step, SBld.step, r.gen]⟩
  | status => exact ⟨same, rfl, r, by simp [Bld.step, SBld.step, r.code]⟩
  | headers =>
    obtain ⟨i, h1, h2, h3, h4⟩ := headers_spec hw hf r.hdrs
    simp only [Bld.step, SBld.step, h2]
    exact ⟨h3, trivial, ⟨r.gen, r.code, r.body, r.err, .inr ⟨i, rfl, h4⟩⟩, by rw [h4.lookup]⟩
  | body => exact ⟨same, rfl, r, by simp [Bld.step, SBld.step, r.body]⟩
  | err => exact ⟨same, rfl, r, by simp [Bld.step, SBld.step, r.err]⟩
  | withPageGenerator g =>
    cases g with
    | none => exact ⟨same, rfl, r, rfl⟩
    | some g => exact ⟨same, rfl, ⟨rfl, r.code, r.body, r.err, r.hdrs⟩, rfl⟩
  | withStatus code =>
    simp only [Bld.step, SBld.step]
    by_cases h1 : code ≥ 200
    · by_cases h2 : code ≤ 999
      · rw [if_neg (by omega), if_neg (by omega), if_pos (by omega)]
        exact ⟨same, rfl, ⟨r.gen, rfl, r.body, r.err, r.hdrs⟩, rfl⟩
      · rw [if_neg (by omega), if_pos (by omega), if_neg (by omega)]
        exact ⟨same, rfl, r, rfl⟩
    · rw [if_pos (by omega), if_neg (by omega)]
      exact ⟨same, rfl, r, rfl⟩
  | withHeaders m =>
    have := copyHeaders_spec (om := om) (oa := oa) (t := t) hw hf m
    exact ⟨this.1, rfl, ⟨r.gen, r.code, r.body, r.err, this.2⟩, rfl⟩
  | withHeader name value app =>
    simp only [Bld.step, SBld.step]
    split
    · exact ⟨same, rfl, r, rfl⟩
    · cases app with
      | true =>
        have := add_sim E.spare hw hf r name value
        exact ⟨this.1, rfl, this.2, rfl⟩
      | false =>
        have := set_sim hw hf r name value
        exact ⟨this.1, rfl, this.2, rfl⟩
  | withoutHeader name =>
    simp only [Bld.step, SBld.step]
    split
    · exact ⟨same, rfl, r, rfl⟩
    · obtain ⟨i, h1, h2, h3, h4⟩ := headers_spec hw hf r.hdrs
      have h5 := h4.del h3.wf (canon name)
      simp only [h1, h2, Heap.hdel]
      exact ⟨h3.trans h5.1, trivial, ⟨r.gen, r.code, r.body, r.err, .inr ⟨i, rfl, h5.2⟩⟩, trivial⟩
  | withContentType str =>
    simp only [Bld.step, SBld.step]
    cases hm : E.mime str with
    | none => exact ⟨same, rfl, r, rfl⟩
    | some s =>
      cases s with
      | nil => exact ⟨same, rfl, r, rfl⟩
      | cons c s =>
        have := set_sim hw hf r (lit "Content-Type") (c :: s)
        exact ⟨this.1, rfl, this.2, rfl⟩
  | withContentLanguage str =>
    have := set_sim hw hf r (lit "Content-Language") (trimSpace str)
    exact ⟨this.1, rfl, this.2, rfl⟩
  | withContentEncoding str =>
    have := set_sim hw hf r (lit "Content-Encoding") (trimSpace str)
    exact ⟨this.1, rfl, this.2, rfl⟩
  | withETag tag strong =>
    cases strong with
    | true =>
      have := set_sim hw hf r (lit "Etag") (lit "\"" ++ tag ++ lit "\"")
      exact ⟨this.1, rfl, this.2, rfl⟩
    | false =>
      have := set_sim hw hf r (lit "Etag") (lit "W/\"" ++ tag ++ lit "\"")
      exact ⟨this.1, rfl, this.2, rfl⟩
  | withDigest algo sum =>
    simp only [Bld.step, SBld.step]
    by_cases h1 : algo = []
    · rw [if_pos h1, if_pos (.inl h1)]; exact ⟨same, rfl, r, rfl⟩
    · by_cases h2 : sum = []
      · rw [if_neg h1, if_pos h2, if_pos (.inr h2)]; exact ⟨same, rfl, r, rfl⟩
      · rw [if_neg h1, if_neg h2, if_neg (by simp [h1, h2])]
        have := add_sim E.spare hw hf r (lit "Digest") (algo ++ lit "=" ++ base64 sum)
        exact ⟨this.1, rfl, this.2, rfl⟩
  | withBody i =>
    cases i with
    | none => exact ⟨same, rfl, r, rfl⟩
    | some i => exact ⟨same, rfl, ⟨r.gen, r.code, rfl, r.err, r.hdrs⟩, rfl⟩
  | withJSON m =>
    have := made_sim hw hf r m (lit "application/json")
    exact ⟨this.1, rfl, this.2⟩
  | withPrettyJSON m =>
    have := made_sim hw hf r m (lit "application/json")
    exact ⟨this.1, rfl, this.2⟩
  | withProto m =>
    have := made_sim hw hf r m (lit "application/vnd.google.protobuf")
    exact ⟨this.1, rfl, this.2⟩
  | withProtoText m =>
    have := made_sim hw hf r m (lit "text/plain; charset=utf-8")
    exact ⟨this.1, rfl, this.2⟩
  | withError e => exact ⟨same, rfl, ⟨r.gen, r.code, r.body, rfl, r.hdrs⟩, rfl⟩
  | redirectPage code location =>
    simp only [Bld.step, SBld.step]
    by_cases h1 : code ≥ 300
    · by_cases h2 : code ≤ 399
      · by_cases h3 : trimSpace location = []
        · rw [if_neg (by omega), if_neg (by omega), if_pos h3, if_neg (by simp [h3])]
          exact ⟨same, rfl, r, rfl⟩
        · rw [if_neg (by omega), if_neg (by omega), if_neg h3, if_pos ⟨by omega, by omega, h3⟩, ← r.gen]
          rcases hq : (E.gens (b.gen.getD 0)).redirect X code (trimSpace location) with ⟨X', o⟩
          cases o with
          | panic p => exact ⟨same, rfl, r, rfl⟩
          | hang => exact ⟨same, rfl, r, rfl⟩
          | ret v =>
            obtain ⟨h, body⟩ := v
            have := page_sim hw hf r code none X' h body (by
              intro r e
              have := (hE (b.gen.getD 0) X).1 code (trimSpace location) r body
              rw [hq, e] at this
              exact this rfl)
            exact ⟨this.1, this.2.2.1.symm, this.2.1, this.2.2.2.symm⟩
      · rw [if_neg (by omega), if_pos (by omega), if_neg (by omega)]
        exact ⟨same, rfl, r, rfl⟩
    · rw [if_pos (by omega), if_neg (by omega)]
      exact ⟨same, rfl, r, rfl⟩
  | errorPage code e =>
    simp only [Bld.step]
    by_cases h1 : code ≥ 200
    · by_cases h2 : code ≤ 999
      · rw [if_neg (by omega), if_neg (by omega)]
        cases e with
        | none => exact ⟨same, rfl, r, rfl⟩
        | some e =>
          simp only [SBld.step]
          rw [if_pos (by omega), ← r.gen]
          rcases hq : (E.gens (b.gen.getD 0)).error X code e with ⟨X', o⟩
          cases o with
          | panic p => exact ⟨same, rfl, r, rfl⟩
          | hang => exact ⟨same, rfl, r, rfl⟩
          | ret v =>
            obtain ⟨h, body⟩ := v
            have := page_sim hw hf r code (some e) X' h body (by
              intro r e'
              have := (hE (b.gen.getD 0) X).2 code e r body
              rw [hq, e'] at this
              exact this rfl)
            exact ⟨this.1, this.2.2.1.symm, this.2.1, this.2.2.2.symm⟩
      · rw [if_neg (by omega), if_pos (by omega)]
        cases e with
        | none => exact ⟨same, rfl, r, rfl⟩
        | some e => simp only [SBld.step]; rw [if_neg (by omega)]; exact ⟨same, rfl, r, rfl⟩
    · rw [if_pos (by omega)]
      cases e with
      | none => exact ⟨same, rfl, r, rfl⟩
      | some e => simp only [SBld.step]; rw [if_neg (by omega)]; exact ⟨same, rfl, r, rfl⟩
  | put k vals =>
    obtain ⟨i, h1, h2, h3, h4⟩ := headers_spec hw hf r.hdrs
    have h5 := h4.putNew h3.wf (hf.mono h3) k vals (n := vals.length) (c := vals.length) (Nat.le_refl _) (Nat.le_refl _)
    rw [List.take_length] at h5
    simp only [Bld.step, SBld.step, h1, h2]
    exact ⟨h3.trans h5.1, trivial, ⟨r.gen, r.code, r.body, r.err, .inr ⟨i, rfl, h5.2⟩⟩, trivial⟩
  | del k =>
    obtain ⟨i, h1, h2, h3, h4⟩ := headers_spec hw hf r.hdrs
    have h5 := h4.del h3.wf k
    simp only [Bld.step, SBld.step, h1, h2]
    exact ⟨h3.trans h5.1, trivial, ⟨r.gen, r.code, r.body, r.err, .inr ⟨i, rfl, h5.2⟩⟩, trivial⟩
  | elem k j v =>
    obtain ⟨i, h1, h2, h3, h4⟩ := headers_spec hw hf r.hdrs
    have hk : sb.hdrs k = ((b.headers H).1.get (some (.own i)) k).map (b.headers H).1.strings := by rw [← h4.lookup]; rfl
    simp only [Bld.step, SBld.step, h1, h2]
    have r' : BldRel om oa t (b.headers H).1 { b with hdrs := some (.own i) } sb :=
      ⟨r.gen, r.code, r.body, r.err, .inr ⟨i, rfl, h4⟩⟩
    cases hg : (b.headers H).1.get (some (.own i)) k with
    | none =>
      rw [hk, hg]
      exact ⟨h3, rfl, r', rfl⟩
    | some s =>
      rw [hk, hg]
      have hv := (h3.wf _).2 _ (Heap.get_some hg)
      simp only at hv
      simp only [Option.map_some, Option.getD_some, hv.strings_length]
      split
      · rename_i hj
        have h6 := h4.setArr h3.wf hg (by have := hv.1; omega) (((b.headers H).1.arr s.arr).set (s.off + j) v) (by simp)
        refine ⟨h3.trans h6.1, rfl, ⟨r.gen, r.code, r.body, r.err, .inr ⟨i, rfl, h6.2.eq ?_⟩⟩, rfl⟩
        congr 2
        simp only [Heap.strings]
        rw [List.drop_set, if_neg (by omega), List.take_set]
        congr 1
        omega
      · exact ⟨h3, rfl, r', rfl⟩

/-! ## All Builders and Responses -/

/-- The Response is as expected. -/
structure RspRel (om oa : Nat → Tag) (H : Heap) (r : Rsp) (sr : SRsp) : Prop where
  code : r.code = sr.code
  body : r.body = sr.body
  err : r.err = sr.err
  hdrs : Holds om oa .rsp H r.hdrs sr.hdrs

/-- The state is as expected. -/
structure StRel (om oa : Nat → Tag) (s : BState B) (σ : SState B) : Prop where
  wf : s.heap.WF
  bodies : s.bodies = σ.bodies
  nb : s.blds.length = σ.blds.length
  nr : s.rsps.length = σ.rsps.length
  blds : ∀ (h : Nat) b sb, s.blds[h]? = some b → σ.blds[h]? = some sb → BldRel om oa (.bld h) s.heap b sb
  rsps : ∀ (j : Nat) r sr, s.rsps[j]? = some r → σ.rsps[j]? = some sr → RspRel om oa s.heap r sr

theorem StRel.bld {s : BState B} {σ : SState B} (R : StRel om oa s σ) (h : Nat) :
    (s.blds[h]? = none ∧ σ.blds[h]? = none) ∨
    ∃ b sb, s.blds[h]? = some b ∧ σ.blds[h]? = some sb ∧ BldRel om oa (.bld h) s.heap b sb := by
  by_cases hl : h < s.blds.length
  · have hl' : h < σ.blds.length := by rw [← R.nb]; exact hl
    exact .inr ⟨s.blds[h], σ.blds[h], by simp [hl], by simp [hl'], R.blds h _ _ (by simp [hl]) (by simp [hl'])⟩
  · exact .inl ⟨by simp; omega, by simp; rw [← R.nb]; omega⟩

theorem StRel.rsp {s : BState B} {σ : SState B} (R : StRel om oa s σ) (j : Nat) :
    (s.rsps[j]? = none ∧ σ.rsps[j]? = none) ∨
    ∃ r sr, s.rsps[j]? = some r ∧ σ.rsps[j]? = some sr ∧ RspRel om oa s.heap r sr := by
  by_cases hl : j < s.rsps.length
  · have hl' : j < σ.rsps.length := by rw [← R.nr]; exact hl
    exact .inr ⟨s.rsps[j], σ.rsps[j], by simp [hl], by simp [hl'], R.rsps j _ _ (by simp [hl]) (by simp [hl'])⟩
  · exact .inl ⟨by simp; omega, by simp; rw [← R.nr]; omega⟩

/-- Whatever is not allocated yet may be given to anyone. -/
theorem StRel.reserve {s : BState B} {σ : SState B} (R : StRel om oa s σ) (t : Tag) :
    ∃ om' oa', StRel om' oa' s σ ∧ FreshTo om' oa' t s.heap := by
  refine ⟨fun i => if i < s.heap.ownMaps.length then om i else t, fun i => if i < s.heap.ownArrs.length then oa i else t,
    ⟨R.wf, R.bodies, R.nb, R.nr, ?_, ?_⟩, fun i hi => if_neg (by omega), fun i hi => if_neg (by omega)⟩
  · intro h b sb h1 h2
    have r := R.blds h b sb h1 h2
    exact ⟨r.gen, r.code, r.body, r.err, r.hdrs.retag R.wf (fun i hi e => by simp [hi, e]) (fun i hi e => by simp [hi, e])⟩
  · intro j b sb h1 h2
    have r := R.rsps j b sb h1 h2
    exact ⟨r.code, r.body, r.err, r.hdrs.retag R.wf (fun i hi e => by simp [hi, e]) (fun i hi e => by simp [hi, e])⟩

/-- A change that concerns one Builder. -/
theorem StRel.update {s : BState B} {σ : SState B} (R : StRel om oa s σ) {h : Nat} {H' : Heap} (u : Upd om oa (.bld h) s.heap H')
    (X : B) {b : Bld} {sb : SBld} (r : BldRel om oa (.bld h) H' b sb) :
    StRel om oa { s with heap := H', bodies := X, blds := s.blds.set h b } { σ with bodies := X, blds := σ.blds.set h sb } := by
  refine ⟨u.wf, rfl, by simp [R.nb], R.nr, ?_, ?_⟩
  · intro h' b' sb' h1 h2
    simp only [List.getElem?_set] at h1 h2
    by_cases e : h = h'
    · subst e
      rw [if_pos rfl] at h1 h2
      split at h1
      · split at h2
        · cases h1; cases h2; exact r
        · cases h2
      · cases h1
    · rw [if_neg e] at h1 h2
      have r' := R.blds h' b' sb' h1 h2
      exact ⟨r'.gen, r'.code, r'.body, r'.err, r'.hdrs.frame (by intro e'; cases e'; exact e rfl) R.wf u⟩
  · intro j r' sr h1 h2
    have r' := R.rsps j _ _ h1 h2
    exact ⟨r'.code, r'.body, r'.err, r'.hdrs.frame (by intro e; cases e) R.wf u⟩

theorem StRel.bodies_only {s : BState B} {σ : SState B} (R : StRel om oa s σ) (X : B) :
    StRel om oa { s with bodies := X } { σ with bodies := X } := ⟨R.wf, rfl, R.nb, R.nr, R.blds, R.rsps⟩

/-- A new Builder. -/
theorem StRel.push {s : BState B} {σ : SState B} (R : StRel om oa s σ) {H' : Heap} (u : Upd om oa (.bld s.blds.length) s.heap H')
    (X : B) {b : Bld} {sb : SBld} (r : BldRel om oa (.bld s.blds.length) H' b sb) :
    StRel om oa { s with heap := H', bodies := X, blds := s.blds ++ [b] } { σ with bodies := X, blds := σ.blds ++ [sb] } := by
  refine ⟨u.wf, rfl, by simp [R.nb], R.nr, ?_, ?_⟩
  · intro h' b' sb' h1 h2
    simp only at h1 h2
    rcases Nat.lt_trichotomy h' s.blds.length with hl | hl | hl
    · rw [List.getElem?_append_left hl] at h1
      rw [List.getElem?_append_left (by rw [← R.nb]; exact hl)] at h2
      have r' := R.blds h' b' sb' h1 h2
      exact ⟨r'.gen, r'.code, r'.body, r'.err, r'.hdrs.frame (by intro e'; cases e'; omega) R.wf u⟩
    · subst hl
      simp only [List.getElem?_concat_length, Option.some.injEq] at h1
      rw [R.nb] at h2
      simp only [List.getElem?_concat_length, Option.some.injEq] at h2
      subst h1; subst h2
      exact r
    · rw [List.getElem?_eq_none (by simp; omega)] at h1
      cases h1
  · intro j r' sr h1 h2
    have r' := R.rsps j _ _ h1 h2
    exact ⟨r'.code, r'.body, r'.err, r'.hdrs.frame (by intro e; cases e) R.wf u⟩

/-- A new Response with headers that are part of a Response already. -/
theorem StRel.pushRsp {s : BState B} {σ : SState B} (R : StRel om oa s σ) (X : B) {b : Rsp} {sb : SRsp} (r : RspRel om oa s.heap b sb) :
    StRel om oa { s with bodies := X, rsps := s.rsps ++ [b] } { σ with bodies := X, rsps := σ.rsps ++ [sb] } := by
  refine ⟨R.wf, rfl, R.nb, by simp [R.nr], R.blds, ?_⟩
  intro h' b' sb' h1 h2
  simp only at h1 h2
  rcases Nat.lt_trichotomy h' s.rsps.length with hl | hl | hl
  · rw [List.getElem?_append_left hl] at h1
    rw [List.getElem?_append_left (by rw [← R.nr]; exact hl)] at h2
    exact R.rsps h' b' sb' h1 h2
  · subst hl
    simp only [List.getElem?_concat_length, Option.some.injEq] at h1
    rw [R.nr] at h2
    simp only [List.getElem?_concat_length, Option.some.injEq] at h2
    subst h1; subst h2
    exact r
  · rw [List.getElem?_eq_none (by simp; omega)] at h1
    cases h1

theorem canon_ct : canon (lit "Content-Type") = lit "Content-Type" := by decide +kernel
theorem canon_cl : canon (lit "Content-Length") = lit "Content-Length" := by decide +kernel

/-- A header that is set unless it is there. -/
theorem HoldsAt.fill {i : Nat} {f : Hdrs} (hw : H.WF) (hf : FreshTo om oa t H) (h : HoldsAt om oa t H i f) (k v : GoStr) :
    Upd om oa t H (H.fill (.own i) k v) ∧ HoldsAt om oa t (H.fill (.own i) k v) i (f.with k (some ((f k).getD [v]))) := by
  have hfk : f k = (H.get (some (.own i)) k).map H.strings := by rw [← h.lookup]; rfl
  have hid : f.with k (f k) = f := by
    funext k'
    simp only [Hdrs.with]
    split
    · rename_i e; rw [e]
    · rfl
  unfold Heap.fill
  cases hg : H.get (some (.own i)) k with
  | none =>
    rw [if_pos (by rfl), hfk, hg]
    exact h.putNew hw hf k [v] (n := 1) (c := 1) (Nat.le_refl _) (Nat.le_refl _)
  | some s =>
    rw [if_neg (by simp)]
    refine ⟨.refl hw, h.eq ?_⟩
    have : some ((f k).getD [v]) = f k := by rw [hfk, hg]; rfl
    rw [this, hid]

theorem build_sim (S : BodyStore B) (hw : H.WF) (hf : FreshTo om oa t H) (X : B) {b : Bld} {sb : SBld} (r : BldRel om oa t H b sb)
    {i : Nat} (hb : b.body = some i) :
    ∃ H' m, b.build S H X = some (H', { gen := b.gen }, { code := if b.code = 0 then 200 else b.code, hdrs := some (.own m), body := some i, err := b.err }) ∧
      Upd om oa t H H' ∧ HoldsAt om oa t H' m (sb.hdrs.filled (S.remaining X i)) := by
  unfold Bld.build
  rw [hb]
  obtain ⟨m, e1, e2, u1, h1⟩ := headers_spec hw hf r.hdrs
  simp only [e1]
  have h2 := h1.fill u1.wf (hf.mono u1) (canon (lit "Content-Type")) (lit "application/octet-stream")
  have hne : lit "Content-Length" ≠ lit "Content-Type" := by decide +kernel
  by_cases hn : S.remaining X i ≥ 0
  · rw [if_pos hn]
    have h3 := h2.2.fill h2.1.wf ((hf.mono u1).mono h2.1) (canon (lit "Content-Length")) (itoa (S.remaining X i))
    refine ⟨_, m, rfl, (u1.trans h2.1).trans h3.1, h3.2.eq ?_⟩
    rw [canon_ct, canon_cl]
    funext k
    simp only [Hdrs.with, Hdrs.filled]
    by_cases k1 : k = lit "Content-Length"
    · subst k1
      simp only [if_true, if_neg hne]
      cases sb.hdrs (lit "Content-Length") <;> simp [hn]
    · rw [if_neg k1]
      by_cases k2 : k = lit "Content-Type"
      · subst k2
        simp only [if_true]
        cases sb.hdrs (lit "Content-Type") <;> rfl
      · rw [if_neg k2]
        cases sb.hdrs k <;> simp [k1, k2]
  · rw [if_neg hn]
    refine ⟨_, m, rfl, u1.trans h2.1, h2.2.eq ?_⟩
    rw [canon_ct]
    funext k
    simp only [Hdrs.with, Hdrs.filled]
    by_cases k2 : k = lit "Content-Type"
    · subst k2
      simp only [if_true]
      cases sb.hdrs (lit "Content-Type") <;> rfl
    · rw [if_neg k2]
      cases sb.hdrs k <;> simp [k2]; omega

theorem Holds.of_own {m : Option Ref} {f : Hdrs} {t : Tag} (hw : H.WF) (h : Holds om oa t H m f) (h1 : H'.ownMaps = H.ownMaps)
    (h2 : H'.ownArrs = H.ownArrs) : Holds om oa t H' m f := by
  rcases h with h | ⟨i, rfl, h⟩
  · exact .inl h
  · have hm : H'.map (.own i) = H.map (.own i) := by simp [Heap.map, h1]
    refine .inr ⟨i, rfl, by rw [h1]; exact h.lt, h.tag, by rw [hm]; exact h.owned, by rw [hm]; exact h.sep, ?_⟩
    rw [← h.lookup]
    refine lookup_congr hm fun e he => ?_
    by_cases hc : e.2.cap = 0
    · have := ((hw (.own i)).2 e he).len_zero hc
      rw [strings_of_len_zero this, strings_of_len_zero this]
    · rcases h.owned e he with h' | ⟨j, hj, hj'⟩
      · exact absurd h' hc
      · simp [Heap.strings, hj, Heap.arr, h2]

theorem mutate_own (m : Mut) : (H.mutate m).ownMaps = H.ownMaps ∧ (H.mutate m).ownArrs = H.ownArrs := by
  cases m <;> simp [Heap.mutate, Heap.put, Heap.del, Heap.setMap, Heap.setArr]
  split <;> simp

theorem WF.mutate (hw : H.WF) (m : Mut) : (H.mutate m).WF := by
  cases m with
  | newArr a =>
    intro r
    have hm : (H.mutate (.newArr a)).map r = H.map r := by cases r <;> rfl
    rw [hm]
    refine ⟨(hw r).1, fun e he => ((hw r).2 e he).mono ?_⟩
    cases e.2.arr with
    | own i => exact Nat.le_refl _
    | ext i =>
      simp only [Heap.mutate, Heap.arr]
      by_cases hi : i < H.extArrs.length
      · rw [List.getElem?_append_left hi]; exact Nat.le_refl _
      · rw [List.getElem?_eq_none (l := H.extArrs) (by omega)]; simp
  | newMap =>
    intro r
    have : (H.mutate .newMap).map r = H.map r := by
      cases r with
      | own i => rfl
      | ext i =>
        simp only [Heap.map, Heap.mutate]
        rcases Nat.lt_trichotomy i H.extMaps.length with hi | hi | hi
        · rw [List.getElem?_append_left hi]
        · subst hi; simp
        · rw [List.getElem?_eq_none (by simp; omega), List.getElem?_eq_none (by omega)]
    rw [this]
    exact hw r
  | put m k s =>
    simp only [Heap.mutate]
    split
    · rename_i h; exact WF.put hw _ k h
    · exact hw
  | del m k => exact WF.del hw _ k
  | elem a j v => exact WF.setArr hw _ (by simp)

theorem copyBody_eq (S : BodyStore B) (X : B) (o : Option Nat) : copyBody S X o = copied S X o := by
  cases o with
  | none => rfl
  | some i =>
    simp only [copyBody, copied]
    rcases S.copy X i with ⟨X', o⟩
    cases o with
    | ret v => cases v <;> rfl
    | panic p => rfl
    | hang => rfl

/-- An event that leaves the maps of Builders and Responses to their owners. -/
def BOp.legal : BOp → Prop
  | .poke _ _ _ => False
  | _ => True

theorem largOf_eq (h : Nat) (op : LOp) : argOf H (.on h op) = largOf H op := by cases op <;> rfl

/-- Every event has the expected result. -/
theorem step_sim {E : BEnv B} (hE : NoShared E) {s : BState B} {σ : SState B} (R : StRel om oa s σ) {op : BOp} (hop : op.legal) :
    (s.step E op).2 = (σ.step E (argOf s.heap op) op).2 ∧
    ∃ om' oa', StRel om' oa' (s.step E op).1 (σ.step E (argOf s.heap op) op).1 := by
  cases op with
  | new =>
    obtain ⟨om, oa, R, hf⟩ := R.reserve (.bld s.blds.length)
    refine ⟨by simp [BState.step, SState.step, R.nb], om, oa, ?_⟩
    have := R.push (.refl R.wf) σ.bodies (b := {}) (sb := {}) ⟨rfl, rfl, rfl, rfl, .inl ⟨rfl, rfl⟩⟩
    rw [← R.bodies] at this
    have e : σ.bodies = s.bodies := R.bodies.symm
    simpa [BState.step, SState.step, e] using this
  | on h op =>
    obtain ⟨om, oa, R, hf⟩ := R.reserve (.bld h)
    rw [largOf_eq]
    simp only [BState.step, SState.step]
    rcases R.bld h with ⟨h1, h2⟩ | ⟨b, sb, h1, h2, r⟩
    · rw [h1, h2]; exact ⟨rfl, om, oa, R⟩
    · rw [h1, h2]
      have := lstep_sim hE R.wf hf s.bodies r op
      simp only [← R.bodies]
      refine ⟨this.2.2.2, om, oa, ?_⟩
      rw [← this.2.1]
      exact R.update this.1 _ this.2.2.1
  | copy h =>
    obtain ⟨om, oa, R, hf⟩ := R.reserve (.bld s.blds.length)
    simp only [BState.step, SState.step]
    rcases R.bld h with ⟨h1, h2⟩ | ⟨b, sb, h1, h2, r⟩
    · rw [h1, h2]; exact ⟨rfl, om, oa, R⟩
    · rw [h1, h2]
      simp only [copyBody_eq, ← R.bodies, ← r.body]
      rcases copied E.store s.bodies b.body with ⟨X, o⟩
      cases o with
      | panic p => exact ⟨rfl, om, oa, R.bodies_only X⟩
      | hang => exact ⟨rfl, om, oa, R.bodies_only X⟩
      | ret v =>
        cases v with
        | error e => exact ⟨rfl, om, oa, R.bodies_only X⟩
        | ok body =>
          have hc := copyHeaders_spec (om := om) (oa := oa) R.wf hf b.hdrs
          rw [r.hdrs.lookup] at hc
          refine ⟨by simp [R.nb], om, oa, ?_⟩
          exact R.push hc.1 X ⟨r.gen, r.code, rfl, r.err, hc.2⟩
  | build h =>
    obtain ⟨om, oa, R, hf⟩ := R.reserve (.bld h)
    simp only [BState.step, SState.step]
    rcases R.bld h with ⟨h1, h2⟩ | ⟨b, sb, h1, h2, r⟩
    · rw [h1, h2]; exact ⟨rfl, om, oa, R⟩
    · rw [h1, h2]
      cases hb : b.body with
      | none =>
        have hsb : sb.body = none := r.body ▸ hb
        simp only [Bld.build, hb, hsb]
        exact ⟨by trivial, om, oa, R⟩
      | some i =>
        have hsb : sb.body = some i := r.body ▸ hb
        obtain ⟨H', m, e, u, hh⟩ := build_sim E.store R.wf hf s.bodies r hb
        simp only [e, hsb, ← R.bodies]
        refine ⟨by simp [R.nr], fun i => if om i = .bld h then .rsp else om i, fun i => if oa i = .bld h then .rsp else oa i, ?_⟩
        have R' := R.update u s.bodies (b := { gen := b.gen }) (sb := { gen := sb.gen }) ⟨r.gen, rfl, rfl, rfl, .inl ⟨rfl, rfl⟩⟩
        have R'' : StRel (fun i => if om i = .bld h then Tag.rsp else om i) (fun i => if oa i = .bld h then Tag.rsp else oa i)
            { s with heap := H', bodies := s.bodies, blds := s.blds.set h { gen := b.gen } }
            { σ with bodies := s.bodies, blds := σ.blds.set h { gen := sb.gen } } := by
          refine ⟨R'.wf, rfl, R'.nb, R'.nr, ?_, ?_⟩
          · intro h' b' sb' g1 g2
            have r' := R'.blds h' b' sb' g1 g2
            by_cases eh : h' = h
            · subst eh
              have hlt : h' < s.blds.length := (List.getElem?_eq_some_iff.1 h1).1
              have hlt' : h' < σ.blds.length := (List.getElem?_eq_some_iff.1 h2).1
              simp [hlt] at g1
              simp [hlt'] at g2
              subst g1; subst g2
              exact ⟨r.gen, rfl, rfl, rfl, .inl ⟨rfl, rfl⟩⟩
            · refine ⟨r'.gen, r'.code, r'.body, r'.err, r'.hdrs.retag R'.wf ?_ ?_⟩
              · intro i _ e; simp [e, eh]
              · intro i _ e; simp [e, eh]
          · intro j b' sb' g1 g2
            have r' := R'.rsps j b' sb' g1 g2
            refine ⟨r'.code, r'.body, r'.err, r'.hdrs.retag R'.wf ?_ ?_⟩
            · intro i _ e; simp [e]
            · intro i _ e; simp [e]
        have hbld : HoldsAt (fun i => if om i = .bld h then Tag.rsp else om i) (fun i => if oa i = .bld h then Tag.rsp else oa i)
            .rsp H' m (sb.hdrs.filled (E.store.remaining s.bodies i)) :=
          hh.retag u.wf (fun i _ e => by simp [e]) (fun i _ e => by simp [e])
        have := R''.pushRsp s.bodies
          (b := { code := if b.code = 0 then 200 else b.code, hdrs := some (.own m), body := some i, err := b.err })
          (sb := sb.response E.store s.bodies i)
          ⟨by simp [SBld.response, r.code], rfl, r.err, .inr ⟨m, rfl, hbld⟩⟩
        simpa [R.bodies] using this
  | respStatus j =>
    simp only [BState.step, SState.step]
    rcases R.rsp j with ⟨h1, h2⟩ | ⟨b, sb, h1, h2, r⟩
    · rw [h1, h2]; exact ⟨rfl, om, oa, R⟩
    · rw [h1, h2]; exact ⟨by simp [r.code], om, oa, R⟩
  | respHeaders j =>
    simp only [BState.step, SState.step]
    rcases R.rsp j with ⟨h1, h2⟩ | ⟨b, sb, h1, h2, r⟩
    · rw [h1, h2]; exact ⟨rfl, om, oa, R⟩
    · rw [h1, h2]; exact ⟨by simp [r.hdrs.lookup], om, oa, R⟩
  | respBody j =>
    simp only [BState.step, SState.step]
    rcases R.rsp j with ⟨h1, h2⟩ | ⟨b, sb, h1, h2, r⟩
    · rw [h1, h2]; exact ⟨rfl, om, oa, R⟩
    · rw [h1, h2]; exact ⟨by simp [r.body], om, oa, R⟩
  | respErr j =>
    simp only [BState.step, SState.step]
    rcases R.rsp j with ⟨h1, h2⟩ | ⟨b, sb, h1, h2, r⟩
    · rw [h1, h2]; exact ⟨rfl, om, oa, R⟩
    · rw [h1, h2]; exact ⟨by simp [r.err], om, oa, R⟩
  | respString j =>
    simp only [BState.step, SState.step]
    rcases R.rsp j with ⟨h1, h2⟩ | ⟨b, sb, h1, h2, r⟩
    · rw [h1, h2]; exact ⟨rfl, om, oa, R⟩
    · rw [h1, h2]
      simp only [← r.body, ← r.code, ← R.bodies]
      cases b.body <;> exact ⟨by trivial, om, oa, R⟩
  | respCopy j =>
    simp only [BState.step, SState.step]
    rcases R.rsp j with ⟨h1, h2⟩ | ⟨b, sb, h1, h2, r⟩
    · rw [h1, h2]; exact ⟨rfl, om, oa, R⟩
    · rw [h1, h2]
      simp only [copyBody_eq, ← R.bodies, ← r.body]
      rcases copied E.store s.bodies b.body with ⟨X, o⟩
      cases o with
      | panic p => exact ⟨rfl, om, oa, R.bodies_only X⟩
      | hang => exact ⟨rfl, om, oa, R.bodies_only X⟩
      | ret v =>
        cases v with
        | error e => exact ⟨rfl, om, oa, R.bodies_only X⟩
        | ok body =>
          refine ⟨by simp [R.nr], om, oa, ?_⟩
          exact R.pushRsp X ⟨r.code, rfl, r.err, r.hdrs⟩
  | ext m =>
    refine ⟨rfl, om, oa, ?_⟩
    have ho := mutate_own (H := s.heap) m
    refine ⟨WF.mutate R.wf m, R.bodies, R.nb, R.nr, ?_, ?_⟩
    · intro h b sb h1 h2
      have r := R.blds h b sb h1 h2
      exact ⟨r.gen, r.code, r.body, r.err, r.hdrs.of_own R.wf ho.1 ho.2⟩
    · intro h b sb h1 h2
      have r := R.rsps h b sb h1 h2
      exact ⟨r.code, r.body, r.err, r.hdrs.of_own R.wf ho.1 ho.2⟩
  | poke r k v => exact absurd hop (by simp [BOp.legal])

/-- Maps and arrays of others are left alone. -/
theorem step_ext {E : BEnv B} (hE : NoShared E) {s : BState B} {σ : SState B} (R : StRel om oa s σ) {op : BOp} (hop : op.legal)
    (hne : ∀ m, op ≠ .ext m) :
    (s.step E op).1.heap.extMaps = s.heap.extMaps ∧ (s.step E op).1.heap.extArrs = s.heap.extArrs := by
  cases op with
  | on h op =>
    obtain ⟨om, oa, R, hf⟩ := R.reserve (.bld h)
    simp only [BState.step]
    rcases R.bld h with ⟨h1, h2⟩ | ⟨b, sb, h1, h2, r⟩
    · rw [h1]; exact ⟨rfl, rfl⟩
    · rw [h1]
      have := (lstep_sim hE R.wf hf s.bodies r op).1
      exact ⟨this.extMaps, this.extArrs⟩
  | copy h =>
    obtain ⟨om, oa, R, hf⟩ := R.reserve (.bld s.blds.length)
    simp only [BState.step]
    cases s.blds[h]? with
    | none => exact ⟨rfl, rfl⟩
    | some b =>
      simp only
      rcases copyBody E.store s.bodies b.body with ⟨X, o⟩
      cases o with
      | panic p => exact ⟨rfl, rfl⟩
      | hang => exact ⟨rfl, rfl⟩
      | ret v =>
        cases v with
        | error e => exact ⟨rfl, rfl⟩
        | ok body =>
          have hc := (copyHeaders_spec (om := om) (oa := oa) R.wf hf b.hdrs).1
          exact ⟨hc.extMaps, hc.extArrs⟩
  | build h =>
    obtain ⟨om, oa, R, hf⟩ := R.reserve (.bld h)
    simp only [BState.step]
    rcases R.bld h with ⟨h1, h2⟩ | ⟨b, sb, h1, h2, r⟩
    · rw [h1]; exact ⟨rfl, rfl⟩
    · rw [h1]
      cases hb : b.body with
      | none => simp [Bld.build, hb]
      | some i =>
        obtain ⟨H', m, e, u, hh⟩ := build_sim E.store R.wf hf s.bodies r hb
        simp only [e]
        exact ⟨u.extMaps, u.extArrs⟩
  | ext m => exact absurd rfl (hne m)
  | poke r k v => exact absurd hop (by simp [BOp.legal])
  | new => exact ⟨rfl, rfl⟩
  | respStatus j => simp only [BState.step]; split <;> exact ⟨rfl, rfl⟩
  | respHeaders j => simp only [BState.step]; split <;> exact ⟨rfl, rfl⟩
  | respBody j => simp only [BState.step]; split <;> exact ⟨rfl, rfl⟩
  | respErr j => simp only [BState.step]; split <;> exact ⟨rfl, rfl⟩
  | respString j => simp only [BState.step]; repeat' split <;> try exact ⟨rfl, rfl⟩
  | respCopy j => simp only [BState.step]; repeat' split <;> try exact ⟨rfl, rfl⟩

/-! ## Sequences of events -/

/-- The state after these events. -/
def BState.after (E : BEnv B) : BState B → List BOp → BState B
  | s, [] => s
  | s, op :: l => BState.after E (s.step E op).1 l

/-- What is observed. -/
def BState.trace (E : BEnv B) : BState B → List BOp → List Event
  | _, [] => []
  | s, op :: l => (argOf s.heap op, op, (s.step E op).2) :: BState.trace E (s.step E op).1 l

theorem bld_run_sim {E : BEnv B} (hE : NoShared E) (ops : List BOp) : ∀ {om oa : Nat → Tag} {s : BState B} {σ : SState B},
    StRel om oa s σ → (∀ op ∈ ops, op.legal) →
    Explains E σ (s.trace E ops) ∧ ∃ om' oa', StRel om' oa' (s.after E ops) (Spec.after E σ (s.trace E ops)) := by
  induction ops with
  | nil => intro om oa s σ R _; exact ⟨trivial, om, oa, R⟩
  | cons op ops ih =>
    intro om oa s σ R hl
    obtain ⟨h1, om', oa', h2⟩ := step_sim hE R (hl op (List.mem_cons_self ..))
    obtain ⟨h3, h4⟩ := ih h2 (fun o ho => hl o (List.mem_cons_of_mem _ ho))
    exact ⟨⟨h1.symm, h3⟩, h4⟩

theorem rel_init (X : B) : StRel (fun _ => .rsp) (fun _ => .rsp) { bodies := X } { bodies := X } := by
  refine ⟨?_, rfl, rfl, rfl, by simp, by simp⟩
  intro r
  have : Heap.map {} r = [] := by cases r <;> rfl
  rw [this]; simp

end Verif
