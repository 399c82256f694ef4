import Verif.Model.Told
import Verif.Spec.Ready
import Verif.Props.Json
import Verif.Props.Pages
import Verif.Props.EndToEnd
import Verif.Props.Wire
import Verif.Props.Media
import Verif.Proofs.Trim

/-!
# Builders and plans
-/

set_option autoImplicit false

namespace Verif

/-- The states that a program can bring about: it makes Bodies, reads and closes them, makes Builders and calls their methods. -/
inductive BState.Lived {β : Type} (E : BEnv β) : BState β → Prop
  | start (X : β) : Lived E { bodies := X }
  | step {s : BState β} {op : BOp} : Lived E s → op.legal → Lived E (s.step E op).1
  | bodies {s : BState β} (X : β) : Lived E s → Lived E { s with bodies := X }

end Verif

namespace Verif.ToldP
open Spec Spec.Told Spec.Wire
variable {Φ : Type}

theorem name_tokens {k : GoStr} (h : isName k = true) : k.all isToken = true := by
  rw [← WireP.validName_eq] at h
  simp only [Verif.Wire.validName, Bool.and_eq_true] at h
  exact h.2

theorem canon_eq_iff {k name : GoStr} (hk : isName k = true) : canon k = canon name ↔ lower k = lower name :=
  ⟨fun h => by rw [← lower_canon k, h, lower_canon], fun h => canon_of_lower h (name_tokens hk)⟩

theorem name_canon {k : GoStr} (h : isName k = true) : isName (canon k) = true := by
  have ht := name_tokens h
  have hne := WireP.name_ne h
  rw [← WireP.validName_eq]
  simp only [Verif.Wire.validName, Bool.and_eq_true, decide_eq_true_eq]
  refine ⟨canon_ne_nil hne, ?_⟩
  rw [canon_eq, if_pos ht, canonLoop_token]
  exact ht

/-- The headers are as planned. -/
abbrev HdrsRel (f : Hdrs) (p : Plan) : Prop := Named f p.fields

theorem HdrsRel.put {f : Hdrs} {p : Plan} (h : HdrsRel f p) (name : GoStr) {vs : List GoStr} (hv : vs ≠ []) :
    HdrsRel (f.with (canon name) (some vs)) (p.put name vs) where
  same k hk := by
    simp only [Hdrs.with, Plan.put]
    by_cases e : lower k = lower name
    · rw [if_pos ((canon_eq_iff hk).2 e), if_pos e]; rfl
    · rw [if_neg fun e' => e ((canon_eq_iff hk).1 e'), if_neg e]; exact h.same k hk
  nonempty k := by
    simp only [Hdrs.with]
    split
    · intro e; exact hv (Option.some.inj e)
    · exact h.nonempty k
  canonical k hk := by
    simp only [Hdrs.with]
    split
    · rename_i e; intro _; rw [e, canon_idem]
    · exact h.canonical k hk

theorem HdrsRel.del {f : Hdrs} {p : Plan} (h : HdrsRel f p) (name : GoStr) : HdrsRel (f.with (canon name) none) (p.put name []) where
  same k hk := by
    simp only [Hdrs.with, Plan.put]
    by_cases e : lower k = lower name
    · rw [if_pos ((canon_eq_iff hk).2 e), if_pos e]; rfl
    · rw [if_neg fun e' => e ((canon_eq_iff hk).1 e'), if_neg e]; exact h.same k hk
  nonempty k := by
    simp only [Hdrs.with]
    split
    · intro e; cases e
    · exact h.nonempty k
  canonical k hk := by
    simp only [Hdrs.with]
    split
    · intro e; exact absurd rfl e
    · exact h.canonical k hk

theorem HdrsRel.none : HdrsRel Hdrs.none {} := ⟨fun _ _ => rfl, fun _ h => (by cases h), fun _ _ h => absurd rfl h⟩

/-- The Body is as planned. -/
def BodyRel (K : Kinds Φ) (X : Shelf Φ) : Option Nat → Option (List Byte) → Prop
  | none, none => True
  | some i, some C => X.Holds K i C
  | _, _ => False

/-- The Builder is as planned. -/
structure Rel (K : Kinds Φ) (E : BEnv (Shelf Φ)) (A : Around) (X : Shelf Φ) (b : SBld) (p : Plan) : Prop where
  gen : b.gen.getD 0 = p.gen
  pages : p.gen = 0 ∨ K.Makes (E.gens p.gen) (A.gens p.gen)
  code : (b.code = 0 ∧ p.status = 200) ∨ (b.code = p.status ∧ 200 ≤ p.status ∧ p.status ≤ 999)
  hdrs : HdrsRel b.hdrs p
  body : BodyRel K X b.body p.body

theorem add_fam (K : Kinds Φ) (X : Shelf Φ) (m : Φ) {f : Nat} (h : f < X.fams.length) : (X.add m).1.fam K f = X.fam K f := by
  simp [Shelf.add, Shelf.fam, List.getElem?_append_left h]

theorem add_body (X : Shelf Φ) (m : Φ) {i : Nat} {p : Nat × Nat} (h : X.bodies[i]? = some p) : (X.add m).1.bodies[i]? = some p := by
  rw [Shelf.add, List.getElem?_append_left (List.getElem?_eq_some_iff.1 h).1]
  exact h

theorem holds_add {K : Kinds Φ} {X : Shelf Φ} {i : Nat} {C : List Byte} (h : X.Holds K i C) (m : Φ) : (X.add m).1.Holds K i C := by
  have hlt : ∀ {f : Nat}, f < X.fams.length → f < (X.add m).1.fams.length := fun h => by
    simp only [Shelf.add, List.length_append]; omega
  rcases h with ⟨f, j, h1, h2, h3⟩ | ⟨h0, f, j, h1, h2, h3⟩
  · exact .inl ⟨f, j, add_body X m h1, hlt h2, by rw [add_fam K X m h2]; exact h3⟩
  · exact .inr ⟨h0, f, j, add_body X m h1, hlt h2, by rw [add_fam K X m h2]; exact h3⟩

theorem new_fam (K : Kinds Φ) (X : Shelf Φ) (m : Φ) : (X.add m).1.bodies[(X.add m).2]? = some (X.fams.length, 0) ∧ X.fams.length < (X.add m).1.fams.length ∧
    (X.add m).1.fam K X.fams.length = m :=
  ⟨by simp [Shelf.add], by simp [Shelf.add], by simp [Shelf.add, Shelf.fam]⟩

theorem ready_add {K : Kinds Φ} (X : Shelf Φ) {m : Φ} {C : List Byte} (h : K.Ready m 0 C) : (X.add m).1.Holds K (X.add m).2 C := by
  obtain ⟨h1, h2, h3⟩ := new_fam K X m
  exact .inl ⟨_, 0, h1, h2, by rw [h3]; exact h⟩

/-- The remaining bytes of a Body of the shelf. -/
theorem remaining_at {K : Kinds Φ} {X : Shelf Φ} {i f h : Nat} (hb : X.bodies[i]? = some (f, h)) {n : Int}
    (hr : (K.step (X.fam K f) (.remaining h)).2 = .remaining n) : (Shelf.store K).remaining X i = n := by
  simp only [Shelf.store, Shelf.ops, hb, Shelf.famOps, BodyOps.focus, BodyOps.ofFam]
  rcases hq : K.step (X.fam K f) (.remaining h) with ⟨m, o⟩
  rw [hq] at hr
  dsimp only at hr
  subst hr
  rfl

theorem vacant_remaining {K : Kinds Φ} {m : Φ} {h : Nat} (hv : K.Vacant m h) : (K.step m (.remaining h)).2 = .remaining 0 := by
  obtain ⟨l, b, rfl, h1, -⟩ := hv
  rw [K.step_mem]
  simp [MemFam.step, EmptyBody.step, Op.h, h1, EmptyBody.bytesRemaining]

theorem holds_remaining {K : Kinds Φ} {X : Shelf Φ} {i : Nat} {C : List Byte} (h : X.Holds K i C) :
    (Shelf.store K).remaining X i = C.length ∨ (Shelf.store K).remaining X i = -1 := by
  rcases h with ⟨f, j, h1, -, h3⟩ | ⟨rfl, f, j, h1, -, h3⟩
  · exact h3.remaining.imp (remaining_at h1) (remaining_at h1)
  · exact .inl (remaining_at h1 (vacant_remaining h3))

/-! ### Families among others -/

section Embed
variable {S : Type} {st : S → Op → S × Out} {K : Kinds Φ} {inj : S → Φ} (hinj : ∀ s op, K.step (inj s) op = (inj (st s op).1, (st s op).2)) (d : Bool) (h : Nat)
include hinj

theorem embed_read (s : S) (k : Nat) : (BodyOps.ofFam K.step d h).read (inj s) k = (inj ((BodyOps.ofFam st d h).read s k).1, ((BodyOps.ofFam st d h).read s k).2) := by
  simp only [BodyOps.ofFam, hinj]
  rcases st s (.read h k) with ⟨s', o⟩
  cases o <;> rfl

theorem embed_close (s : S) : (BodyOps.ofFam K.step d h).close (inj s) = (inj ((BodyOps.ofFam st d h).close s).1, ((BodyOps.ofFam st d h).close s).2) := by
  simp only [BodyOps.ofFam, hinj]
  rcases st s (.close h) with ⟨s', o⟩
  cases o <;> rfl

theorem embed_writeTo (s : S) : (BodyOps.ofFam K.step d h).writeTo (inj s) = ((BodyOps.ofFam st d h).writeTo s).map inj := by
  have h2 : ∀ n err, (match K.step (inj s) (.writeTo h fun _ => .ok (n, err)) with
      | (s', .wrote _ n err) => (WT.done s' n err : WT Φ)
      | (s', .panic p) => .panic s' p
      | (s', _) => .panic s' .nilDeref) = WT.map inj (match st s (.writeTo h fun _ => .ok (n, err)) with
      | (s', .wrote _ n err) => .done s' n err
      | (s', .panic p) => .panic s' p
      | (s', _) => .panic s' .nilDeref) := by
    intro n err
    rw [hinj]
    rcases st s (.writeTo h fun _ => .ok (n, err)) with ⟨s', o⟩
    cases o <;> rfl
  simp only [BodyOps.ofFam]
  rw [show K.step (inj s) (.writeTo h fun _ => .ok (0, none)) = _ from hinj ..]
  rcases st s (.writeTo h fun _ => .ok (0, none)) with ⟨s', o⟩
  cases o with
  | wrote w n err =>
    cases w with
    | none => rfl
    | some w =>
      show WT.write _ _ _ = WT.write _ _ _
      congr 1
      funext n err
      exact h2 n err
  | _ => rfl

theorem embed_wtGives {t : WT S} {C : List Byte} (ht : WTGives (BodyOps.ofFam st d h) t C) : WTGives (BodyOps.ofFam K.step d h) (t.map inj) C := by
  induction t generalizing C with
  | done b n err => exact ⟨ht.1, ht.2.1, by rw [embed_close hinj]; exact ht.2.2⟩
  | write b w cont ih => obtain ⟨C', h1, h2⟩ := ht; exact ⟨C', h1, ih _ _ h2⟩
  | panic b p => exact ht
  | hang b => exact ht

theorem embed_wtStops {t : WT S} (ht : WTStops (BodyOps.ofFam st d h) t) : WTStops (BodyOps.ofFam K.step d h) (t.map inj) := by
  induction t with
  | done b n err => trivial
  | write b w cont ih =>
    refine ⟨fun e => ?_, ih _ _ ht.2⟩
    obtain ⟨b', n, h1, r, h2⟩ := ht.1 e
    exact ⟨inj b', n, by show WT.map _ (cont 0 (some e)) = _; rw [h1]; rfl, r, by rw [embed_close hinj]; exact h2⟩
  | panic b p => trivial
  | hang b => trivial

theorem embed_lively {P : S → List Byte → Prop} {N : Nat} (hl : Lively (BodyOps.ofFam st d h) P N) :
    Lively (BodyOps.ofFam K.step d h) (fun m C => ∃ s, m = inj s ∧ P s C) N where
  read m C k hk hN hm := by
    obtain ⟨s, rfl, hP⟩ := hm
    obtain ⟨s', w, e, C', h1, h2, h3, h4, h5⟩ := hl.read s C k hk hN hP
    exact ⟨inj s', w, e, C', by rw [embed_read hinj, h1], h2, h3, ⟨s', rfl, h4⟩, h5⟩
  writeTo hw m C hm := by
    obtain ⟨s, rfl, hP⟩ := hm
    rw [embed_writeTo hinj]
    exact embed_wtGives hinj d h (hl.writeTo hw s C hP)
  close m hm := by
    obtain ⟨s, rfl, hP⟩ := hm
    rw [embed_close hinj]
    exact hl.close s hP

theorem embed_quits {P : S → List Byte → Prop} (hl : Quits (BodyOps.ofFam st d h) P) : Quits (BodyOps.ofFam K.step d h) (fun m C => ∃ s, m = inj s ∧ P s C) where
  writeTo hw m C hm := by
    obtain ⟨s, rfl, hP⟩ := hm
    rw [embed_writeTo hinj]
    exact embed_wtStops hinj d h (hl.writeTo hw s C hP)
  close m C hm := by
    obtain ⟨s, rfl, hP⟩ := hm
    rw [embed_close hinj]
    exact hl.close s C hP

/-- What a family of Bodies can do, it can do among others. -/
theorem embed_ready {P : S → List Byte → Prop} {s : S} {C : List Byte} (hd : K.drains (inj s) = d)
    (hl : C.length < 2 ^ 63 → Lively (BodyOps.ofFam st d h) P 32768 ∧ Quits (BodyOps.ofFam st d h) P ∧ P s C)
    (hr : (st s (.remaining h)).2 = .remaining C.length ∨ (st s (.remaining h)).2 = .remaining (-1)) : K.Ready (inj s) h C where
  lively hC := by
    obtain ⟨h1, h2, h3⟩ := hl hC
    rw [hd]
    exact ⟨_, embed_lively hinj d h h1, embed_quits hinj d h h2, s, rfl, h3⟩
  remaining := by rw [hinj]; exact hr

end Embed

theorem mem_ready (K : Kinds Φ) {d : List Byte} (hne : d ≠ []) : K.Ready (K.mem (fromBytes d)) 0 d := by
  refine embed_ready (st := MemFam.step) (P := SrcRel (MemRel d) 0) K.step_mem true 0 (K.drains_mem _)
    (fun hlen => ⟨mem_lively d hlen hne 0 32768 (by decide), mem_quits d hlen hne 0, mem_source_init d⟩) (.inl ?_)
  rw [fromBytes, if_neg (by simpa using hne)]
  show Out.remaining ((d.length : Int) - 0) = _
  simp

theorem holds_new (K : Kinds Φ) (X : Shelf Φ) (d : List Byte) : (X.add (K.mem (fromBytes d))).1.Holds K (X.add (K.mem (fromBytes d))).2 d := by
  by_cases hne : d = []
  · subst hne
    obtain ⟨h1, h2, h3⟩ := new_fam K X (K.mem (fromBytes []))
    exact .inr ⟨rfl, _, 0, h1, h2, by rw [h3]; exact ⟨[{}], {}, rfl, rfl, rfl⟩⟩
  · exact ready_add X (mem_ready K hne)

/-- The specification of a call in terms of values. -/
def sayS (K : Kinds Φ) (E : BEnv (Shelf Φ)) (H : Heap) (X : Shelf Φ) (b : SBld) (x : Say) : Shelf Φ × SBld × BOut :=
  b.step E (Say.op K X x).1 (largOf H (Say.op K X x).2) (Say.op K X x).2

theorem lower_lit (s : GoStr) (t : GoStr) (h : lower s = t) (p : Plan) (vs : List GoStr) :
    p.put s vs = { p with fields := fun k => if k = t then vs else p.fields k } := by
  subst h; rfl

theorem hdrs_of (l : List (GoStr × List GoStr)) : ∀ {f : Hdrs} {p : Plan}, HdrsRel f p → (∀ e ∈ l, canon e.1 = e.1 ∧ e.2 ≠ []) →
    HdrsRel (l.foldl (fun f e => f.with e.1 (some e.2)) f) (l.foldl (fun p e => p.put e.1 e.2) p) := by
  induction l with
  | nil => intro f p h _; exact h
  | cons e l ih =>
    intro f p h hl
    have he := hl e (List.mem_cons_self ..)
    have := h.put e.1 he.2
    rw [he.1] at this
    exact ih this fun e' h' => hl e' (List.mem_cons_of_mem _ h')

theorem HdrsRel.of_fields {f : Hdrs} {p q : Plan} (h : HdrsRel f p) (e : p.fields = q.fields) : HdrsRel f q :=
  ⟨fun k hk => by rw [← e]; exact h.same k hk, h.nonempty, h.canonical⟩

/-- A page of a PageGenerator of the program. -/
theorem page_rel {K : Kinds Φ} {E : BEnv (Shelf Φ)} {A : Around} {X : Shelf Φ} {b : SBld} {p : Plan} (h : Rel K E A X b p) {r : Shelf Φ × Res (GenHdrs × Option Nat)}
    {pg : Option Page} (hM : K.IsPage X r pg) (code : Int) (err : Option Err) (hc : 200 ≤ code ∧ code ≤ 999) :
    ((b.page code err r).2.2 = .unit ∧ ∃ page, pg = some page ∧
      Rel K E A (b.page code err r).1 (b.page code err r).2.1 { status := code, fields := page.fields, body := page.body, gen := p.gen }) ∨
    ((∃ e, (b.page code err r).2.2 = .panic e) ∧ pg = none) := by
  obtain ⟨X', o⟩ := r
  obtain ⟨-, hM⟩ := hM
  cases pg with
  | none =>
    obtain ⟨e, he⟩ := hM
    simp only at he
    subst he
    exact .inr ⟨⟨e, rfl⟩, rfl⟩
  | some page =>
    obtain ⟨g, b', f, h1, h0, h2, h3⟩ := hM
    simp only at h1
    subst h1
    have hbody : BodyRel K X' b' page.body := by
      cases hp : page.body with
      | none => rw [hp] at h3; subst h3; trivial
      | some C => rw [hp] at h3; obtain ⟨i, rfl, h3⟩ := h3; exact h3
    cases g with
    | nil => cases h0; exact .inl ⟨rfl, page, rfl, h.gen, h.pages, .inr ⟨rfl, hc⟩, h2, hbody⟩
    | fresh v => cases h0; exact .inl ⟨rfl, page, rfl, h.gen, h.pages, .inr ⟨rfl, hc⟩, h2, hbody⟩
    | shared r => cases h0

theorem say_rel {K : Kinds Φ} {E : BEnv (Shelf Φ)} (hst : E.store = Shelf.store K) {A : Around} (hd : E.gens 0 = defaultGen E.store A.text) (hm : E.mime = Mime.normal)
    {H : Heap} {X : Shelf Φ} {b : SBld} {p : Plan} (h : Rel K E A X b p) (x : Say) (hx : x.Known K E A H) (hsrc : ∀ i C, A.bodies i = some C → X.Holds K i C) :
    ((sayS K E H X b x).2.2 = .unit ∧ ∃ q, Leads A p x q ∧ Rel K E A (sayS K E H X b x).1 (sayS K E H X b x).2.1 q) ∨
    ((∃ e, (sayS K E H X b x).2.2 = .panic e) ∧ ¬ ∃ q, Leads A p x q) := by
  cases x with
  | status c =>
    simp only [sayS, Say.op, SBld.step]
    by_cases hc : 200 ≤ c ∧ c ≤ 999
    · rw [if_pos hc]
      exact .inl ⟨rfl, _, .status hc.1 hc.2, h.gen, h.pages, .inr ⟨rfl, hc⟩, h.hdrs.of_fields rfl, h.body⟩
    · rw [if_neg hc]
      exact .inr ⟨⟨_, rfl⟩, fun ⟨q, hq⟩ => by cases hq with | status h1 h2 => exact hc ⟨h1, h2⟩⟩
  | header name value app =>
    simp only [sayS, Say.op, SBld.step]
    by_cases hn : name = []
    · rw [if_pos hn]
      exact .inr ⟨⟨_, rfl⟩, fun ⟨q, hq⟩ => by cases hq <;> contradiction⟩
    · rw [if_neg hn]
      cases app with
      | false => exact .inl ⟨rfl, _, .set value hn, h.gen, h.pages, h.code, h.hdrs.put name (by simp), h.body⟩
      | true =>
        refine .inl ⟨rfl, _, .add value hn, h.gen, h.pages, h.code, ?_, h.body⟩
        by_cases ht : isName name = true
        · rw [← h.hdrs.same name ht]
          exact h.hdrs.put name (by simp)
        · -- a name that is none: what is planned for it does not matter
          have h1 := h.hdrs.put name (vs := (b.hdrs (canon name)).getD [] ++ [value]) (by simp)
          refine ⟨fun k hk => ?_, h1.nonempty, h1.canonical⟩
          have hl : lower k ≠ lower name := by
            intro e
            have ha : ∀ s : GoStr, (lower s).all isToken = s.all isToken := by
              intro s
              simp only [lower, List.all_map]
              congr 1
              funext c
              exact forall_byte (P := fun c => isToken (lowerByte c) = isToken c) (by decide +kernel) c
            have h2 := name_tokens hk
            rw [← ha, e, ha] at h2
            apply ht
            rw [← WireP.validName_eq]
            simp [Verif.Wire.validName, hn]
            simpa using h2
          have h3 := h1.same k hk
          simp only [Plan.put, if_neg hl] at h3 ⊢
          exact h3
  | withoutHeader name =>
    simp only [sayS, Say.op, SBld.step]
    by_cases hn : name = []
    · rw [if_pos hn]
      exact .inr ⟨⟨_, rfl⟩, fun ⟨q, hq⟩ => by cases hq <;> contradiction⟩
    · rw [if_neg hn]
      exact .inl ⟨rfl, _, .without hn, h.gen, h.pages, h.code, h.hdrs.del name, h.body⟩
  | contentType s =>
    simp only [sayS, Say.op, SBld.step, hm]
    by_cases hs : ∃ t M, Media.Means s t M ∧ ∀ x, ¬ M [] x
    · obtain ⟨t, M, h1, h2⟩ := hs
      obtain ⟨v, hv⟩ : ∃ v, Mime.normal s = some v := Option.ne_none_iff_exists'.1 ((C75_accepts s).2 ⟨t, M, h1⟩)
      have hne : v ≠ [] := by
        rintro rfl
        obtain ⟨x, hx⟩ := (C75_formats h1).1 hv
        exact h2 x hx
      rw [hv, Option.getD_some]
      obtain ⟨c, w, rfl⟩ := List.exists_cons_of_ne_nil hne
      exact .inl ⟨rfl, _, .contentType h1 h2 (C75_kept hv hne h1), h.gen, h.pages, h.code, h.hdrs.put _ (by simp), h.body⟩
    · have hv : (Mime.normal s).getD [] = [] := by
        cases hv : Mime.normal s with
        | none => rfl
        | some v =>
          obtain ⟨t, M, h1⟩ := (C75_accepts s).1 (by rw [hv]; simp)
          by_cases h2 : ∃ x, M [] x
          · rw [(C75_formats h1).2 h2] at hv
            cases hv; rfl
          · exact absurd ⟨t, M, h1, fun x hx => h2 ⟨x, hx⟩⟩ hs
      rw [hv]
      exact .inr ⟨⟨_, rfl⟩, fun ⟨q, hq⟩ => by cases hq with | contentType h1 h2 _ => exact hs ⟨_, _, h1, h2⟩⟩
  | contentLanguage s => exact .inl ⟨rfl, _, .contentLanguage (trimmed s), h.gen, h.pages, h.code, h.hdrs.put _ (by simp), h.body⟩
  | contentEncoding s => exact .inl ⟨rfl, _, .contentEncoding (trimmed s), h.gen, h.pages, h.code, h.hdrs.put _ (by simp), h.body⟩
  | etag tag strong =>
    refine .inl ⟨rfl, _, .etag tag strong, h.gen, h.pages, h.code, ?_, h.body⟩
    have e : canon (lit "Etag") = canon (lit "ETag") := by decide +kernel
    have := h.hdrs.put (lit "ETag") (vs := [(if strong then [] else lit "W/") ++ lit "\"" ++ tag ++ lit "\""]) (by simp)
    rw [← e] at this
    simp only [sayS, Say.op, SBld.step, SBld.set]
    cases strong <;> exact this
  | digest algo sum =>
    simp only [sayS, Say.op, SBld.step]
    by_cases hc : algo = [] ∨ sum = []
    · rw [if_pos hc]
      exact .inr ⟨⟨_, rfl⟩, fun ⟨q, hq⟩ => by cases hq with | digest h1 h2 _ => exact hc.elim h1 h2⟩
    · rw [if_neg hc]
      refine .inl ⟨rfl, _, .digest (fun e => hc (.inl e)) (fun e => hc (.inr e)) (unbase64_base64 sum), h.gen, h.pages, h.code, ?_, h.body⟩
      have e := h.hdrs.same (lit "Digest") (by decide +kernel)
      rw [show lower (lit "Digest") = lit "digest" by decide +kernel] at e
      rw [← e]
      exact h.hdrs.put _ (by simp)
  | bytes d => exact .inl ⟨rfl, _, .bytes d, h.gen, h.pages, h.code, h.hdrs.of_fields rfl, holds_new K X d⟩
  | body b' =>
    cases b' with
    | none => exact .inr ⟨⟨_, rfl⟩, fun ⟨q, hq⟩ => by cases hq⟩
    | some i =>
      obtain ⟨C, h1⟩ := (hx : ∃ C, A.bodies i = some C)
      have h2 := hsrc i C h1
      exact .inl ⟨rfl, _, .body h1, h.gen, h.pages, h.code, h.hdrs.of_fields rfl, h2⟩
  | proto r =>
    rcases r with _ | e | raw
    · exact .inr ⟨⟨_, rfl⟩, fun ⟨q, hq⟩ => by cases hq⟩
    · exact .inr ⟨⟨_, rfl⟩, fun ⟨q, hq⟩ => by cases hq⟩
    · refine .inl ⟨rfl, _, .proto raw, h.gen, h.pages, h.code, ?_, holds_new K X raw⟩
      exact (h.hdrs.put (lit "Content-Type") (vs := [lit "application/vnd.google.protobuf"]) (by simp)).of_fields rfl
  | protoText r =>
    rcases r with _ | e | raw
    · exact .inr ⟨⟨_, rfl⟩, fun ⟨q, hq⟩ => by cases hq⟩
    · exact .inr ⟨⟨_, rfl⟩, fun ⟨q, hq⟩ => by cases hq⟩
    · refine .inl ⟨rfl, _, .protoText raw, h.gen, h.pages, h.code, ?_, holds_new K X raw⟩
      exact (h.hdrs.put (lit "Content-Type") (vs := [lit "text/plain; charset=utf-8"]) (by simp)).of_fields rfl
  | prettyJSON v =>
    have hw : Json.WellNamed v := hx
    by_cases hj : (∃ j, Json.Means v j) ∧ Json.depth v ≤ 10000
    · obtain ⟨⟨j, hj⟩, hdp⟩ := hj
      obtain ⟨e, h1, rfl⟩ := Json.marshal_text v hw (Json.means_marshal hj (Nat.le_trans (Json.rawDepth_le v) hdp))
      have hr := fromPretty_tree h1
      rw [if_pos hdp] at hr
      simp only [sayS, Say.op, Shelf.make, hr, SBld.step, SBld.made]
      refine .inl ⟨trivial, _, .prettyJSON h1.means hdp (indented_says h1.reads), h.gen, h.pages, h.code, ?_, holds_new K X _⟩
      exact (h.hdrs.put (lit "Content-Type") (vs := [lit "application/json"]) (by simp)).of_fields rfl
    · obtain ⟨e, he⟩ := (C79_panics hw).2 (by
        by_cases h1 : ∃ j, Json.Means v j
        · exact .inr (Nat.lt_of_not_le fun h2 => hj ⟨h1, h2⟩)
        · exact .inl h1)
      simp only [sayS, Say.op, Shelf.make, he, SBld.step, SBld.made]
      exact .inr ⟨⟨_, rfl⟩, fun ⟨q, hq⟩ => by cases hq with | prettyJSON h1 h2 _ => exact hj ⟨⟨_, h1⟩, h2⟩⟩
  | error e => exact .inl ⟨rfl, _, .error e, h.gen, h.pages, h.code, h.hdrs, h.body⟩
  | headers m =>
    cases m with
    | none => exact .inl ⟨rfl, _, .noHeaders, h.gen, h.pages, h.code, HdrsRel.none.of_fields rfl, h.body⟩
    | some m => exact .inl ⟨rfl, _, .headers m, h.gen, h.pages, h.code, (hx : H.Offers m (A.maps m)).1, h.body⟩
  | generator g =>
    cases g with
    | none => exact .inr ⟨⟨_, rfl⟩, fun ⟨q, hq⟩ => by cases hq⟩
    | some g => exact .inl ⟨rfl, _, .generator g, rfl, hx, h.code, h.hdrs.of_fields rfl, h.body⟩
  | redirectPage code location =>
    simp only [sayS, Say.op, SBld.step]
    by_cases hc : 300 ≤ code ∧ code ≤ 399 ∧ trimSpace location ≠ []
    · have hb : ¬ Spec.Blank location := fun hb => hc.2.2 ((trimSpace_nil_iff location).2 hb)
      have hcode : 200 ≤ code ∧ code ≤ 999 := ⟨by have := hc.1; omega, by have := hc.2.1; omega⟩
      rw [if_pos hc, h.gen]
      by_cases hg : p.gen = 0
      · have hp : redirectText (trimSpace location) = Told.redirectPage (escapeHTML (trimSpace location)) := by
          have e1 : lit "<!DOCTYPE html>\r\n<p>Redirecting to <a href=\"" = lit "<!DOCTYPE html>" ++ lit "\r\n" ++ lit "<p>Redirecting to <a href=\"" := by
            decide +kernel
          have e2 : lit "</a>...</p>\r\n" = lit "</a>...</p>" ++ lit "\r\n" := by decide +kernel
          rw [Told.redirectPage, e1, e2]
          simp only [redirectText, List.append_assoc]
        simp only [hg, hd, defaultGen, SBld.page, redirect_headers, hst, hp]
        refine .inl ⟨trivial, _, .redirectPage hg hc.1 hc.2.1 (trimmed location) hb (unescapes_escape _) (decimal_itoa _), h.gen.trans hg, .inl rfl, .inr ⟨rfl, hcode⟩, ?_, ?_⟩
        · refine (hdrs_of _ HdrsRel.none ?_).of_fields rfl
          simp only [List.mem_cons, List.not_mem_nil, or_false]
          rintro e (rfl | rfl | rfl | rfl) <;> exact ⟨by show canon (lit _) = lit _; decide +kernel, by simp⟩
        · exact holds_new K X _
      · have hM := (h.pages.resolve_left hg).redirect X code (trimSpace location)
        rcases page_rel h hM code none hcode with ⟨a1, page, a2, a3⟩ | ⟨a1, a2⟩
        · exact .inl ⟨a1, _, .redirectBy hg hc.1 hc.2.1 (trimmed location) hb a2, a3⟩
        · refine .inr ⟨a1, fun ⟨q, hq⟩ => ?_⟩
          cases hq with
          | redirectPage h0 _ _ _ _ _ _ => exact hg h0
          | redirectBy _ _ _ ht _ hp => rw [trimmed_eq ht, a2] at hp; cases hp
    · rw [if_neg hc]
      refine .inr ⟨⟨_, rfl⟩, fun ⟨q, hq⟩ => ?_⟩
      cases hq with
      | redirectPage _ h1 h2 _ h3 _ _ => exact hc ⟨h1, h2, fun e => h3 ((trimSpace_nil_iff location).1 e)⟩
      | redirectBy _ h1 h2 _ h3 _ => exact hc ⟨h1, h2, fun e => h3 ((trimSpace_nil_iff location).1 e)⟩
  | errorPage code e =>
    cases e with
    | none => exact .inr ⟨⟨_, rfl⟩, fun ⟨q, hq⟩ => by cases hq⟩
    | some e =>
      simp only [sayS, Say.op, SBld.step]
      by_cases hc : 200 ≤ code ∧ code ≤ 999
      · rw [if_pos hc, h.gen]
        by_cases hg : p.gen = 0
        · simp only [hg, hd, defaultGen, SBld.page, error_headers, hst]
          refine .inl ⟨trivial, _, .errorPage e hg hc.1 hc.2 (decimal_itoa code) rfl (decimal_itoa _), h.gen.trans hg, .inl rfl, .inr ⟨rfl, hc⟩, ?_, ?_⟩
          · refine (hdrs_of _ HdrsRel.none ?_).of_fields rfl
            simp only [List.mem_cons, List.not_mem_nil, or_false]
            rintro e (rfl | rfl | rfl) <;> exact ⟨by show canon (lit _) = lit _; decide +kernel, by simp⟩
          · exact holds_new K X _
        · have hM := (h.pages.resolve_left hg).error X code e
          rcases page_rel h hM code (some e) hc with ⟨a1, page, a2, a3⟩ | ⟨a1, a2⟩
          · exact .inl ⟨a1, _, .errorBy hg hc.1 hc.2 a2, a3⟩
          · refine .inr ⟨a1, fun ⟨q, hq⟩ => ?_⟩
            cases hq with
            | errorPage _ h0 _ _ _ _ _ => exact hg h0
            | errorBy _ _ _ hp => rw [a2] at hp; cases hp
      · rw [if_neg hc]
        refine .inr ⟨⟨_, rfl⟩, fun ⟨q, hq⟩ => ?_⟩
        cases hq with
        | errorPage _ _ h1 h2 _ _ _ => exact hc ⟨h1, h2⟩
        | errorBy _ h1 h2 _ => exact hc ⟨h1, h2⟩

theorem holds_make {K : Kinds Φ} {X : Shelf Φ} {i : Nat} {C : List Byte} (h : X.Holds K i C) (m : Res MemFam) : (X.make K m).1.Holds K i C := by
  cases m with
  | ret m => exact holds_add h _
  | panic p => exact h
  | hang => exact h

theorem page_holds {K : Kinds Φ} {X : Shelf Φ} {r : Shelf Φ × Res (GenHdrs × Option Nat)} {pg : Option Page} (hM : K.IsPage X r pg) (b : SBld) (code : Int) (err : Option Err)
    {i : Nat} {C : List Byte} (h : X.Holds K i C) : (b.page code err r).1.Holds K i C := by
  have h1 := hM.1 i C h
  obtain ⟨X', o⟩ := r
  rcases o with ⟨g, b'⟩ | p | _
  · cases g <;> exact h1
  · exact h1
  · exact h1

/-- A call does not touch the Bodies there are. -/
theorem say_holds {K : Kinds Φ} {E : BEnv (Shelf Φ)} (hst : E.store = Shelf.store K) {A : Around} (hd : E.gens 0 = defaultGen E.store A.text)
    {H : Heap} {X : Shelf Φ} {b : SBld} {p : Plan} (hb : Rel K E A X b p) (x : Say) {i : Nat} {C : List Byte} (h : X.Holds K i C) : (sayS K E H X b x).1.Holds K i C := by
  have h1 : (Say.op K X x).1.Holds K i C := by
    cases x <;> first | exact h | exact holds_add h _ | exact holds_make h _
  simp only [sayS]
  generalize (Say.op K X x).1 = Y at h1
  generalize (Say.op K X x).2 = op
  cases op with
  | redirectPage code location =>
    simp only [SBld.step, hb.gen]
    split
    · rcases hb.pages with hg | hM
      · simp only [hg, hd, defaultGen, SBld.page, hst]
        exact holds_add h1 _
      · exact page_holds (hM.redirect Y code (trimSpace location)) _ _ _ h1
    · exact h1
  | errorPage code e =>
    cases e with
    | none => exact h1
    | some e =>
      simp only [SBld.step, hb.gen]
      split
      · rcases hb.pages with hg | hM
        · simp only [hg, hd, defaultGen, SBld.page, hst]
          exact holds_add h1 _
        · exact page_holds (hM.error Y code e) _ _ _ h1
      · exact h1
  | withHeader name value add => simp only [SBld.step]; (repeat' split) <;> exact h1
  | withHeaders m => exact h1
  | withBody b' => cases b' <;> exact h1
  | withPageGenerator g => cases g <;> exact h1
  | elem k i v => simp only [SBld.step]; (repeat' split) <;> exact h1
  | _ => simp only [SBld.step, SBld.made]; (repeat' split) <;> exact h1

/-! ## What does not depend on the plan -/

/-- The plans agree in what decides whether calls are possible. -/
def Like (p q : Plan) : Prop := p.body.isSome = q.body.isSome ∧ p.gen = q.gen

theorem leads_any {A : Around} {p q : Plan} {x : Say} (h : Leads A p x q) (p' : Plan) (hb : Like p p') : ∃ q', Leads A p' x q' ∧ Like q q' := by
  cases h with
  | status h1 h2 => exact ⟨_, .status h1 h2, hb⟩
  | set v h1 => exact ⟨_, .set v h1, hb⟩
  | add v h1 => exact ⟨_, .add v h1, hb⟩
  | without h1 => exact ⟨_, .without h1, hb⟩
  | contentType h1 h2 h3 => exact ⟨_, .contentType h1 h2 h3, hb⟩
  | contentLanguage h1 => exact ⟨_, .contentLanguage h1, hb⟩
  | contentEncoding h1 => exact ⟨_, .contentEncoding h1, hb⟩
  | etag t s => exact ⟨_, .etag t s, hb⟩
  | digest h1 h2 h3 => exact ⟨_, .digest h1 h2 h3, hb⟩
  | bytes d => exact ⟨_, .bytes d, rfl, hb.2⟩
  | body h1 => exact ⟨_, .body h1, rfl, hb.2⟩
  | proto raw => exact ⟨_, .proto raw, rfl, hb.2⟩
  | protoText raw => exact ⟨_, .protoText raw, rfl, hb.2⟩
  | prettyJSON h1 h2 h3 => exact ⟨_, .prettyJSON h1 h2 h3, rfl, hb.2⟩
  | error e => exact ⟨_, .error e, hb⟩
  | headers m => exact ⟨_, .headers m, hb⟩
  | noHeaders => exact ⟨_, .noHeaders, hb⟩
  | generator g => exact ⟨_, .generator g, hb.1, rfl⟩
  | redirectPage h0 h1 h2 h3 h4 h5 h6 => exact ⟨_, .redirectPage (hb.2.symm.trans h0) h1 h2 h3 h4 h5 h6, rfl, rfl⟩
  | errorPage e h0 h1 h2 h3 h4 h5 => exact ⟨_, .errorPage e (hb.2.symm.trans h0) h1 h2 h3 h4 h5, rfl, rfl⟩
  | redirectBy h0 h1 h2 h3 h4 h5 => exact ⟨_, .redirectBy (fun e => h0 (hb.2.trans e)) h1 h2 h3 h4 (by rw [← hb.2]; exact h5), rfl, hb.2⟩
  | errorBy h0 h1 h2 h3 => exact ⟨_, .errorBy (fun e => h0 (hb.2.trans e)) h1 h2 (by rw [← hb.2]; exact h3), rfl, hb.2⟩

theorem leads_body {A : Around} {p q p' q' : Plan} {x : Say} (h : Leads A p x q) (h' : Leads A p' x q') (hb : Like p p') : Like q q' := by
  cases h with
  | redirectPage h0 h1 h2 h3 h4 h5 h6 =>
    cases h' with
    | redirectPage => exact ⟨rfl, rfl⟩
    | redirectBy g0 => exact absurd (hb.2.symm.trans h0) g0
  | errorPage e h0 h1 h2 h3 h4 h5 =>
    cases h' with
    | errorPage => exact ⟨rfl, rfl⟩
    | errorBy g0 => exact absurd (hb.2.symm.trans h0) g0
  | redirectBy h0 h1 h2 h3 h4 h5 =>
    cases h' with
    | redirectPage g0 => exact absurd (hb.2.trans g0) h0
    | redirectBy g0 g1 g2 g3 g4 g5 =>
      rw [trimmed_eq h3, hb.2] at h5
      rw [trimmed_eq g3, h5] at g5
      injection g5 with g5
      subst g5
      exact ⟨rfl, hb.2⟩
  | errorBy h0 h1 h2 h3 =>
    cases h' with
    | errorPage _ g0 => exact absurd (hb.2.trans g0) h0
    | errorBy g0 g1 g2 g3 =>
      rw [hb.2, g3] at h3
      injection h3 with h3
      subst h3
      exact ⟨rfl, hb.2⟩
  | _ => cases h' <;> first | exact hb | exact ⟨rfl, hb.2⟩ | exact ⟨hb.1, rfl⟩

theorem leadsAll_any {A : Around} {l : List Say} : ∀ {p q : Plan}, LeadsAll A p l q → ∀ p' : Plan, Like p p' →
    (∃ q', LeadsAll A p' l q' ∧ Like q q') ∧ ∀ q', LeadsAll A p' l q' → Like q q' := by
  induction l with
  | nil =>
    intro p q h p' hb
    cases h
    exact ⟨⟨p', .nil _, hb⟩, fun q' h' => by cases h'; exact hb⟩
  | cons x l ih =>
    intro p q h p' hb
    cases h with
    | cons h1 h2 =>
      obtain ⟨r, a1, a2⟩ := leads_any h1 p' hb
      obtain ⟨⟨q', b1, b2⟩, -⟩ := ih h2 r a2
      refine ⟨⟨q', .cons a1 b1, b2⟩, fun q'' h'' => ?_⟩
      cases h'' with
      | cons c1 c2 => exact (ih h2 _ (leads_body h1 c1 hb)).2 _ c2

/-! ## The chain -/

theorem say_legal (K : Kinds Φ) (X : Shelf Φ) (x : Say) (h : Nat) : (BOp.on h (Say.op K X x).2).legal := by
  cases x <;> trivial

/-- One call, on the heap. -/
theorem say_sim {K : Kinds Φ} {E : BEnv (Shelf Φ)} (hE : NoShared E) {om oa : Nat → Tag} {s : BState (Shelf Φ)} {σ : SState (Shelf Φ)} (R : StRel om oa s σ) {h : Nat} {sb : SBld}
    (hb : σ.blds[h]? = some sb) (x : Say) :
    (s.say K E h x).2 = (sayS K E s.heap s.bodies sb x).2.2 ∧
    ∃ om' oa', StRel om' oa' (s.say K E h x).1 { σ with bodies := (sayS K E s.heap s.bodies sb x).1, blds := σ.blds.set h (sayS K E s.heap s.bodies sb x).2.1 } := by
  have R' := R.bodies_only (Say.op K s.bodies x).1
  have := step_sim hE R' (op := .on h (Say.op K s.bodies x).2) (say_legal _ _ _ _)
  rw [largOf_eq] at this
  simp only [SState.step, hb] at this
  exact this

/-- The maps of the program stay as they are. -/
theorem say_offers {K : Kinds Φ} {E : BEnv (Shelf Φ)} (hE : NoShared E) {om oa : Nat → Tag} {s : BState (Shelf Φ)} {σ : SState (Shelf Φ)} (R : StRel om oa s σ) (h : Nat) (x : Say)
    {m : Nat} {v : GoStr → List GoStr} (ho : s.heap.Offers m v) : (s.say K E h x).1.heap.Offers m v := by
  have R' := R.bodies_only (Say.op K s.bodies x).1
  obtain ⟨e1, e2⟩ := step_ext hE R' (op := .on h (Say.op K s.bodies x).2) (say_legal _ _ _ _) (fun _ h => by cases h)
  have hmap : (s.say K E h x).1.heap.map (.ext m) = s.heap.map (.ext m) := by
    simp only [Heap.map]
    rw [show (s.say K E h x).1.heap.extMaps = s.heap.extMaps from e1]
  refine ⟨?_, by rw [hmap]; exact ho.2⟩
  have hl : (s.say K E h x).1.heap.lookup (some (.ext m)) = s.heap.lookup (some (.ext m)) := by
    funext k
    simp only [Heap.lookup, Heap.get, Heap.entries, hmap]
    cases hf : (s.heap.map (.ext m)).find? (fun e => e.1 = k) with
    | none => rfl
    | some e =>
      obtain ⟨j, hj⟩ := ho.2 e (List.mem_of_find?_eq_some hf)
      simp only [Option.map_some, Heap.strings, hj, Heap.arr]
      rw [show (s.say K E h x).1.heap.extArrs = s.heap.extArrs from e2]
  rw [hl]
  exact ho.1

theorem say_known {K : Kinds Φ} {E : BEnv (Shelf Φ)} (hE : NoShared E) {om oa : Nat → Tag} {s : BState (Shelf Φ)} {σ : SState (Shelf Φ)} (R : StRel om oa s σ) (h : Nat) (x : Say)
    {A : Around} {y : Say} (hy : y.Known K E A s.heap) : y.Known K E A (s.say K E h x).1.heap := by
  cases y with
  | headers m =>
    cases m with
    | none => trivial
    | some m => exact say_offers hE R h x hy
  | body b => cases b <;> exact hy
  | generator g => cases g <;> exact hy
  | _ => exact hy

theorem chain_rel {K : Kinds Φ} {E : BEnv (Shelf Φ)} (hE : NoShared E) (hst : E.store = Shelf.store K) {A : Around} (hd : E.gens 0 = defaultGen E.store A.text)
    (hm : E.mime = Mime.normal) {h : Nat} (l : List Say) :
    ∀ {om oa : Nat → Tag} {s : BState (Shelf Φ)} {σ : SState (Shelf Φ)} {sb : SBld} {p : Plan}, StRel om oa s σ → σ.blds[h]? = some sb → Rel K E A s.bodies sb p →
    (∀ x ∈ l, x.Known K E A s.heap) → (∀ i C, A.bodies i = some C → s.bodies.Holds K i C) →
    ((s.chain K E h l).2 = .unit ∧ ∃ q, LeadsAll A p l q ∧ ∃ om' oa' σ' sb', StRel om' oa' (s.chain K E h l).1 σ' ∧ σ'.blds[h]? = some sb' ∧
      σ'.rsps = σ.rsps ∧ Rel K E A (s.chain K E h l).1.bodies sb' q) ∨
    ((∃ e, (s.chain K E h l).2 = .panic e) ∧ ¬ ∃ q, LeadsAll A p l q) := by
  induction l with
  | nil => intro om oa s σ sb p R hb hr _ _; exact .inl ⟨rfl, p, .nil p, om, oa, σ, sb, R, hb, rfl, hr⟩
  | cons x l ih =>
    intro om oa s σ sb p R hb hr hl hsh
    obtain ⟨e1, om', oa', R'⟩ := say_sim (K := K) hE R hb x
    rcases say_rel hst hd hm hr x (hl x (by simp)) hsh with ⟨a1, q, a2, a3⟩ | ⟨⟨e, a1⟩, a2⟩
    · rw [a1] at e1
      have hlt : h < σ.blds.length := (List.getElem?_eq_some_iff.1 hb).1
      have hbod : (s.say K E h x).1.bodies = (sayS K E s.heap s.bodies sb x).1 := R'.bodies
      have he : s.chain K E h (x :: l) = (s.say K E h x).1.chain K E h l := by
        rw [BState.chain]
        split
        · rename_i h1; rw [h1]
        · rename_i h1; exact absurd (by rw [← e1]) (h1 (s.say K E h x).1)
      rw [he]
      rcases ih R' (sb := (sayS K E s.heap s.bodies sb x).2.1) (p := q) (by simp [hlt]) (by rw [hbod]; exact a3) (fun y hy => say_known hE R h x (hl y (by simp [hy])))
        (fun i C hC => by rw [hbod]; exact say_holds hst hd hr x (hsh i C hC)) with
        ⟨b1, r, b2, b3⟩ | ⟨b1, b2⟩
      · exact .inl ⟨b1, r, .cons a2 b2, b3⟩
      · refine .inr ⟨b1, fun ⟨r, hr'⟩ => ?_⟩
        cases hr' with
        | cons c1 c2 =>
          obtain ⟨⟨q', d1, -⟩, -⟩ := leadsAll_any c2 q (leads_body c1 a2 ⟨rfl, rfl⟩)
          exact b2 ⟨q', d1⟩
    · rw [a1] at e1
      have he : (s.chain K E h (x :: l)).2 = .panic e := by
        rw [BState.chain]
        split
        · rename_i h1; rw [h1] at e1; cases e1
        · exact e1
      exact .inr ⟨⟨e, he⟩, fun ⟨r, hr'⟩ => by cases hr' with | cons c1 _ => exact a2 ⟨_, c1⟩⟩

theorem lived_rel {E : BEnv (Shelf Φ)} (hE : NoShared E) {s : BState (Shelf Φ)} (h : s.Lived E) : ∃ om oa σ, StRel om oa s σ := by
  induction h with
  | start X => exact ⟨_, _, _, rel_init X⟩
  | step _ hop ih =>
    obtain ⟨om, oa, σ, R⟩ := ih
    obtain ⟨-, om', oa', R'⟩ := step_sim hE R hop
    exact ⟨om', oa', _, R'⟩
  | bodies X _ ih =>
    obtain ⟨om, oa, σ, R⟩ := ih
    exact ⟨om, oa, _, R.bodies_only X⟩

theorem reached_lived {E : BEnv (Shelf Φ)} {s : BState (Shelf Φ)} (h : Reached E s) : s.Lived E := by
  obtain ⟨X, ops, hl, rfl⟩ := h
  have : ∀ (ops : List BOp) (s : BState (Shelf Φ)), s.Lived E → (∀ op ∈ ops, op.legal) → (s.after E ops).Lived E := by
    intro ops
    induction ops with
    | nil => intro s h _; exact h
    | cons op ops ih => intro s h hl; exact ih _ (h.step (hl op (by simp))) fun o ho => hl o (by simp [ho])
  exact this ops _ (.start X) hl

theorem chain_lived {K : Kinds Φ} {E : BEnv (Shelf Φ)} {h : Nat} (l : List Say) : ∀ {s : BState (Shelf Φ)}, s.Lived E → (s.chain K E h l).1.Lived E := by
  induction l with
  | nil => intro s hs; exact hs
  | cons x l ih =>
    intro s hs
    have h1 : (s.say K E h x).1.Lived E := .step (.bodies _ hs) (say_legal _ _ _ _)
    rw [BState.chain]
    split
    · rename_i e; rw [e] at h1; exact ih h1
    · exact h1

/-- What a handler leaves behind is again such a state. -/
theorem handle_lived {K : Kinds Φ} {E : BEnv (Shelf Φ)} {s : BState (Shelf Φ)} (hs : s.Lived E) (l : List Say) : (s.handle K E l).1.Lived E := by
  have h1 : (BState.chain K E s.blds.length (s.step E .new).1 l).1.Lived E := chain_lived l (.step hs trivial)
  rw [BState.handle]
  split
  · rename_i e; rw [e] at h1; exact .step h1 trivial
  · exact h1

/-! ## Copying can be given up -/

theorem wtStops_map {β γ : Type} {B : BodyOps β} {get : γ → β} {put : γ → β → γ} {X : γ} (hgp : ∀ b, get (put X b) = b) {t : WT β}
    (h : WTStops B t) : WTStops (B.focus get put) (t.map (put X)) := by
  induction t with
  | done b n err => trivial
  | write b d cont ih =>
    refine ⟨fun e => ?_, ih _ _ h.2⟩
    obtain ⟨b', n, h1, r, h2⟩ := h.1 e
    refine ⟨put X b', n, by show WT.map _ (cont 0 (some e)) = _; rw [h1]; rfl, r, ?_⟩
    show (B.close (get (put X b'))).2 = _
    rw [hgp]
    exact h2
  | panic b p => trivial
  | hang b => trivial

end Verif.ToldP
