import Verif.Props.ToldCopies

/-!
# C80: copies of a Builder

A handler makes calls on a Builder, copies it, and goes on with both.
-/

set_option autoImplicit false

namespace Verif
open Spec Spec.Told ToldP
variable {Φ : Type}

/-- What comes of the calls `l` made on Builder `h`, which ended like `o` in state `t`: either one of them panicked (or `Build` does), and there is no way to do what
was asked for; or there is, and `Build` makes the Response that was planned, which is so until it is sent, whatever others do. -/
def Spec.Told.Meant (K : Kinds Φ) (E : BEnv (Shelf Φ)) (A : Around) (h : Nat) (l : List Say) (t : BState (Shelf Φ)) (o : BOut) : Prop :=
  (((∃ e, o = .panic e) ∨ o = .unit ∧ ∃ e, (t.step E (.build h)).2 = .panic e) ∧ ¬ ∃ p C, LeadsAll A {} l p ∧ p.body = some C) ∨
  o = .unit ∧ ∃ p C, LeadsAll A {} l p ∧ p.body = some C ∧ (t.step E (.build h)).2 = .made t.rsps.length ∧
    ∃ r i, (t.step E (.build h)).1.rsps[t.rsps.length]? = some r ∧ r.body = some i ∧
      ∀ u, After K E i C (t.step E (.build h)).1 u → Arrives K u t.rsps.length p C

theorem leadsAll_append {A : Around} {p q r : Plan} {l l' : List Say} (h : LeadsAll A p l q) (h' : LeadsAll A q l' r) : LeadsAll A p (l ++ l') r := by
  induction h with
  | nil p => exact h'
  | cons a _ ih => exact .cons a (ih h')

theorem leadsAll_split {A : Around} {l l' : List Say} : ∀ {p r : Plan}, LeadsAll A p (l ++ l') r → ∃ q, LeadsAll A p l q ∧ LeadsAll A q l' r := by
  induction l with
  | nil => intro p r h; exact ⟨p, .nil p, h⟩
  | cons x l ih =>
    intro p r h
    cases h with
    | cons a b =>
      obtain ⟨q, h1, h2⟩ := ih b
      exact ⟨q, .cons a h1, h2⟩

/-- The calls `l'` on a Builder that is as planned after the calls `l`. -/
theorem meant {K : Kinds Φ} {E : BEnv (Shelf Φ)} (hE : NoShared E) (hst : E.store = Shelf.store K) {A : Around} (hd : E.gens 0 = defaultGen E.store A.text)
    (hm : E.mime = Mime.normal) {h : Nat} {s t : BState (Shelf Φ)} {l l' : List Say} {o : BOut} (hw : Woven K E A h s l' t o)
    {om oa : Nat → Tag} {σ : SState (Shelf Φ)} {sb : SBld} {p : Plan} (R : StRel om oa s σ) (hb : σ.blds[h]? = some sb) (hr : Rel K E A s.bodies sb p)
    (hl : ∀ x ∈ l', x.Known K E A s.heap) (hsrc : ∀ i C, A.bodies i = some C → s.bodies.Holds K i C) (hp : LeadsAll A {} l p) : Meant K E A h (l ++ l') t o := by
  have one : ∀ q, LeadsAll A {} (l ++ l') q → ∃ q', LeadsAll A p l' q' := by
    intro q hq
    obtain ⟨q1, h1, h2⟩ := leadsAll_split hq
    have := (leadsAll_any hp {} ⟨rfl, rfl⟩).2 q1 h1
    obtain ⟨⟨q', d1, -⟩, -⟩ := leadsAll_any h2 p ⟨this.1.symm, this.2.symm⟩
    exact ⟨q', d1⟩
  rcases woven_rel hE hst hd hm hw R hb hr hl hsrc with ⟨rfl, q, hq, om2, oa2, σ2, sb2, R2, hb2, hr2⟩ | ⟨⟨e, rfl⟩, c2⟩
  · have hpq := leadsAll_append hp hq
    rcases build_planned hE hst R2 hb2 hr2 with ⟨h1, h2⟩ | ⟨C, i, h1, h2, om3, oa3, σ3, R3, h3⟩
    · refine .inl ⟨.inr ⟨rfl, .badArg, h2⟩, ?_⟩
      rintro ⟨q', C, hq', hqC⟩
      have := ((leadsAll_any hpq {} ⟨rfl, rfl⟩).2 q' hq').1
      rw [h1, hqC] at this
      cases this
    · obtain ⟨sr, f, n, code, k1, k2, -⟩ := h3.made
      rcases R3.rsp t.rsps.length with ⟨-, e⟩ | ⟨r, sr', e1, e2, e3⟩
      · rw [k1] at e; cases e
      rw [k1] at e2; cases e2
      refine .inr ⟨rfl, q, C, hpq, h1, h2, r, i, e1, e3.body.trans k2, fun u hu => ?_⟩
      obtain ⟨om4, oa4, σ4, R4, h4⟩ := after_planned hE hu R3 h3
      exact h4.arrives R4
  · exact .inl ⟨.inl ⟨e, rfl⟩, fun ⟨p', C, h1, _⟩ => c2 (one p' h1)⟩

/-- **C80.** A handler makes the calls `l` on a Builder, which all return, and copies it (its Body, if there is one, can be copied).  Then it makes the calls `l'` on
one of the two, while others do what they like with what is theirs, among them calls on the other one.  Then what comes of it is what the calls `l` and then `l'`
mean. -/
theorem C80_forked {K : Kinds Φ} {E : BEnv (Shelf Φ)} (hE : NoShared E) (hst : E.store = Shelf.store K) {A : Around} (hd : E.gens 0 = defaultGen E.store A.text)
    (hm : E.mime = Mime.normal) {s : BState (Shelf Φ)} (hs : s.Lived E) (hsrc : ∀ i C, A.bodies i = some C → s.bodies.Holds K i C)
    (l : List Say) (hl : ∀ x ∈ l, x.Known K E A s.heap) {t : BState (Shelf Φ)} (hw : Woven K E A s.blds.length (s.step E .new).1 l t .unit)
    (hc : ∀ p C b i, LeadsAll A {} l p → p.body = some C → t.blds[s.blds.length]? = some b → b.body = some i → t.bodies.Copies K i C)
    (hk : ∀ i C, A.bodies i = some C → (t.step E (.copy s.blds.length)).1.bodies.Holds K i C) :
    (t.step E (.copy s.blds.length)).2 = .made t.blds.length ∧
    ∀ h, h = s.blds.length ∨ h = t.blds.length → ∀ l' : List Say, (∀ x ∈ l', x.Known K E A (t.step E (.copy s.blds.length)).1.heap) →
      ∀ u o, Woven K E A h (t.step E (.copy s.blds.length)).1 l' u o → Meant K E A h (l ++ l') u o := by
  obtain ⟨om, oa, σ, R⟩ := lived_rel hE hs
  obtain ⟨-, om1, oa1, R1⟩ := step_sim hE R (op := .new) trivial
  have hb1 : (σ.step E (argOf s.heap .new) .new).1.blds[s.blds.length]? = some {} := by
    simp [SState.step, R.nb]
  have hrel : Rel K E A (s.step E .new).1.bodies {} {} := ⟨rfl, .inl rfl, .inl ⟨rfl, rfl⟩, HdrsRel.none, trivial⟩
  rcases woven_rel hE hst hd hm hw R1 hb1 hrel hl hsrc with ⟨-, p, hp, om2, oa2, σ2, sb, R2, hb2, hr⟩ | ⟨⟨e, h⟩, -⟩
  rotate_left
  · cases h
  obtain ⟨e3, om3, oa3, R3⟩ := step_sim hE R2 (op := .copy s.blds.length) trivial
  have hlt : s.blds.length < σ2.blds.length := (List.getElem?_eq_some_iff.1 hb2).1
  -- the Builders after the copying
  have key : ∃ Y body, (copied E.store σ2.bodies sb.body) = (Y, .ret (.ok body)) ∧ Rel K E A Y sb p ∧ Rel K E A Y { sb with body } p := by
    rcases R2.bld s.blds.length with ⟨-, e⟩ | ⟨b, sb', b1, b2, b3⟩
    · rw [hb2] at e; cases e
    rw [hb2] at b2; cases b2
    cases hbody : sb.body with
    | none =>
      refine ⟨σ2.bodies, none, rfl, by rw [← R2.bodies]; exact hr, ?_⟩
      rw [← R2.bodies]
      have : { sb with body := none } = sb := by cases sb; cases hbody; rfl
      rw [this]; exact hr
    | some i =>
      have hrb := hr.body
      rw [hbody] at hrb
      cases hpb : p.body with
      | none => rw [hpb] at hrb; exact hrb.elim
      | some C =>
        rw [hpb] at hrb
        obtain ⟨Y, c1, c2, c3, -, -⟩ := shelf_copy (hc p C b i hp hpb b1 (b3.body.trans hbody))
        refine ⟨Y, some t.bodies.bodies.length, by simp only [copied, hst, ← R2.bodies, c1], ?_, ?_⟩
        · exact ⟨hr.gen, hr.pages, hr.code, hr.hdrs, by rw [hbody, hpb]; exact c2⟩
        · exact ⟨hr.gen, hr.pages, hr.code, hr.hdrs, by rw [hpb]; exact c3⟩
  obtain ⟨Y, body, k1, k2, k3⟩ := key
  have hσ : σ2.step E (argOf t.heap (.copy s.blds.length)) (.copy s.blds.length) = ({ σ2 with bodies := Y, blds := σ2.blds ++ [{ sb with body }] }, .made σ2.blds.length) := by
    simp only [SState.step, hb2, k1]
  rw [hσ] at R3 e3
  refine ⟨by rw [e3, R2.nb], ?_⟩
  have hY : (t.step E (.copy s.blds.length)).1.bodies = Y := R3.bodies
  rintro h (rfl | rfl) l' hl' u o hw'
  · exact meant hE hst hd hm hw' R3 (sb := sb) (by
      show (σ2.blds ++ [_])[s.blds.length]? = _
      rw [List.getElem?_append_left hlt]; exact hb2) (by rw [hY]; exact k2) hl' hk hp
  · exact meant hE hst hd hm hw' R3 (sb := { sb with body }) (by
      show (σ2.blds ++ [_])[t.blds.length]? = _
      rw [R2.nb]; simp) (by rw [hY]; exact k3) hl' hk hp

/-! ## Examples -/

/-- Before the copying: status, a header, a Body. -/
def stemCalls : List Say := [.status 201, .header (lit "X-Who") (lit "both") true, .bytes (lit "text")]

def stemState : BState (Shelf MemFam) :=
  (stemCalls.foldl oneSays oneBegins)

def forkState : BState (Shelf MemFam) := (stemState.step toldEnv (.copy 0)).1

/-- The copy gets another header, then the original another status; then both are built. -/
def forkDone : BState (Shelf MemFam) :=
  let u := (forkState.say toldKinds toldEnv 1 (.header (lit "X-Who") (lit "copy") true)).1
  let u := (u.say toldKinds toldEnv 0 (.status 404)).1
  ((u.step toldEnv (.build 1)).1.step toldEnv (.build 0)).1

-- Two Responses, with a Body each.
example : forkDone.rsps.map (fun r => (r.code, r.body)) = [(201, some 1), (404, some 0)] ∧
    forkDone.rsps.map (fun r => forkDone.heap.lookup r.hdrs (lit "X-Who")) = [some [lit "both", lit "copy"], some [lit "both"]] ∧
    (forkDone.bodies.bodies, forkDone.bodies.fams) = ([(0, 0), (0, 1)], [.bytes [{ data := lit "text" }, { data := lit "text" }]]) :=
  ⟨by decide +kernel, by decide +kernel, by decide +kernel⟩

-- What comes of the copy is what the calls before the copying, and then those on the copy, mean.
example : Meant toldKinds toldEnv toldAround 1 (stemCalls ++ [.header (lit "X-Who") (lit "copy") true])
    (forkState.say toldKinds toldEnv 1 (.header (lit "X-Who") (lit "copy") true)).1 .unit := by
  have hw : Woven toldKinds toldEnv toldAround 0 oneBegins stemCalls stemState .unit := by
    unfold stemState stemCalls
    exact .call rfl (.call rfl (.call rfl (.done _)))
  have h := (C80_forked toldEnv_noShared rfl (A := toldAround) rfl rfl (s := { bodies := {} }) (.start _) (fun _ _ h => by cases h) stemCalls (by
    intro x hx
    simp only [stemCalls, List.mem_cons, List.not_mem_nil, or_false] at hx
    rcases hx with rfl | rfl | rfl <;> trivial) hw (by
    intro p C b i h1 h2 h3 h4
    have hC : C = lit "text" := by
      cases h1 with
      | cons _ h => cases h with
        | cons _ h => cases h with
          | cons a h => cases h; cases a; exact (Option.some.inj h2).symm
    subst hC
    have h5 : (stemState.blds.map (·.body))[0]? = some (some 0) := by decide +kernel
    have h6 : i = 0 := by
      rw [List.getElem?_map, show stemState.blds[0]? = some b from h3] at h5
      simp only [Option.map_some, h4] at h5
      simpa using h5
    subst h6
    refine ⟨0, 0, by decide +kernel, by decide +kernel, ?_⟩
    have h7 : stemState.bodies.fam toldKinds 0 = toldKinds.mem (fromBytes (lit "text")) := rfl
    rw [h7]
    exact C80_mem_copies toldKinds (d := lit "text") (by decide) (by decide) (mem_init _) (h := 0) rfl rfl rfl (by decide)) (fun _ _ h => by cases h)).2 1 (.inr (by decide +kernel))
      [.header (lit "X-Who") (lit "copy") true] (by simp [Say.Known])
  exact h _ _ (.call rfl (.done _))

end Verif
