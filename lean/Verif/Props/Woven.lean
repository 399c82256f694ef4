import Verif.Model.Woven
import Verif.Props.Around

/-!
# C80: handlers at work at the same time

The calls of a handler are not made in one go: other goroutines make calls on their Builders in between, and do things to Bodies and header maps.
-/

set_option autoImplicit false

namespace Verif
open Spec Spec.Told Spec.Wire ToldP
variable {Φ : Type}

/-- An event with other Builders leaves this one as it is. -/
theorem spares_bld {B : Type} {E : BEnv B} {σ : SState B} {arg : Hdrs} {op : BOp} {h : Nat} {sb : SBld} (hop : op.spares h) (hb : σ.blds[h]? = some sb) :
    (σ.step E arg op).1.blds[h]? = some sb := by
  have hlt : h < σ.blds.length := (List.getElem?_eq_some_iff.1 hb).1
  cases op with
  | new => simpa [SState.step, List.getElem?_append_left hlt] using hb
  | on h' op =>
    simp only [SState.step]
    split
    · exact hb
    · rw [List.getElem?_set_ne hop]; exact hb
  | copy h' =>
    simp only [SState.step]
    split
    · exact hb
    · split <;> first | exact hb | (rw [List.getElem?_append_left hlt]; exact hb)
  | build h' =>
    simp only [SState.step]
    split
    · exact hb
    · split
      · exact hb
      · rw [List.getElem?_set_ne hop]; exact hb
  | respCopy j =>
    simp only [SState.step]
    split
    · exact hb
    · split <;> exact hb
  | _ => exact hb

/-- An event leaves the Responses there are as they are. -/
theorem keeps_rsp {B : Type} {E : BEnv B} {σ : SState B} {arg : Hdrs} {op : BOp} {j : Nat} {sr : SRsp} (hb : σ.rsps[j]? = some sr) :
    (σ.step E arg op).1.rsps[j]? = some sr := by
  have hlt : j < σ.rsps.length := (List.getElem?_eq_some_iff.1 hb).1
  cases op with
  | on h' op => simp only [SState.step]; split <;> exact hb
  | copy h' =>
    simp only [SState.step]
    split
    · exact hb
    · split <;> exact hb
  | build h' =>
    simp only [SState.step]
    split
    · exact hb
    · split
      · exact hb
      · rw [List.getElem?_append_left hlt]; exact hb
  | respCopy j =>
    simp only [SState.step]
    split
    · exact hb
    · split <;> first | exact hb | (rw [List.getElem?_append_left hlt]; exact hb)
  | _ => exact hb

theorem rel_bodies {K : Kinds Φ} {E : BEnv (Shelf Φ)} {A : Around} {X Y : Shelf Φ} {b : SBld} {p : Plan} (h : Rel K E A X b p)
    (hk : ∀ i C, b.body = some i → X.Holds K i C → Y.Holds K i C) : Rel K E A Y b p := by
  refine ⟨h.gen, h.pages, h.code, h.hdrs, ?_⟩
  have := h.body
  revert this
  cases hb : b.body <;> cases hp : p.body <;> intro h'
  · exact h'
  · exact h'
  · exact h'
  · exact hk _ _ hb h'

theorem woven_rel {K : Kinds Φ} {E : BEnv (Shelf Φ)} (hE : NoShared E) (hst : E.store = Shelf.store K) {A : Around} (hd : E.gens 0 = defaultGen E.store A.text)
    (hm : E.mime = Mime.normal) {h : Nat} {s t : BState (Shelf Φ)} {l : List Say} {o : BOut} (hw : Woven K E A h s l t o) :
    ∀ {om oa : Nat → Tag} {σ : SState (Shelf Φ)} {sb : SBld} {p : Plan}, StRel om oa s σ → σ.blds[h]? = some sb → Rel K E A s.bodies sb p →
    (∀ x ∈ l, x.Known K E A s.heap) → (∀ i C, A.bodies i = some C → s.bodies.Holds K i C) →
    (o = .unit ∧ ∃ q, LeadsAll A p l q ∧ ∃ om' oa' σ' sb', StRel om' oa' t σ' ∧ σ'.blds[h]? = some sb' ∧ Rel K E A t.bodies sb' q) ∨
    ((∃ e, o = .panic e) ∧ ¬ ∃ q, LeadsAll A p l q) := by
  induction hw with
  | done s => intro om oa σ sb p R hb hr _ _; exact .inl ⟨rfl, p, .nil p, om, oa, σ, sb, R, hb, hr⟩
  | @call s t x l o hu hw ih =>
    intro om oa σ sb p R hb hr hl hsh
    obtain ⟨e1, om', oa', R'⟩ := say_sim (K := K) hE R hb x
    rcases say_rel hst hd hm hr x (hl x (by simp)) hsh with ⟨a1, q, a2, a3⟩ | ⟨⟨e, a1⟩, a2⟩
    · have hlt : h < σ.blds.length := (List.getElem?_eq_some_iff.1 hb).1
      have hbod : (s.say K E h x).1.bodies = (sayS K E s.heap s.bodies sb x).1 := R'.bodies
      rcases ih R' (sb := (sayS K E s.heap s.bodies sb x).2.1) (p := q) (by simp [hlt]) (by rw [hbod]; exact a3) (fun y hy => say_known hE R h x (hl y (by simp [hy])))
        (fun i C hC => by rw [hbod]; exact say_holds hst hd hr x (hsh i C hC)) with
        ⟨b1, r, b2, b3⟩ | ⟨b1, b2⟩
      · exact .inl ⟨b1, r, .cons a2 b2, b3⟩
      · refine .inr ⟨b1, fun ⟨r, hr'⟩ => ?_⟩
        cases hr' with
        | cons c1 c2 =>
          obtain ⟨⟨q', d1, -⟩, -⟩ := leadsAll_any c2 q (leads_body c1 a2 ⟨rfl, rfl⟩)
          exact b2 ⟨q', d1⟩
    · rw [a1, hu] at e1
      cases e1
  | @stop s x l hu =>
    intro om oa σ sb p R hb hr hl hsh
    obtain ⟨e1, -⟩ := say_sim (K := K) hE R hb x
    rcases say_rel hst hd hm hr x (hl x (by simp)) hsh with ⟨a1, q, a2, a3⟩ | ⟨⟨e, a1⟩, a2⟩
    · exact absurd (e1.trans a1) hu
    · exact .inr ⟨⟨e, e1.trans a1⟩, fun ⟨r, hr'⟩ => by cases hr' with | cons c1 _ => exact a2 ⟨_, c1⟩⟩
  | @aside s s' t l o ha hw ih =>
    intro om oa σ sb p R hb hr hl hsh
    have hbody : ∀ i C, sb.body = some i → s.bodies.Holds K i C → s'.bodies.Holds K i C := by
      intro i C hi
      refine ha.bodies i C (.inr ?_)
      rcases R.bld h with ⟨-, e⟩ | ⟨b, sb', e1, e2, e3⟩
      · rw [hb] at e; cases e
      · rw [hb] at e2; cases e2; exact ⟨b, e1, e3.body.trans hi⟩
    have hr' := rel_bodies hr hbody
    have hl' : ∀ x ∈ l, x.Known K E A s'.heap := by
      intro x hx
      have := hl x hx
      cases x with
      | headers m =>
        cases m with
        | none => trivial
        | some m => exact ha.maps m hx this
      | body b => cases b <;> exact this
      | generator g => cases g <;> exact this
      | _ => exact this
    have hsh' : ∀ i C, A.bodies i = some C → s'.bodies.Holds K i C := fun i C hC => ha.bodies i C (.inl hC) (hsh i C hC)
    rcases ha.act with ⟨op, h1, h2, rfl⟩ | ⟨X, rfl⟩
    · obtain ⟨-, om', oa', R'⟩ := step_sim hE R h1
      exact ih R' (spares_bld h2 hb) hr' hl' hsh'
    · exact ih (R.bodies_only X) hb hr' hl' hsh'

/-- What happens afterwards does not show in the Response. -/
theorem after_planned {K : Kinds Φ} {E : BEnv (Shelf Φ)} (hE : NoShared E) {i : Nat} {C : List Byte} {s t : BState (Shelf Φ)} (ha : After K E i C s t) :
    ∀ {om oa : Nat → Tag} {σ : SState (Shelf Φ)} {j : Nat} {p : Plan}, StRel om oa s σ → Planned K s σ j i p C →
      ∃ om' oa' σ', StRel om' oa' t σ' ∧ Planned K t σ' j i p C := by
  induction ha with
  | refl s => intro om oa σ j p R h; exact ⟨_, _, _, R, h⟩
  | @step s t op h1 h2 _ ih =>
    intro om oa σ j p R h
    obtain ⟨-, om', oa', R'⟩ := step_sim hE R h1
    refine ih R' ⟨?_, h2 h.holds⟩
    obtain ⟨sr, f, n, code, k1, k2⟩ := h.made
    exact ⟨sr, f, n, code, keeps_rsp k1, k2⟩
  | @bodies s t X h1 _ ih =>
    intro om oa σ j p R h
    exact ih (R.bodies_only X) ⟨h.made, h1 h.holds⟩

/-- **C80.** Handlers at work at the same time.  A handler makes a Builder and calls its methods; between the calls, others do what they like with what is theirs.  Then
it is the plan of its own calls that counts: either one of them panics (or `Build`), and there is no way to do what was asked for; or there is, and the Response is
what was planned, and is still when it is sent, whatever others do until then. -/
theorem C80_woven {K : Kinds Φ} {E : BEnv (Shelf Φ)} (hE : NoShared E) (hst : E.store = Shelf.store K) {A : Around} (hd : E.gens 0 = defaultGen E.store A.text)
    (hm : E.mime = Mime.normal) {s : BState (Shelf Φ)} (hs : s.Lived E) (hsrc : ∀ i C, A.bodies i = some C → s.bodies.Holds K i C)
    (l : List Say) (hl : ∀ x ∈ l, x.Known K E A s.heap) {t : BState (Shelf Φ)} {o : BOut} (hw : Woven K E A s.blds.length (s.step E .new).1 l t o) :
    (((∃ e, o = .panic e) ∨ o = .unit ∧ ∃ e, (t.step E (.build s.blds.length)).2 = .panic e) ∧ ¬ ∃ p C, LeadsAll A {} l p ∧ p.body = some C) ∨
    o = .unit ∧ ∃ p C, LeadsAll A {} l p ∧ p.body = some C ∧ (t.step E (.build s.blds.length)).2 = .made t.rsps.length ∧
      ∃ r i, (t.step E (.build s.blds.length)).1.rsps[t.rsps.length]? = some r ∧ r.body = some i ∧
        ∀ u, After K E i C (t.step E (.build s.blds.length)).1 u → Arrives K u t.rsps.length p C := by
  obtain ⟨om, oa, σ, R⟩ := lived_rel hE hs
  obtain ⟨-, om1, oa1, R1⟩ := step_sim hE R (op := .new) trivial
  have hb1 : (σ.step E (argOf s.heap .new) .new).1.blds[s.blds.length]? = some {} := by
    simp [SState.step, R.nb]
  have hrel : Rel K E A (s.step E .new).1.bodies {} {} := ⟨rfl, .inl rfl, .inl ⟨rfl, rfl⟩, HdrsRel.none, trivial⟩
  rcases woven_rel hE hst hd hm hw R1 hb1 hrel hl hsrc with ⟨rfl, p, hp, om2, oa2, σ2, sb, R2, hb2, hr⟩ | ⟨⟨e, rfl⟩, c2⟩
  · rcases build_planned hE hst R2 hb2 hr with ⟨h1, h2⟩ | ⟨C, i, h1, h2, om3, oa3, σ3, R3, h3⟩
    · refine .inl ⟨.inr ⟨rfl, .badArg, h2⟩, ?_⟩
      rintro ⟨q, C, hq, hqC⟩
      have := ((leadsAll_any hp {} ⟨rfl, rfl⟩).2 q hq).1
      rw [h1, hqC] at this
      cases this
    · obtain ⟨sr, f, n, code, k1, k2, -⟩ := h3.made
      rcases R3.rsp t.rsps.length with ⟨-, e⟩ | ⟨r, sr', e1, e2, e3⟩
      · rw [k1] at e; cases e
      rw [k1] at e2; cases e2
      refine .inr ⟨rfl, p, C, hp, h1, h2, r, i, e1, e3.body.trans k2, fun u hu => ?_⟩
      obtain ⟨om4, oa4, σ4, R4, h4⟩ := after_planned hE hu R3 h3
      exact h4.arrives R4
  · exact .inl ⟨.inl ⟨e, rfl⟩, fun ⟨p, C, h1, _⟩ => c2 ⟨p, h1⟩⟩

/-! ## Examples -/

/-- Two handlers: the calls of the one are on Builder 0, those of the other on Builder 1. -/
def oneCalls : List Say := [.status 201, .header (lit "X-Who") (lit "one") true, .bytes (lit "first")]

/-- What the other one does, one event after the other: a new Builder; status and header; a Body of bytes; a Response. -/
def otherState : Nat → BState (Shelf MemFam) → BState (Shelf MemFam)
  | 0, s => (s.step toldEnv .new).1
  | 1, s => (s.step toldEnv (.on 1 (.withStatus 500))).1
  | 2, s => (s.step toldEnv (.on 1 (.withHeader (lit "X-Who") (lit "two") true))).1
  | 3, s => { s with bodies := (s.bodies.add (toldKinds.mem (fromBytes (lit "second")))).1 }
  | 4, s => (s.step toldEnv (.on 1 (.withBody (some 0)))).1
  | 5, s => (s.step toldEnv (.build 1)).1
  | _, s => s

def oneBegins : BState (Shelf MemFam) := (({ bodies := {} } : BState (Shelf MemFam)).step toldEnv .new).1

def oneSays (s : BState (Shelf MemFam)) (x : Say) : BState (Shelf MemFam) := (s.say toldKinds toldEnv 0 x).1

/-- The two take turns. -/
def turnsState : BState (Shelf MemFam) :=
  otherState 5 (oneSays (otherState 4 (otherState 3 (oneSays (otherState 2 (otherState 1 (oneSays (otherState 0 oneBegins) (.status 201))))
    (.header (lit "X-Who") (lit "one") true)))) (.bytes (lit "first")))

theorem aside_same {h : Nat} {l : List Say} {s : BState (Shelf MemFam)} {op : BOp} (h1 : op.legal) (h2 : op.spares h) (h3 : (s.step toldEnv op).1.bodies = s.bodies)
    (h4 : ∀ m, Say.headers (some m) ∉ l) : Aside toldKinds toldEnv toldAround h l s (s.step toldEnv op).1 :=
  ⟨.inl ⟨op, h1, h2, rfl⟩, fun _ _ _ hh => by rw [h3]; exact hh, fun m hm => absurd hm (h4 m)⟩

theorem turns_woven : Woven toldKinds toldEnv toldAround 0 oneBegins oneCalls turnsState .unit := by
  unfold turnsState
  refine .aside (s' := otherState 0 oneBegins) (aside_same trivial trivial rfl (by simp [oneCalls])) ?_
  refine .call rfl ?_
  refine .aside (s' := otherState 1 _) (aside_same trivial (show 1 ≠ 0 by decide) rfl (by simp)) ?_
  refine .aside (s' := otherState 2 _) (aside_same trivial (show 1 ≠ 0 by decide) rfl (by simp)) ?_
  refine .call rfl ?_
  refine .aside (s' := otherState 3 _) ⟨.inr ⟨_, rfl⟩, fun _ _ _ hh => holds_add hh _, fun m hm => absurd hm (by simp)⟩ ?_
  refine .aside (s' := otherState 4 _) (aside_same trivial (show 1 ≠ 0 by decide) rfl (by simp)) ?_
  refine .call rfl ?_
  refine .aside (s' := otherState 5 _) (aside_same trivial (show 1 ≠ 0 by decide) rfl (by simp)) ?_
  exact .done _

-- The one gets what it planned, ...
example : ∃ p, LeadsAll toldAround {} oneCalls p ∧ p.body = some (lit "first") ∧ (turnsState.step toldEnv (.build 0)).2 = .made 1 ∧
    Arrives toldKinds (turnsState.step toldEnv (.build 0)).1 1 p (lit "first") := by
  rcases C80_woven toldEnv_noShared rfl (A := toldAround) rfl rfl (s := { bodies := {} }) (.start _) (fun _ _ h => by cases h) oneCalls (by
    intro x hx
    simp only [oneCalls, List.mem_cons, List.not_mem_nil, or_false] at hx
    rcases hx with rfl | rfl | rfl <;> trivial) turns_woven with ⟨-, h⟩ | ⟨-, p, C, h1, h2, h3, r, i, -, -, h4⟩
  · exact absurd ⟨_, _, .cons (.status (by decide) (by decide)) (.cons (.add _ (by decide)) (.cons (.bytes _) (.nil _))), rfl⟩ h
  · have hC : C = lit "first" := by
      cases h1 with
      | cons _ h => cases h with
        | cons _ h => cases h with
          | cons a h => cases h; cases a; exact (Option.some.inj h2).symm
    subst hC
    exact ⟨p, h1, h2, h3, h4 _ (.refl _)⟩

-- ... and there are two Responses, that have nothing in common.
example : let t := (turnsState.step toldEnv (.build 0)).1
    t.rsps.map (fun r => (r.code, r.body)) = [(500, some 0), (201, some 1)] ∧
    t.rsps.map (fun r => t.heap.lookup r.hdrs (lit "X-Who")) = [some [lit "two"], some [lit "one"]] ∧
    t.rsps.map (fun r => t.heap.lookup r.hdrs (lit "Content-Length")) = [some [lit "6"], some [lit "5"]] :=
  ⟨by decide +kernel, by decide +kernel, by decide +kernel⟩

end Verif
