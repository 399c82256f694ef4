import Verif.Proofs.Builder
import Verif.Proofs.Strconv
import Verif.Spec.Decimal

/-!
# Properties of Builders and Responses (C26–C33)
-/

set_option autoImplicit false

namespace Verif

open Spec

variable {B : Type}

/-- A state that legal events lead to, from no Builders at all. -/
def Reached (E : BEnv B) (s : BState B) : Prop :=
  ∃ X ops, (∀ op ∈ ops, op.legal) ∧ s = BState.after E { bodies := X } ops

/-- What a Builder holds. -/
def Bld.view (H : Heap) (b : Bld) : SBld := { gen := b.gen, code := b.code, hdrs := H.lookup b.hdrs, body := b.body, err := b.err }

theorem BState.after_append (E : BEnv B) (s : BState B) (l l' : List BOp) : s.after E (l ++ l') = (s.after E l).after E l' := by
  induction l generalizing s with
  | nil => rfl
  | cons op l ih => exact ih _

theorem Reached.step {E : BEnv B} {s : BState B} (h : Reached E s) {op : BOp} (hop : op.legal) : Reached E (s.step E op).1 := by
  obtain ⟨X, ops, h1, rfl⟩ := h
  refine ⟨X, ops ++ [op], ?_, ?_⟩
  · intro o ho
    rcases List.mem_append.1 ho with ho | ho
    · exact h1 o ho
    · rw [List.mem_singleton.1 ho]; exact hop
  · rw [BState.after_append]; rfl

theorem Reached.after {E : BEnv B} (ops : List BOp) : ∀ {s : BState B}, Reached E s → (∀ op ∈ ops, op.legal) → Reached E (s.after E ops) := by
  induction ops with
  | nil => intro s h _; exact h
  | cons op ops ih =>
    intro s h hl
    exact ih (h.step (hl op (List.mem_cons_self ..))) fun o ho => hl o (List.mem_cons_of_mem _ ho)

theorem Reached.rel {E : BEnv B} (hE : NoShared E) {s : BState B} (h : Reached E s) : ∃ om oa σ, StRel om oa s σ := by
  obtain ⟨X, ops, h1, rfl⟩ := h
  obtain ⟨_, om, oa, h⟩ := bld_run_sim hE ops (rel_init X) h1
  exact ⟨om, oa, _, h⟩

theorem BldRel.view {om oa : Nat → Tag} {t : Tag} {H : Heap} {b : Bld} {sb : SBld} (r : BldRel om oa t H b sb) : sb = b.view H := by
  obtain ⟨g, c, h, bd, e⟩ := sb
  simp only [Bld.view, SBld.mk.injEq]
  exact ⟨r.gen.symm, r.code.symm, r.hdrs.lookup.symm, r.body.symm, r.err.symm⟩

/-- One call on a Builder, in terms of values. -/
theorem on_step {E : BEnv B} (hE : NoShared E) {s : BState B} (hs : Reached E s) {h : Nat} {b : Bld} (hb : s.blds[h]? = some b)
    (op : LOp) :
    ∃ b', (s.step E (.on h op)).1.blds[h]? = some b' ∧
      b'.view (s.step E (.on h op)).1.heap = ((b.view s.heap).step E s.bodies (largOf s.heap op) op).2.1 ∧
      (s.step E (.on h op)).1.bodies = ((b.view s.heap).step E s.bodies (largOf s.heap op) op).1 ∧
      (s.step E (.on h op)).2 = ((b.view s.heap).step E s.bodies (largOf s.heap op) op).2.2 := by
  obtain ⟨om, oa, σ, R⟩ := hs.rel hE
  obtain ⟨om, oa, R, hf⟩ := R.reserve (.bld h)
  rcases R.bld h with ⟨h1, _⟩ | ⟨b', sb, h1, h2, r⟩
  · rw [h1] at hb; cases hb
  · rw [h1] at hb; cases hb
    have := lstep_sim hE R.wf hf s.bodies r op
    rw [r.view] at this
    have hlt : h < s.blds.length := (List.getElem?_eq_some_iff.1 h1).1
    simp only [BState.step, h1]
    exact ⟨_, by simp [hlt], this.2.2.1.view.symm, this.2.1, this.2.2.2⟩

/-! ## C29, C30: nothing is shared -/

/-- **C29 (as values).**  In every sequence of legal events — calls on any number of Builders and Responses, edits through
`Headers()`, mutations by other code of its own maps and arrays in between — every result is as if headers were values:
`WithHeaders` takes the contents of the map at the time of the call, `Copy` the contents of the Builder at that time, and a
later change anywhere else is not seen. -/
theorem C29_as_values {E : BEnv B} (hE : NoShared E) (X : B) (ops : List BOp) (hl : ∀ op ∈ ops, op.legal) :
    Explains E { bodies := X } (BState.trace E { bodies := X } ops) :=
  (bld_run_sim hE ops (rel_init X) hl).1

/-- The event is a call on Builder `h` that may change it. -/
def BOp.touches (h : Nat) : BOp → Prop
  | .on h' _ => h' = h
  | .build h' => h' = h
  | _ => False

theorem step_untouched (E : BEnv B) (s : BState B) {h : Nat} {b : Bld} (hb : s.blds[h]? = some b) {op : BOp} (ht : ¬ op.touches h) :
    (s.step E op).1.blds[h]? = some b := by
  have hlt : h < s.blds.length := (List.getElem?_eq_some_iff.1 hb).1
  cases op with
  | on h' op =>
    simp only [BOp.touches] at ht
    simp only [BState.step]
    cases s.blds[h']? with
    | none => exact hb
    | some b' => simp [List.getElem?_set, ht, hb]
  | build h' =>
    simp only [BOp.touches] at ht
    simp only [BState.step]
    cases s.blds[h']? with
    | none => exact hb
    | some b' =>
      simp only
      cases b'.build E.store s.heap s.bodies with
      | none => exact hb
      | some v => simp [List.getElem?_set, ht, hb]
  | new => simp only [BState.step]; rw [List.getElem?_append_left hlt]; exact hb
  | copy h' =>
    simp only [BState.step]
    repeat' split
    all_goals first | exact hb | (simp only; rw [List.getElem?_append_left hlt]; exact hb)
  | _ => simp only [BState.step]; (repeat' split); all_goals exact hb

theorem sstep_untouched (E : BEnv B) (s : SState B) (arg : Hdrs) {h : Nat} {b : SBld} (hb : s.blds[h]? = some b) {op : BOp}
    (ht : ¬ op.touches h) : (s.step E arg op).1.blds[h]? = some b := by
  have hlt : h < s.blds.length := (List.getElem?_eq_some_iff.1 hb).1
  cases op with
  | on h' op =>
    simp only [BOp.touches] at ht
    simp only [SState.step]
    cases s.blds[h']? with
    | none => exact hb
    | some b' => simp [List.getElem?_set, ht, hb]
  | build h' =>
    simp only [BOp.touches] at ht
    simp only [SState.step]
    cases s.blds[h']? with
    | none => exact hb
    | some b' =>
      simp only
      cases b'.body with
      | none => exact hb
      | some v => simp [List.getElem?_set, ht, hb]
  | new => simp only [SState.step]; rw [List.getElem?_append_left hlt]; exact hb
  | copy h' =>
    simp only [SState.step]
    repeat' split
    all_goals first | exact hb | (simp only; rw [List.getElem?_append_left hlt]; exact hb)
  | _ => simp only [SState.step]; (repeat' split); all_goals exact hb

/-- **C29 (unaffected).**  What a Builder holds is not changed by anything but calls on this Builder: not by calls on other
Builders (such as a copy of it or the one it is a copy of) or on Responses, not by other code changing its maps and slices
(such as the map once given to `WithHeaders`). -/
theorem C29_unaffected {E : BEnv B} (hE : NoShared E) (h : Nat) (ops : List BOp) : ∀ {s : BState B} {b : Bld}, Reached E s →
    s.blds[h]? = some b → (∀ op ∈ ops, op.legal ∧ ¬ op.touches h) →
    (s.after E ops).blds[h]? = some b ∧ b.view (s.after E ops).heap = b.view s.heap := by
  induction ops with
  | nil => intro s b _ hb _; exact ⟨hb, rfl⟩
  | cons op ops ih =>
    intro s b hs hb hl
    obtain ⟨hop, ht⟩ := hl op (List.mem_cons_self ..)
    have h1 := step_untouched E s hb ht
    have h2 := ih (hs.step hop) h1 fun o ho => hl o (List.mem_cons_of_mem _ ho)
    refine ⟨h2.1, h2.2.trans ?_⟩
    obtain ⟨om, oa, σ, R⟩ := hs.rel hE
    rcases R.bld h with ⟨h3, _⟩ | ⟨b', sb, h3, h4, r⟩
    · rw [h3] at hb; cases hb
    · rw [h3] at hb; cases hb
      obtain ⟨_, om', oa', R'⟩ := step_sim hE R hop
      have h5 := sstep_untouched E σ (argOf s.heap op) h4 ht
      have r' := R'.blds h _ _ h1 h5
      rw [← r.view, ← r'.view]

/-- **C29 (`WithHeaders`).**  The Builder then holds what the map contained at the time of the call. -/
theorem C29_withHeaders {E : BEnv B} (hE : NoShared E) {s : BState B} (hs : Reached E s) {h : Nat} {b : Bld}
    (hb : s.blds[h]? = some b) (m : Option Ref) :
    ∃ b', (s.step E (.on h (.withHeaders m))).1.blds[h]? = some b' ∧
      (s.step E (.on h (.withHeaders m))).1.heap.lookup b'.hdrs = s.heap.lookup m := by
  obtain ⟨b', h1, h2, _⟩ := on_step hE hs hb (.withHeaders m)
  exact ⟨b', h1, congrArg SBld.hdrs h2⟩

/-- **C29 (`Copy`).**  The copy holds what the Builder holds at the time of the call (with a copy of the Body). -/
theorem C29_copy {E : BEnv B} (hE : NoShared E) {s : BState B} (hs : Reached E s) {h : Nat} {b : Bld}
    (hb : s.blds[h]? = some b) {n : Nat} (ho : (s.step E (.copy h)).2 = .made n) :
    ∃ b', (s.step E (.copy h)).1.blds[n]? = some b' ∧ n = s.blds.length ∧
      ∃ body, b'.view (s.step E (.copy h)).1.heap = { b.view s.heap with body } ∧
        (copied E.store s.bodies b.body).2 = .ret (.ok body) := by
  obtain ⟨om, oa, σ, R⟩ := hs.rel hE
  obtain ⟨om, oa, R, hf⟩ := R.reserve (.bld s.blds.length)
  simp only [BState.step, hb, copyBody_eq] at ho ⊢
  rcases hq : copied E.store s.bodies b.body with ⟨X, o⟩
  rw [hq] at ho
  cases o with
  | panic p => cases ho
  | hang => cases ho
  | ret v =>
    cases v with
    | error e => cases ho
    | ok body =>
      simp only [BOut.made.injEq] at ho
      have hc := copyHeaders_spec (om := om) (oa := oa) R.wf hf b.hdrs
      exact ⟨_, by rw [← ho]; simp; rfl, ho.symm, body, by simp [Bld.view, hc.2.lookup], rfl⟩

/-- **C29 (vice versa).**  No call on Builders or Responses changes a map or array of other code. -/
theorem C29_others_unchanged {E : BEnv B} (hE : NoShared E) {s : BState B} (hs : Reached E s) {op : BOp} (hop : op.legal)
    (hne : ∀ m, op ≠ .ext m) (r : Nat) :
    (s.step E op).1.heap.map (.ext r) = s.heap.map (.ext r) ∧ (s.step E op).1.heap.arr (.ext r) = s.heap.arr (.ext r) := by
  obtain ⟨om, oa, σ, R⟩ := hs.rel hE
  have := step_ext hE R hop hne
  simp [Heap.map, Heap.arr, this.1, this.2]

theorem step_rsps (E : BEnv B) (s : BState B) {j : Nat} {r : Rsp} (hr : s.rsps[j]? = some r) (op : BOp) :
    (s.step E op).1.rsps[j]? = some r := by
  have hlt : j < s.rsps.length := (List.getElem?_eq_some_iff.1 hr).1
  cases op <;> simp only [BState.step] <;> repeat' split
  all_goals first | exact hr | (simp only; rw [List.getElem?_append_left hlt]; exact hr)

theorem sstep_rsps (E : BEnv B) (s : SState B) (arg : Hdrs) {j : Nat} {r : SRsp} (hr : s.rsps[j]? = some r) (op : BOp) :
    (s.step E arg op).1.rsps[j]? = some r := by
  have hlt : j < s.rsps.length := (List.getElem?_eq_some_iff.1 hr).1
  cases op <;> simp only [SState.step] <;> repeat' split
  all_goals first | exact hr | (simp only; rw [List.getElem?_append_left hlt]; exact hr)

/-- **C30.**  Nothing that is legal changes a Response: not the later use of the Builder that built it, nor anything else. -/
theorem C30_isolated {E : BEnv B} (hE : NoShared E) (j : Nat) (ops : List BOp) : ∀ {s : BState B} {r : Rsp}, Reached E s →
    s.rsps[j]? = some r → (∀ op ∈ ops, op.legal) →
    (s.after E ops).rsps[j]? = some r ∧ (s.after E ops).heap.lookup r.hdrs = s.heap.lookup r.hdrs := by
  induction ops with
  | nil => intro s b _ hb _; exact ⟨hb, rfl⟩
  | cons op ops ih =>
    intro s r hs hr hl
    have hop := hl op (List.mem_cons_self ..)
    have h1 := step_rsps E s hr op
    have h2 := ih (hs.step hop) h1 fun o ho => hl o (List.mem_cons_of_mem _ ho)
    refine ⟨h2.1, h2.2.trans ?_⟩
    obtain ⟨om, oa, σ, R⟩ := hs.rel hE
    rcases R.rsp j with ⟨h3, _⟩ | ⟨b', sb, h3, h4, r⟩
    · rw [h3] at hr; cases hr
    · rw [h3] at hr; cases hr
      obtain ⟨_, om', oa', R'⟩ := step_sim hE R hop
      have h5 := sstep_rsps E σ (argOf s.heap op) h4 op
      have r' := R'.rsps j _ _ h1 h5
      rw [r.hdrs.lookup, ← r'.hdrs.lookup]

/-! ## C26: the status -/

theorem set_same {α : Type} {l : List α} {h : Nat} {a : α} (e : l[h]? = some a) : l.set h a = l := by
  apply List.ext_getElem?
  intro i
  rw [List.getElem?_set]
  split
  · rename_i hi
    subst hi
    split
    · exact e.symm
    · rename_i hlt; simp at hlt; rw [List.getElem?_eq_none hlt] at e; cases e
  · rfl

/-- The status after a call, and what the observer notes. -/
theorem lstep_code (E : BEnv B) (H : Heap) (X : B) (b : Bld) (h : Nat) (op : LOp) (arg : Hdrs) (l : List (Option Int))
    {o : Option Int} (hl : l[h]? = some o) (ho : o.getD 0 = b.code) :
    (noteStatus l (arg, .on h op, (b.step E H X op).2.2.2)).map (·.getD 0) =
      (l.map (·.getD 0)).set h (b.step E H X op).2.2.1.code := by
  have same : l.map (·.getD 0) = (l.map (·.getD 0)).set h b.code := by
    rw [set_same]
    simp [hl, ho]
  have mapset : ∀ c, (l.set h (some c)).map (·.getD 0) = (l.map (·.getD 0)).set h c := by intro c; simp [List.map_set]
  have hset : ∀ H b name v, (Bld.set H b name v).2.code = b.code := by
    intro H b name v; simp only [Bld.set, Bld.headers]; split <;> rfl
  have hadd : ∀ H b name v, (Bld.add E.spare H b name v).2.code = b.code := by
    intro H b name v; simp only [Bld.add, Bld.headers]; split <;> rfl
  have hhdr : ∀ H b, (Bld.headers H b).2.1.code = b.code := by
    intro H b; simp only [Bld.headers]; split <;> rfl
  have hmade : ∀ H b m c, (Bld.made H b m c).2.1.code = b.code := by
    intro H b m c; unfold Bld.made; split
    · rfl
    · rfl
    · exact hset H _ (lit "Content-Type") c
  cases op with
  | withStatus c =>
    simp only [Bld.step]
    split
    · exact same
    · split
      · exact same
      · exact mapset c
  | redirectPage c loc =>
    simp only [Bld.step]
    split
    · exact same
    · split
      · exact same
      · split
        · exact same
        · split
          · exact same
          · exact same
          · refine (mapset c).trans ?_
            simp only [Bld.page]; split <;> rfl
  | errorPage c e =>
    simp only [Bld.step]
    split
    · exact same
    · split
      · exact same
      · split
        · exact same
        · split
          · exact same
          · exact same
          · refine (mapset c).trans ?_
            simp only [Bld.page]; split <;> rfl
  | headers => simp only [noteStatus, Bld.step, hhdr]; exact same
  | withPageGenerator g => simp only [noteStatus, Bld.step]; split <;> exact same
  | withHeader n v a =>
    simp only [noteStatus, Bld.step]; split
    · exact same
    · cases a
      · simp only [Bool.false_eq_true, if_false, hset]; exact same
      · simp only [if_true, hadd]; exact same
  | withoutHeader n => simp only [noteStatus, Bld.step]; split; exact same; simp only [hhdr]; exact same
  | withContentType str =>
    simp only [noteStatus, Bld.step]; split
    · exact same
    · exact same
    · simp only [hset]; exact same
  | withContentLanguage str => simp only [noteStatus, Bld.step, hset]; exact same
  | withContentEncoding str => simp only [noteStatus, Bld.step, hset]; exact same
  | withETag t s => simp only [noteStatus, Bld.step, hset]; exact same
  | withDigest a d =>
    simp only [noteStatus, Bld.step]; split
    · exact same
    · split
      · exact same
      · simp only [hadd]; exact same
  | withBody i => simp only [noteStatus, Bld.step]; split <;> exact same
  | withJSON m => simp only [noteStatus, Bld.step, hmade]; exact same
  | withPrettyJSON m => simp only [noteStatus, Bld.step, hmade]; exact same
  | withProto m => simp only [noteStatus, Bld.step, hmade]; exact same
  | withProtoText m => simp only [noteStatus, Bld.step, hmade]; exact same
  | put k v => simp only [noteStatus, Bld.step, hhdr]; exact same
  | del k => simp only [noteStatus, Bld.step, hhdr]; exact same
  | elem k i v =>
    simp only [noteStatus, Bld.step]; split
    · simp only [hhdr]; exact same
    · split <;> (simp only [hhdr]; exact same)
  | _ => exact same

theorem note_step (E : BEnv B) (s : BState B) (op : BOp) {l : List (Option Int)} (hl : s.blds.map Bld.code = l.map (·.getD 0)) :
    (s.step E op).1.blds.map Bld.code = (noteStatus l (argOf s.heap op, op, (s.step E op).2)).map (·.getD 0) := by
  have hget : ∀ {h : Nat} {b : Bld}, s.blds[h]? = some b → ∃ o, l[h]? = some o ∧ o.getD 0 = b.code := by
    intro h b hb
    have : (l.map (·.getD 0))[h]? = some b.code := by rw [← hl]; simp [hb]
    rw [List.getElem?_map, Option.map_eq_some_iff] at this
    exact this
  cases op with
  | new => simp [BState.step, noteStatus, hl]
  | on h op =>
    simp only [BState.step]
    cases hb : s.blds[h]? with
    | none =>
      simp only
      have : ∀ p, noteStatus l (argOf s.heap (.on h op), .on h op, .panic p) = l := by intro p; cases op <;> rfl
      rw [this]; exact hl
    | some b =>
      obtain ⟨o, h1, h2⟩ := hget hb
      simp only
      rw [lstep_code E s.heap s.bodies b h op _ l h1 h2, List.map_set, hl]
  | copy h =>
    simp only [BState.step]
    cases hb : s.blds[h]? with
    | none => exact hl
    | some b =>
      obtain ⟨o, h1, h2⟩ := hget hb
      simp only
      split
      · exact hl
      · exact hl
      · exact hl
      · simp [noteStatus, hl, h1, h2]
  | build h =>
    simp only [BState.step]
    cases hb : s.blds[h]? with
    | none => exact hl
    | some b =>
      simp only
      cases hq : b.build E.store s.heap s.bodies with
      | none => exact hl
      | some v =>
        obtain ⟨H', b', r⟩ := v
        have : b'.code = 0 := by
          simp only [Bld.build] at hq
          split at hq
          · cases hq
          · simp only [Option.some.injEq, Prod.mk.injEq] at hq
            rw [← hq.2.1]
        simp [noteStatus, List.map_set, this, hl]
  | ext m => exact hl
  | poke r k v => exact hl
  | _ => simp only [BState.step]; (repeat' split); all_goals exact hl

/-- **C26 (last set).**  The status of a Builder is the one last set on it (by `WithStatus`, `RedirectPage` or `ErrorPage`, in a
call that returned) since it was made or last used to build; a copy starts with the status of the original. -/
theorem C26_last_set (E : BEnv B) (X : B) (ops : List BOp) :
    (BState.after E { bodies := X } ops).blds.map Bld.code =
      (lastStatus (BState.trace E { bodies := X } ops)).map (·.getD 0) := by
  suffices H : ∀ (ops : List BOp) (s : BState B) (l : List (Option Int)), s.blds.map Bld.code = l.map (·.getD 0) →
      (s.after E ops).blds.map Bld.code = ((s.trace E ops).foldl noteStatus l).map (·.getD 0) from H ops _ _ rfl
  intro ops
  induction ops with
  | nil => intro s l h; exact h
  | cons op ops ih => intro s l h; exact ih _ _ (note_step E s op h)

/-- **C26 (built).**  A Response has the status of the Builder, or 200 if none was set. -/
theorem C26_built (E : BEnv B) (s : BState B) {h j : Nat} (ho : (s.step E (.build h)).2 = .made j) :
    ∃ b r, s.blds[h]? = some b ∧ (s.step E (.build h)).1.rsps[j]? = some r ∧ r.code = if b.code = 0 then 200 else b.code := by
  simp only [BState.step] at ho ⊢
  cases hb : s.blds[h]? with
  | none => rw [hb] at ho; cases ho
  | some b =>
    rw [hb] at ho
    simp only at ho ⊢
    cases hq : b.build E.store s.heap s.bodies with
    | none => rw [hq] at ho; cases ho
    | some v =>
      obtain ⟨H', b', r⟩ := v
      rw [hq] at ho
      simp only [BOut.made.injEq] at ho
      subst ho
      refine ⟨b, r, rfl, by simp, ?_⟩
      simp only [Bld.build] at hq
      split at hq
      · cases hq
      · simp only [Option.some.injEq, Prod.mk.injEq] at hq
        rw [← hq.2.2]

/-- A status that may be set. -/
def StatusOk (c : Int) : Prop := 200 ≤ c ∧ c ≤ 999

theorem note_ok (E : BEnv B) (s : BState B) (op : BOp) {l : List (Option Int)} (hl : ∀ c, some c ∈ l → StatusOk c) :
    ∀ c, some c ∈ noteStatus l (argOf s.heap op, op, (s.step E op).2) → StatusOk c := by
  have hset : ∀ {h : Nat} {c' : Int}, StatusOk c' → ∀ c, some c ∈ l.set h (some c') → StatusOk c := by
    intro h c' hc c hm
    rcases List.mem_or_eq_of_mem_set hm with hm | hm
    · exact hl c hm
    · cases hm; exact hc
  intro c
  cases op with
  | new =>
    intro hm
    simp only [BState.step, noteStatus, List.mem_append, List.mem_singleton] at hm
    rcases hm with hm | hm
    · exact hl c hm
    · cases hm
  | copy h =>
    simp only [BState.step]
    repeat' split
    all_goals intro hm
    all_goals first | exact hl c hm | skip
    simp only [noteStatus, List.mem_append, List.mem_singleton] at hm
    rcases hm with hm | hm
    · exact hl c hm
    · cases hq : l[h]? with
      | none => rw [hq] at hm; cases hm
      | some o =>
        rw [hq] at hm
        simp only [Option.join_some] at hm
        exact hl c (by rw [hm]; exact List.mem_of_getElem? hq)
  | build h =>
    simp only [BState.step]
    repeat' split
    all_goals intro hm
    all_goals first | exact hl c hm | skip
    simp only [noteStatus] at hm
    rcases List.mem_or_eq_of_mem_set hm with hm | hm
    · exact hl c hm
    · cases hm
  | on h op =>
    simp only [BState.step]
    cases s.blds[h]? with
    | none =>
      simp only
      have : ∀ p, noteStatus l (argOf s.heap (.on h op), .on h op, .panic p) = l := by intro p; cases op <;> rfl
      rw [this]; exact hl c
    | some b =>
      simp only
      cases op with
      | withStatus c' =>
        simp only [Bld.step]
        split
        · exact hl c
        · split
          · exact hl c
          · exact hset ⟨by omega, by omega⟩ c
      | redirectPage c' loc =>
        simp only [Bld.step]
        split
        · exact hl c
        · split
          · exact hl c
          · split
            · exact hl c
            · split
              · exact hl c
              · exact hl c
              · exact hset ⟨by omega, by omega⟩ c
      | errorPage c' e =>
        simp only [Bld.step]
        split
        · exact hl c
        · split
          · exact hl c
          · split
            · exact hl c
            · split
              · exact hl c
              · exact hl c
              · exact hset ⟨by omega, by omega⟩ c
      | _ => exact hl c
  | _ => exact hl c

/-- **C26 (range).**  Every Response has a status between 200 and 999, whatever happens. -/
theorem C26_range (E : BEnv B) (X : B) (ops : List BOp) {j : Nat} {r : Rsp}
    (hr : (BState.after E { bodies := X } ops).rsps[j]? = some r) : 200 ≤ r.code ∧ r.code ≤ 999 := by
  suffices H : ∀ (ops : List BOp) (s : BState B) (l : List (Option Int)), s.blds.map Bld.code = l.map (·.getD 0) →
      (∀ c, some c ∈ l → StatusOk c) → (∀ r ∈ s.rsps, StatusOk r.code) → ∀ r ∈ (s.after E ops).rsps, StatusOk r.code from
    H ops _ [] rfl (by simp) (by simp) r (List.mem_of_getElem? hr)
  intro ops
  induction ops with
  | nil => intro s l _ _ h; exact h
  | cons op ops ih =>
    intro s l h1 h2 h3
    refine ih _ _ (note_step E s op h1) (note_ok E s op h2) ?_
    cases op with
    | build h =>
      intro r hr
      obtain ⟨i, hi⟩ := List.mem_iff_getElem?.1 hr
      by_cases hlt : i < s.rsps.length
      · have := step_rsps E s (r := s.rsps[i]) (j := i) (by simp [hlt]) (.build h)
        rw [hi] at this
        cases this
        exact h3 _ (List.getElem_mem _)
      · cases ho : (s.step E (.build h)).2 with
        | made j =>
          obtain ⟨b, r', hb, hr', hc⟩ := C26_built E s ho
          have hj : j = s.rsps.length ∧ (s.step E (.build h)).1.rsps.length = s.rsps.length + 1 := by
            simp only [BState.step, hb] at ho ⊢
            cases hq : b.build E.store s.heap s.bodies with
            | none => rw [hq] at ho; cases ho
            | some v => rw [hq] at ho; cases ho; simp
          have : i = j := by
            have := (List.getElem?_eq_some_iff.1 hi).1
            omega
          subst this
          rw [hi] at hr'
          cases hr'
          rw [hc]
          have : (l.map (·.getD 0))[h]? = some b.code := by rw [← h1]; simp [hb]
          rw [List.getElem?_map, Option.map_eq_some_iff] at this
          obtain ⟨o, ho1, ho2⟩ := this
          split
          · exact ⟨by omega, by omega⟩
          · rename_i hne
            cases o with
            | none => simp at ho2; exact absurd ho2.symm hne
            | some c =>
              simp at ho2
              rw [← ho2]
              exact h2 c (List.mem_of_getElem? ho1)
        | _ =>
          exfalso
          apply hlt
          have hi' := (List.getElem?_eq_some_iff.1 hi).1
          simp only [BState.step] at ho hi'
          cases hb : s.blds[h]? with
          | none => rw [hb] at hi'; exact hi'
          | some b =>
            rw [hb] at hi' ho
            simp only at hi' ho
            cases hq : b.build E.store s.heap s.bodies with
            | none => rw [hq] at hi'; exact hi'
            | some v => rw [hq] at ho; cases ho
    | respCopy j =>
      simp only [BState.step]
      repeat' split
      all_goals first | exact h3 | skip
      rename_i r hr _ _ _ _
      intro r' hr'
      rcases List.mem_append.1 hr' with hr' | hr'
      · exact h3 r' hr'
      · rw [List.mem_singleton.1 hr']
        exact h3 r (List.mem_of_getElem? hr)
    | _ => simp only [BState.step]; (repeat' split); all_goals exact h3

/-- **C26 (rejected).**  A status out of range panics and changes nothing. -/
theorem C26_rejected (E : BEnv B) (s : BState B) {h : Nat} {b : Bld} (hb : s.blds[h]? = some b) (c : Int) :
    (¬ StatusOk c → s.step E (.on h (.withStatus c)) = (s, .panic .badArg)) ∧
    (∀ e, ¬ StatusOk c → s.step E (.on h (.errorPage c e)) = (s, .panic .badArg)) ∧
    (∀ l, ¬ (300 ≤ c ∧ c ≤ 399) → s.step E (.on h (.redirectPage c l)) = (s, .panic .badArg)) := by
  have same : ∀ o : BOut, ({ s with blds := s.blds.set h b }, o) = (s, o) := by
    intro o
    rw [set_same hb]
  refine ⟨fun hc => ?_, fun e hc => ?_, fun l hc => ?_⟩
  · simp only [BState.step, hb, Bld.step]
    unfold StatusOk at hc
    by_cases h1 : c ≥ 200
    · rw [if_neg (by omega), if_pos (by omega)]; exact same _
    · rw [if_pos h1]; exact same _
  · simp only [BState.step, hb, Bld.step]
    unfold StatusOk at hc
    by_cases h1 : c ≥ 200
    · rw [if_neg (by omega), if_pos (by omega)]; exact same _
    · rw [if_pos h1]; exact same _
  · simp only [BState.step, hb, Bld.step]
    by_cases h1 : c ≥ 300
    · rw [if_neg (by omega), if_pos (by omega)]; exact same _
    · rw [if_pos h1]; exact same _

/-! ## C27, C28: `Build` -/

/-- What `Build` does. -/
theorem build_step {E : BEnv B} (hE : NoShared E) {s : BState B} (hs : Reached E s) {h : Nat} {b : Bld} (hb : s.blds[h]? = some b)
    {i : Nat} (hi : b.body = some i) :
    ∃ H' r, s.step E (.build h) = ({ s with heap := H', blds := s.blds.set h { gen := b.gen }, rsps := s.rsps ++ [r] }, .made s.rsps.length) ∧
      r.code = (if b.code = 0 then 200 else b.code) ∧ r.body = b.body ∧ r.err = b.err ∧
      H'.lookup r.hdrs = Hdrs.filled (s.heap.lookup b.hdrs) (E.store.remaining s.bodies i) := by
  obtain ⟨om, oa, σ, R⟩ := hs.rel hE
  obtain ⟨om, oa, R, hf⟩ := R.reserve (.bld h)
  rcases R.bld h with ⟨h1, _⟩ | ⟨b', sb, h1, h2, r⟩
  · rw [h1] at hb; cases hb
  · rw [h1] at hb; cases hb
    obtain ⟨H', m, e, u, hh⟩ := build_sim E.store R.wf hf s.bodies r hi
    refine ⟨H', { code := if b.code = 0 then 200 else b.code, hdrs := some (.own m), body := some i, err := b.err },
      by simp only [BState.step, h1, e], rfl, hi.symm, rfl, ?_⟩
    rw [r.hdrs.lookup]
    exact hh.lookup

/-- **C27.**  The headers of a built Response: those of the Builder are unchanged; `Content-Type` is added if there was none;
`Content-Length`, the decimal number of bytes remaining, is added if there was none and the number is known; nothing else. -/
theorem C27_headers {E : BEnv B} (hE : NoShared E) {s : BState B} (hs : Reached E s) {h : Nat} {b : Bld} (hb : s.blds[h]? = some b)
    {i : Nat} (hi : b.body = some i) :
    ∃ s' r, s.step E (.build h) = (s', .made s.rsps.length) ∧ s'.rsps[s.rsps.length]? = some r ∧
      let old := s.heap.lookup b.hdrs
      let new := s'.heap.lookup r.hdrs
      let n := E.store.remaining s.bodies i
      (∀ k v, old k = some v → new k = some v) ∧
      (old (lit "Content-Type") = none → new (lit "Content-Type") = some [lit "application/octet-stream"]) ∧
      (old (lit "Content-Length") = none → 0 ≤ n → ∃ v, new (lit "Content-Length") = some [v] ∧ decimal v = some n) ∧
      (old (lit "Content-Length") = none → n < 0 → new (lit "Content-Length") = none) ∧
      (∀ k, k ≠ lit "Content-Type" → k ≠ lit "Content-Length" → new k = old k) := by
  obtain ⟨H', r, h1, _, _, _, h2⟩ := build_step hE hs hb hi
  have hne : lit "Content-Length" ≠ lit "Content-Type" := by decide +kernel
  refine ⟨_, r, h1, by simp, ?_⟩
  simp only
  rw [h2]
  refine ⟨?_, ?_, ?_, ?_, ?_⟩
  · intro k v hk; simp [Hdrs.filled, hk]
  · intro hk; simp [Hdrs.filled, hk]
  · intro hk hn
    exact ⟨itoa (E.store.remaining s.bodies i), by simp [Hdrs.filled, hk, hne, hn], decimal_itoa _⟩
  · intro hk hn
    simp only [Hdrs.filled, hk]
    rw [if_neg hne, if_neg (by omega)]
  · intro k hk1 hk2
    simp only [Hdrs.filled]
    cases s.heap.lookup b.hdrs k <;> simp [hk1, hk2]

/-- **C28.**  `Build` hands over everything, and leaves the Builder like a new one, except for its PageGenerator; other Builders
and Responses stay as they are. -/
theorem C28_reset {E : BEnv B} (hE : NoShared E) {s : BState B} (hs : Reached E s) {h : Nat} {b : Bld} (hb : s.blds[h]? = some b)
    (hi : b.body ≠ none) :
    ∃ s' r, s.step E (.build h) = (s', .made s.rsps.length) ∧ s'.rsps = s.rsps ++ [r] ∧
      s'.blds = s.blds.set h { gen := b.gen } ∧ s'.bodies = s.bodies ∧ r.body = b.body ∧ r.err = b.err := by
  cases hq : b.body with
  | none => exact absurd hq hi
  | some i =>
    obtain ⟨H', r, h1, _, h3, h4, _⟩ := build_step hE hs hb hq
    exact ⟨_, r, h1, rfl, rfl, rfl, h3.trans hq, h4⟩

/-- **C28 (no body).**  `Build` without a Body panics and changes nothing. -/
theorem C28_no_body (E : BEnv B) (s : BState B) {h : Nat} {b : Bld} (hb : s.blds[h]? = some b) (hi : b.body = none) :
    s.step E (.build h) = (s, .panic .badArg) := by
  simp [BState.step, hb, Bld.build, hi]

/-! ## C31: header edits -/

/-- **C31 (set).** -/
theorem C31_set {E : BEnv B} (hE : NoShared E) {s : BState B} (hs : Reached E s) {h : Nat} {b : Bld} (hb : s.blds[h]? = some b)
    (name value : GoStr) (hn : name ≠ []) :
    ∃ b', (s.step E (.on h (.withHeader name value false))).1.blds[h]? = some b' ∧
      let old := s.heap.lookup b.hdrs
      let new := (s.step E (.on h (.withHeader name value false))).1.heap.lookup b'.hdrs
      new (canon name) = some [value] ∧ ∀ k, k ≠ canon name → new k = old k := by
  obtain ⟨b', h1, h2, _⟩ := on_step hE hs hb (.withHeader name value false)
  refine ⟨b', h1, ?_⟩
  have h3 := congrArg SBld.hdrs h2
  simp only [Bld.view, SBld.step, if_neg hn, SBld.set] at h3
  simp only [h3]
  exact ⟨by simp [Hdrs.with], fun k hk => by simp [Hdrs.with, hk]⟩

/-- **C31 (append).** -/
theorem C31_append {E : BEnv B} (hE : NoShared E) {s : BState B} (hs : Reached E s) {h : Nat} {b : Bld} (hb : s.blds[h]? = some b)
    (name value : GoStr) (hn : name ≠ []) :
    ∃ b', (s.step E (.on h (.withHeader name value true))).1.blds[h]? = some b' ∧
      let old := s.heap.lookup b.hdrs
      let new := (s.step E (.on h (.withHeader name value true))).1.heap.lookup b'.hdrs
      new (canon name) = some ((old (canon name)).getD [] ++ [value]) ∧ ∀ k, k ≠ canon name → new k = old k := by
  obtain ⟨b', h1, h2, _⟩ := on_step hE hs hb (.withHeader name value true)
  refine ⟨b', h1, ?_⟩
  have h3 := congrArg SBld.hdrs h2
  simp only [Bld.view, SBld.step, if_neg hn, SBld.add] at h3
  simp only [h3]
  exact ⟨by simp [Hdrs.with], fun k hk => by simp [Hdrs.with, hk]⟩

/-- **C31 (remove).** -/
theorem C31_remove {E : BEnv B} (hE : NoShared E) {s : BState B} (hs : Reached E s) {h : Nat} {b : Bld} (hb : s.blds[h]? = some b)
    (name : GoStr) (hn : name ≠ []) :
    ∃ b', (s.step E (.on h (.withoutHeader name))).1.blds[h]? = some b' ∧
      let old := s.heap.lookup b.hdrs
      let new := (s.step E (.on h (.withoutHeader name))).1.heap.lookup b'.hdrs
      new (canon name) = none ∧ ∀ k, k ≠ canon name → new k = old k := by
  obtain ⟨b', h1, h2, _⟩ := on_step hE hs hb (.withoutHeader name)
  refine ⟨b', h1, ?_⟩
  have h3 := congrArg SBld.hdrs h2
  simp only [Bld.view, SBld.step, if_neg hn] at h3
  simp only [h3]
  exact ⟨by simp [Hdrs.with], fun k hk => by simp [Hdrs.with, hk]⟩

/-- Nothing but the headers changes in the edits. -/
def SBld.SameButHdrs (b b' : SBld) : Prop := b'.gen = b.gen ∧ b'.code = b.code ∧ b'.body = b.body ∧ b'.err = b.err

/-- **C31 (nothing else).** -/
theorem C31_nothing_else {E : BEnv B} (hE : NoShared E) {s : BState B} (hs : Reached E s) {h : Nat} {b : Bld}
    (hb : s.blds[h]? = some b) (op : LOp)
    (hop : (∃ n v a, op = .withHeader n v a) ∨ (∃ n, op = .withoutHeader n) ∨ (∃ v, op = .withContentType v) ∨
      (∃ v, op = .withContentLanguage v) ∨ (∃ v, op = .withContentEncoding v) ∨ (∃ t s, op = .withETag t s) ∨ (∃ a d, op = .withDigest a d)) :
    ∃ b', (s.step E (.on h op)).1.blds[h]? = some b' ∧ SBld.SameButHdrs (b.view s.heap) (b'.view (s.step E (.on h op)).1.heap) := by
  obtain ⟨b', h1, h2, _⟩ := on_step hE hs hb op
  refine ⟨b', h1, ?_⟩
  rw [h2]
  rcases hop with ⟨n, v, a, rfl⟩ | ⟨n, rfl⟩ | ⟨v, rfl⟩ | ⟨v, rfl⟩ | ⟨v, rfl⟩ | ⟨t, s, rfl⟩ | ⟨a, d, rfl⟩ <;>
    simp only [SBld.step, SBld.SameButHdrs]
  · split
    · simp
    · cases a <;> simp [SBld.set, SBld.add]
  · split <;> simp
  · split <;> simp [SBld.set]
  · simp [SBld.set]
  · simp [SBld.set]
  · simp [SBld.set]
  · split <;> simp [SBld.add]

/-- **C31 (empty name).**  An empty name panics and changes nothing. -/
theorem C31_empty_name (E : BEnv B) (s : BState B) {h : Nat} {b : Bld} (hb : s.blds[h]? = some b) (v : GoStr) (a : Bool) :
    s.step E (.on h (.withHeader [] v a)) = (s, .panic .badArg) ∧ s.step E (.on h (.withoutHeader [])) = (s, .panic .badArg) := by
  have e := set_same hb
  simp [BState.step, hb, Bld.step, e]

/-- **C31 (names).**  Valid names (tokens) that differ in letter case only denote the same header, and valid names that differ
otherwise do not; the canonical name is its own canonical name; a name that is not a token is left as it is. -/
theorem C31_names :
    (∀ n n' : GoStr, (∀ c ∈ n, tokenChar c) → (∀ c ∈ n', tokenChar c) → (canon n = canon n' ↔ lower n = lower n')) ∧
    (∀ n, canon (canon n) = canon n) ∧ (∀ n, n ≠ [] → canon n ≠ []) ∧ (∀ n, (∃ c ∈ n, ¬ tokenChar c) → canon n = n) := by
  have tok : ∀ n : GoStr, (∀ c ∈ n, tokenChar c) → n.all isToken = true := by
    intro n hn
    rw [List.all_eq_true]
    exact fun c hc => (isToken_iff c).2 (hn c hc)
  refine ⟨fun n n' hn hn' => ⟨fun h => ?_, fun h => canon_of_lower h (tok n hn)⟩, canon_idem, fun n => canon_ne_nil, ?_⟩
  · rw [← lower_canon n, h, lower_canon]
  · intro n ⟨c, hc, ht⟩
    rw [canon_eq, if_neg]
    intro h
    rw [List.all_eq_true] at h
    exact ht ((isToken_iff c).1 (h c hc))

/-- **C31 (`WithContentType`).**  The header gets the value `mime` formats; if there is none the call panics and changes nothing. -/
theorem C31_content_type {E : BEnv B} (hE : NoShared E) {s : BState B} (hs : Reached E s) {h : Nat} {b : Bld} (hb : s.blds[h]? = some b)
    (str : GoStr) :
    (∀ v, E.mime str = some v → v ≠ [] → ∃ b', (s.step E (.on h (.withContentType str))).1.blds[h]? = some b' ∧
      (s.step E (.on h (.withContentType str))).2 = .unit ∧
      let old := s.heap.lookup b.hdrs
      let new := (s.step E (.on h (.withContentType str))).1.heap.lookup b'.hdrs
      new (lit "Content-Type") = some [v] ∧ ∀ k, k ≠ lit "Content-Type" → new k = old k) ∧
    ((E.mime str = none ∨ E.mime str = some []) → s.step E (.on h (.withContentType str)) = (s, .panic (.error (.ext 0)))) := by
  constructor
  · intro v hv hne
    obtain ⟨b', h1, h2, _, h4⟩ := on_step hE hs hb (.withContentType str)
    have h3 := congrArg SBld.hdrs h2
    simp only [Bld.view, SBld.step, hv, Option.getD_some] at h3 h4
    obtain ⟨c, v, rfl⟩ : ∃ c w, v = c :: w := by
      cases v with
      | nil => exact absurd rfl hne
      | cons c w => exact ⟨c, w, rfl⟩
    simp only [SBld.set, canon_ct] at h3 h4
    refine ⟨b', h1, h4, ?_⟩
    simp only [h3]
    exact ⟨by simp [Hdrs.with], fun k hk => by simp [Hdrs.with, hk]⟩
  · intro hm
    have e := set_same hb
    rcases hm with hm | hm <;> simp [BState.step, hb, Bld.step, hm, e]

/-- **C31 (`WithContentLanguage`, `WithContentEncoding`).**  The header gets the value without the spaces around it. -/
theorem C31_content_x {E : BEnv B} (hE : NoShared E) {s : BState B} (hs : Reached E s) {h : Nat} {b : Bld} (hb : s.blds[h]? = some b)
    (str : GoStr) (op : LOp) (name : GoStr)
    (hop : (op = .withContentLanguage str ∧ name = lit "Content-Language") ∨ (op = .withContentEncoding str ∧ name = lit "Content-Encoding")) :
    ∃ b', (s.step E (.on h op)).1.blds[h]? = some b' ∧
      let old := s.heap.lookup b.hdrs
      let new := (s.step E (.on h op)).1.heap.lookup b'.hdrs
      (∃ v, new name = some [v] ∧ Trimmed str v) ∧
      ∀ k, k ≠ name → new k = old k := by
  obtain ⟨b', h1, h2, _⟩ := on_step hE hs hb op
  refine ⟨b', h1, ?_⟩
  have c1 : canon (lit "Content-Language") = lit "Content-Language" := by decide +kernel
  have c2 : canon (lit "Content-Encoding") = lit "Content-Encoding" := by decide +kernel
  have h3 := congrArg SBld.hdrs h2
  rcases hop with ⟨rfl, rfl⟩ | ⟨rfl, rfl⟩ <;> simp only [Bld.view, SBld.step, SBld.set, c1, c2] at h3 <;> simp only [h3]
  all_goals
    exact ⟨⟨trimSpace str, by simp [Hdrs.with], trimmed str⟩, fun k hk => by simp [Hdrs.with, hk]⟩

end Verif
