import Verif.Model.MockConc

/-! # C67: goroutines using one MockReader take turns -/

set_option autoImplicit false

namespace Verif
open Spec

/-! ## Turns -/

section turns
variable {A B C : Type} {ans : Nat → A → B}

/-- Looking at the answers through `f`. -/
def Spec.CallEv.map (f : B → C) : CallEv A B → CallEv A C
  | .call t a => .call t a
  | .ret t a b => .ret t a (f b)

def Spec.Doing.map (f : B → C) : Doing A B → Doing A C
  | .idle => .idle
  | .waiting a => .waiting a
  | .served a b => .served a (f b)

theorem Spec.Turns.map (f : B → C) {taken : List A} {doing : Nat → Doing A B} {tr : List (CallEv A B)} (h : Turns ans taken doing tr) :
    Turns (fun i a => f (ans i a)) taken (fun t => (doing t).map f) (tr.map (CallEv.map f)) := by
  have e : ∀ (doing : Nat → Doing A B) (t : Nat) (d : Doing A B),
      (fun u => if u = t then d.map f else (doing u).map f) = fun u => (if u = t then d else doing u).map f := by
    intro doing t d
    funext u
    split <;> rfl
  induction h with
  | start => exact .start
  | call t a _ hd ih =>
    have := Turns.call (ans := fun i a => f (ans i a)) t a ih (by rw [hd]; rfl)
    rw [show (Doing.waiting a : Doing A C) = (Doing.waiting a : Doing A B).map f from rfl, e] at this
    simpa [CallEv.map] using this
  | @effect taken doing tr t a _ hd ih =>
    have := Turns.effect (ans := fun i a => f (ans i a)) t a ih (by rw [hd]; rfl)
    rw [show (Doing.served a (f (ans taken.length a)) : Doing A C) = (Doing.served a (ans taken.length a) : Doing A B).map f from rfl, e] at this
    exact this
  | ret t a b _ hd ih =>
    have := Turns.ret (ans := fun i a => f (ans i a)) t a (f b) ih (by rw [hd]; rfl)
    rw [show (Doing.idle : Doing A C) = (Doing.idle : Doing A B).map f from rfl, e] at this
    simpa [CallEv.map] using this

/-- The calls that took effect, with their answers. -/
def Spec.answers (ans : Nat → A → B) (taken : List A) : List (A × B) := taken.mapIdx fun i a => (a, ans i a)

theorem answers_append (taken : List A) (a : A) : answers ans (taken ++ [a]) = answers ans taken ++ [(a, ans taken.length a)] := by
  simp [answers, List.mapIdx_append]

/-- Which calls are waiting and which were served, as lists. -/
structure Spec.Turns.Lists (ans : Nat → A → B) (taken : List A) (doing : Nat → Doing A B) (tr : List (CallEv A B)) (P : List (Nat × A))
    (D : List (Nat × A × B)) : Prop where
  waiting : ∀ t a, doing t = .waiting a ↔ (t, a) ∈ P
  served : ∀ t a b, doing t = .served a b ↔ (t, a, b) ∈ D
  nodupP : (P.map (·.1)).Nodup
  nodupD : (D.map (·.1)).Nodup
  made : (made tr).Perm (taken ++ P.map (·.2))
  returned : (returned tr ++ D.map (·.2)).Perm (answers ans taken)

theorem nodup_filter_ne {X : Type} {L : List (Nat × X)} (t : Nat) (h : (L.map (·.1)).Nodup) : ((L.filter (·.1 ≠ t)).map (·.1)).Nodup :=
  (List.Sublist.map _ List.filter_sublist).nodup h

theorem perm_filter_ne {X : Type} {L : List (Nat × X)} {t : Nat} {x : X} (h : (L.map (·.1)).Nodup) (hm : (t, x) ∈ L) :
    L.Perm ((t, x) :: L.filter (·.1 ≠ t)) := by
  induction L with
  | nil => cases hm
  | cons y L ih =>
    rw [List.map_cons, List.nodup_cons] at h
    rcases List.mem_cons.1 hm with rfl | hm
    · have : L.filter (·.1 ≠ t) = L := by
        rw [List.filter_eq_self]
        intro z hz
        simp only [ne_eq, decide_not, Bool.not_eq_eq_eq_not, Bool.not_true, decide_eq_false_iff_not]
        intro hzt
        exact h.1 (List.mem_map.2 ⟨z, hz, hzt⟩)
      rw [List.filter_cons_of_neg (by simp), this]
    · have hy : y.1 ≠ t := fun hyt => h.1 (List.mem_map.2 ⟨_, hm, hyt.symm⟩)
      rw [List.filter_cons_of_pos (by simpa using hy)]
      exact ((ih h.2 hm).cons y).trans (List.Perm.swap _ _ _)

theorem turns_lists {taken : List A} {doing : Nat → Doing A B} {tr : List (CallEv A B)} (h : Turns ans taken doing tr) :
    ∃ P D, Turns.Lists ans taken doing tr P D := by
  induction h with
  | start => exact ⟨[], [], ⟨by simp, by simp, by simp, by simp, by simp [made], by simp [returned, answers]⟩⟩
  | @call taken doing tr t a _ hd ih =>
    obtain ⟨P, D, h1, h2, h3, h4, h5, h6⟩ := ih
    have hP : ∀ x, (t, x) ∉ P := fun x hx => by rw [← h1, hd] at hx; cases hx
    have hD : ∀ x y, (t, x, y) ∉ D := fun x y hx => by rw [← h2, hd] at hx; cases hx
    refine ⟨P ++ [(t, a)], D, ⟨?_, ?_, ?_, h4, ?_, ?_⟩⟩
    · intro u x
      by_cases hu : u = t
      · subst hu
        simp only [if_true, Doing.waiting.injEq, List.mem_append, hP x, false_or, List.mem_singleton, Prod.mk.injEq, true_and]
        exact eq_comm
      · simp [hu, h1]
    · intro u x y
      by_cases hu : u = t
      · subst hu
        simp [hD]
      · simp [hu, h2]
    · rw [List.map_append, List.nodup_append]
      refine ⟨h3, by simp, ?_⟩
      intro x hx y hy
      obtain ⟨z, hz, rfl⟩ := List.mem_map.1 hx
      simp only [List.map_cons, List.map_nil, List.mem_singleton] at hy
      subst hy
      intro hzt
      exact hP z.2 (hzt ▸ hz)
    · simp only [made, List.filterMap_append, List.filterMap_cons, List.filterMap_nil, List.map_append, List.map_cons, List.map_nil]
      rw [← List.append_assoc]
      exact h5.append_right _
    · simpa [returned] using h6
  | @effect taken doing tr t a _ hd ih =>
    obtain ⟨P, D, h1, h2, h3, h4, h5, h6⟩ := ih
    have hP := (h1 t a).1 hd
    have hD : ∀ x y, (t, x, y) ∉ D := fun x y hx => by rw [← h2, hd] at hx; cases hx
    refine ⟨P.filter (·.1 ≠ t), D ++ [(t, a, ans taken.length a)], ⟨?_, ?_, nodup_filter_ne t h3, ?_, ?_, ?_⟩⟩
    · intro u x
      by_cases hu : u = t
      · subst hu
        simp
      · simp [hu, h1]
    · intro u x y
      by_cases hu : u = t
      · subst hu
        simp only [if_true, Doing.served.injEq, List.mem_append, hD x y, false_or, List.mem_singleton, Prod.mk.injEq, true_and]
        exact ⟨fun h => ⟨h.1.symm, h.2.symm⟩, fun h => ⟨h.1.symm, h.2.symm⟩⟩
      · simp [hu, h2]
    · rw [List.map_append, List.nodup_append]
      refine ⟨h4, by simp, ?_⟩
      intro x hx y hy
      obtain ⟨z, hz, rfl⟩ := List.mem_map.1 hx
      simp only [List.map_cons, List.map_nil, List.mem_singleton] at hy
      subst hy
      intro hzt
      exact hD z.2.1 z.2.2 (hzt ▸ hz)
    · refine h5.trans ?_
      rw [List.append_assoc]
      exact ((perm_filter_ne h3 hP).map (·.2)).append_left _
    · rw [answers_append, List.map_append, ← List.append_assoc]
      exact h6.append_right _
  | @ret taken doing tr t a b _ hd ih =>
    obtain ⟨P, D, h1, h2, h3, h4, h5, h6⟩ := ih
    have hD := (h2 t a b).1 hd
    have hP : ∀ x, (t, x) ∉ P := fun x hx => by rw [← h1, hd] at hx; cases hx
    refine ⟨P, D.filter (·.1 ≠ t), ⟨?_, ?_, h3, nodup_filter_ne t h4, ?_, ?_⟩⟩
    · intro u x
      by_cases hu : u = t
      · subst hu
        simp [hP]
      · simp [hu, h1]
    · intro u x y
      by_cases hu : u = t
      · subst hu
        simp
      · simp [hu, h2]
    · simpa [made] using h5
    · refine List.Perm.trans ?_ h6
      simp only [returned, List.filterMap_append, List.filterMap_cons, List.filterMap_nil, List.append_assoc, List.singleton_append]
      exact ((perm_filter_ne h4 hD).map (·.2)).symm.append_left _

/-- When nobody is in a call any more: the calls that took effect are those that were made, and the answers returned are theirs. -/
theorem turns_settled {taken : List A} {doing : Nat → Doing A B} {tr : List (CallEv A B)} (h : Turns ans taken doing tr)
    (hi : ∀ t, doing t = .idle) : (made tr).Perm taken ∧ (returned tr).Perm (answers ans taken) := by
  obtain ⟨P, D, h1, h2, -, -, h5, h6⟩ := turns_lists h
  have hP : P = [] := List.eq_nil_iff_forall_not_mem.2 fun x hx => by
    have := (h1 x.1 x.2).2 hx
    rw [hi] at this; cases this
  have hD : D = [] := List.eq_nil_iff_forall_not_mem.2 fun x hx => by
    have := (h2 x.1 x.2.1 x.2.2).2 hx
    rw [hi] at this; cases this
  subst hP hD
  exact ⟨by simpa using h5, by simpa using h6⟩

end turns

/-! ## The MockReader -/

namespace MockConc
variable {es : List Expectation}

/-- The methods, in terms of `next`. -/
theorem call_eq (m : Mock) (c : Request) :
    MockPtr.call (some m) c = ((MockPtr.next (some m)).1, afterNext c (MockPtr.next (some m)).2.1 (MockPtr.next (some m)).2.2) := by
  cases c <;> simp only [MockPtr.call, MockPtr.mark, MockPtr.stat, MockPtr.read, MockPtr.readAt, MockPtr.seek, MockPtr.close, afterNext,
      Request.actual] <;> split <;> first | (next h => simp only [h, MRes.seen, Option.map_some]; rfl) | (next h => simp only [h]; rfl)

/-- The answer to the call `c`, being the `i`-th one (from 0). -/
def answer (es : List Expectation) (i : Nat) (c : Request) : Seen := (MockPtr.call (some ⟨es, min i es.length⟩) c).2

theorem answer_end {i : Nat} (c : Request) (h : es.length ≤ i) : answer es i c = afterNext c es.length {} := by
  simp only [answer, call_eq, MockPtr.next, Nat.min_eq_right h]
  rw [if_pos (Nat.le_refl _)]

theorem answer_line {i : Nat} (c : Request) (h : i < es.length) : answer es i c = afterNext c i (es[i]?.getD {}) := by
  simp only [answer, call_eq, MockPtr.next, Nat.min_eq_left (Nat.le_of_lt h)]
  rw [if_neg (by omega)]

theorem answer_verdict {lines : List (Request × Answer FileInfo)} (hl : ScriptedAll es lines) (i : Nat) (c : Request) :
    (answer es i c).verdict = some (verdictAt lines i c) := by
  have h := (script_from es lines hl [c] (min i es.length) (Nat.min_le_right _ _)).2
  have e : (run MockPtr.call (some ⟨es, min i es.length⟩) [c]).2 = [answer es i c] := rfl
  rw [e] at h
  simp only [List.map_cons, List.map_nil, List.mapIdx_cons, List.mapIdx_nil, Nat.add_zero, List.cons.injEq, and_true] at h
  rw [h]
  have hlen : es.length = lines.length := hl.1
  by_cases hi : i ≤ es.length
  · rw [Nat.min_eq_left hi]
  · rw [Nat.min_eq_right (by omega)]
    simp only [verdictAt]
    rw [List.getElem?_eq_none (by omega), List.getElem?_eq_none (by omega)]

theorem answers_plays {lines : List (Request × Answer FileInfo)} (hl : ScriptedAll es lines) (taken : List Request) :
    (answers (answer es) taken).map (fun x => (x.1, x.2.verdict)) = taken.zip ((plays lines taken).map some) := by
  apply List.ext_getElem?
  intro i
  simp only [answers, plays, List.getElem?_map, List.getElem?_mapIdx, List.zip, List.getElem?_zipWith]
  cases taken[i]? with
  | none => rfl
  | some c => simp [answer_verdict hl]

/-- Goroutine `t` is between `Lock` and `Unlock`. -/
def Holds : MockPc → Prop
  | .load _ | .check _ _ | .incr _ _ | .store _ _ _ | .fetch _ _ | .unlock _ _ _ => True
  | _ => False

/-- What a goroutine is doing, if the index is `n`. -/
def Doing (es : List Expectation) (n : Nat) : MockPc → Spec.Doing Request Seen → Prop
  | .idle, d => d = .idle
  | .lock c, d => d = .waiting c
  | .load c, d => d = .waiting c
  | .check c i, d => d = .waiting c ∧ i = n
  | .incr c i, d => d = .waiting c ∧ i = n ∧ n < es.length
  | .store c i v, d => d = .waiting c ∧ i = n ∧ v = n + 1 ∧ n < es.length
  | .fetch c i, d => d = .served c (afterNext c i (es[i]?.getD {}))
  | .unlock c i e, d => d = .served c (afterNext c i e)
  | .after c i e, d => d = .served c (afterNext c i e)

/-- Goroutines outside the critical section do not care about the index. -/
theorem Doing.of_free {n n' : Nat} {p : MockPc} {d : Spec.Doing Request Seen} (h : Doing es n p d) (hp : ¬ Holds p) : Doing es n' p d := by
  cases p <;> first | exact h | exact absurd trivial hp

/-- The invariant. -/
structure Inv (es : List Expectation) (s : MockConc) (taken : List Request) (doing : Nat → Spec.Doing Request Seen) : Prop where
  owner : ∀ t, s.owner = some t ↔ Holds (s.pc t)
  index : s.index = min taken.length es.length
  doing : ∀ t, Doing es s.index (s.pc t) (doing t)

theorem Inv.alone {s : MockConc} {taken : List Request} {doing : Nat → Spec.Doing Request Seen} (h : Inv es s taken doing) {t u : Nat}
    (ht : Holds (s.pc t)) (hu : Holds (s.pc u)) : u = t := by
  have h1 := (h.owner t).2 ht
  rw [(h.owner u).2 hu] at h1
  exact Option.some.inj h1

theorem at_pc (s : MockConc) (t : Nat) (p : MockPc) (u : Nat) : (s.at_ t p).pc u = if u = t then p else s.pc u := rfl

/-- A goroutine moves on and keeps the mutex, or has not got it. -/
theorem Inv.move {s : MockConc} {taken : List Request} {doing : Nat → Spec.Doing Request Seen} (h : Inv es s taken doing) {t : Nat} {p : MockPc}
    (d : Spec.Doing Request Seen) (hp : Holds p ↔ Holds (s.pc t)) (hd : Doing es s.index p d) :
    Inv es (s.at_ t p) taken (fun u => if u = t then d else doing u) := by
  refine ⟨fun u => ?_, h.index, fun u => ?_⟩
  · rw [at_pc]
    by_cases hu : u = t
    · subst hu
      rw [if_pos rfl, hp]; exact h.owner u
    · rw [if_neg hu]; exact h.owner u
  · rw [at_pc]
    by_cases hu : u = t
    · rw [if_pos hu, if_pos hu]; exact hd
    · rw [if_neg hu, if_neg hu]; exact h.doing u

theorem same {doing : Nat → Spec.Doing Request Seen} {t : Nat} : (fun u => if u = t then doing t else doing u) = doing := by
  funext u
  split
  · next h => rw [h]
  · rfl

theorem inv {tr : List (CallEv Request Seen)} {s : MockConc} (h : Runs es tr s) :
    ∃ taken doing, Turns (answer es) taken doing tr ∧ Inv es s taken doing := by
  induction h with
  | start => exact ⟨[], _, .start, ⟨fun t => by simp [Holds], by simp, fun t => rfl⟩⟩
  | @call tr s t c _ hi ih =>
    obtain ⟨taken, doing, hT, hI⟩ := ih
    have hd := hI.doing t
    rw [hi] at hd
    exact ⟨taken, _, hT.call t c hd, hI.move _ (by rw [hi]; exact Iff.rfl) rfl⟩
  | @step tr s s' ev t _ hs ih =>
    obtain ⟨taken, doing, hT, hI⟩ := ih
    have hd := hI.doing t
    have hidx := hI.index
    unfold MockConc.step at hs
    cases hp : s.pc t with
    | idle => rw [hp] at hs; cases hs
    | lock c =>
      rw [hp] at hs hd
      simp only at hs
      split at hs
      · next ho =>
        cases hs
        refine ⟨taken, doing, by simpa using hT, ⟨fun u => ?_, hidx, fun u => ?_⟩⟩
        · rw [at_pc]
          have hfree : ∀ u, ¬ Holds (s.pc u) := fun u hu => by
            have := (hI.owner u).2 hu
            rw [ho] at this; cases this
          by_cases hu : u = t
          · subst hu; simp [at_, Holds]
          · rw [if_neg hu]
            exact ⟨fun h => absurd (Option.some.inj h).symm hu, fun h => absurd h (hfree u)⟩
        · rw [at_pc]
          by_cases hu : u = t
          · subst hu; rw [if_pos rfl]; exact hd
          · rw [if_neg hu]; exact hI.doing u
      · cases hs
    | load c =>
      rw [hp] at hs hd
      cases hs
      have := hI.move (t := t) (p := .check c s.index) (doing t) (by rw [hp]; exact Iff.rfl) ⟨hd, rfl⟩
      rw [same] at this
      exact ⟨taken, doing, by simpa using hT, this⟩
    | check c i =>
      rw [hp] at hs hd
      obtain ⟨hd, hi⟩ := hd
      simp only at hs
      split at hs
      · next hge =>
        cases hs
        have hle : es.length ≤ taken.length := by omega
        have h1 := hI.move (t := t) (p := .unlock c es.length {}) (.served c (answer es taken.length c)) (by rw [hp]; exact Iff.rfl)
          (by rw [answer_end c hle]; rfl)
        refine ⟨taken ++ [c], _, by simpa using hT.effect t c hd, ⟨h1.owner, ?_, h1.doing⟩⟩
        have := h1.index
        simp only [List.length_append, List.length_cons, List.length_nil]
        rw [this]; omega
      · next hlt =>
        cases hs
        have := hI.move (t := t) (p := .incr c i) (doing t) (by rw [hp]; exact Iff.rfl) ⟨hd, hi, by omega⟩
        rw [same] at this
        exact ⟨taken, doing, by simpa using hT, this⟩
    | incr c i =>
      rw [hp] at hs hd
      cases hs
      have := hI.move (t := t) (p := .store c i (s.index + 1)) (doing t) (by rw [hp]; exact Iff.rfl) ⟨hd.1, hd.2.1, rfl, hd.2.2⟩
      rw [same] at this
      exact ⟨taken, doing, by simpa using hT, this⟩
    | store c i v =>
      rw [hp] at hs hd
      cases hs
      obtain ⟨hd, hi, hv, hlt⟩ := hd
      have hlen : taken.length = s.index := by omega
      refine ⟨taken ++ [c], _, by simpa using hT.effect t c hd, ⟨fun u => ?_, ?_, fun u => ?_⟩⟩
      · rw [at_pc]
        by_cases hu : u = t
        · subst hu
          rw [if_pos rfl]
          have := hI.owner u
          rw [hp] at this
          exact this
        · rw [if_neg hu]; exact hI.owner u
      · simp only [at_, List.length_append, List.length_cons, List.length_nil]
        omega
      · rw [at_pc]
        dsimp only
        by_cases hu : u = t
        · rw [if_pos hu, if_pos hu, hlen, answer_line c hlt, ← hi]
          rfl
        · rw [if_neg hu, if_neg hu]
          refine (hI.doing u).of_free fun hu' => hu (hI.alone (by rw [hp]; trivial) hu')
    | fetch c i =>
      rw [hp] at hs hd
      cases hs
      have := hI.move (t := t) (p := .unlock c i (es[i]?.getD {})) (doing t) (by rw [hp]; exact Iff.rfl) hd
      rw [same] at this
      exact ⟨taken, doing, by simpa using hT, this⟩
    | unlock c i e =>
      rw [hp] at hs hd
      cases hs
      have ho := (hI.owner t).2 (by rw [hp]; trivial)
      refine ⟨taken, doing, by simpa using hT, ⟨fun u => ?_, hidx, fun u => ?_⟩⟩
      · rw [at_pc]
        by_cases hu : u = t
        · subst hu; simp [at_, Holds]
        · rw [if_neg hu]
          refine ⟨fun h => (by cases h), fun h => ?_⟩
          exact absurd (hI.alone (by rw [hp]; trivial) h) hu
      · rw [at_pc]
        by_cases hu : u = t
        · subst hu; rw [if_pos rfl]; exact hd
        · rw [if_neg hu]; exact hI.doing u
    | after c i e =>
      rw [hp] at hs hd
      cases hs
      exact ⟨taken, _, hT.ret t c _ hd, hI.move _ (by rw [hp]; exact Iff.rfl) rfl⟩

/-- How many steps a call still takes. -/
def rank : MockPc → Nat
  | .idle => 0
  | .after _ _ _ => 1
  | .unlock _ _ _ => 2
  | .fetch _ _ => 3
  | .store _ _ _ => 4
  | .incr _ _ => 5
  | .check _ _ => 6
  | .load _ => 7
  | .lock _ => 8

theorem step_rank {s s' : MockConc} {t : Nat} {ev : Option (CallEv Request Seen)} (h : s.step es t = some (s', ev)) :
    rank (s'.pc t) < rank (s.pc t) ∧ ∀ u, u ≠ t → s'.pc u = s.pc u := by
  unfold step at h
  cases hp : s.pc t <;> rw [hp] at h <;> dsimp only at h <;> repeat' split at h
  all_goals first
    | cases h; done
    | (cases h; refine ⟨?_, fun u hu => ?_⟩ <;> simp [at_pc, rank, *])

end MockConc

open MockConc

/-- **C67.** Goroutines calling the methods of one MockReader at the same time take turns: every call takes effect at one instant between
its beginning and its return, and the `i`-th one to take effect gets what the `i`-th call gets if the calls are made one after the
other.  The index is the number of the calls that took effect, as far as the script goes. -/
theorem C67_turns (es : List Expectation) (tr : List (CallEv Request Seen)) (s : MockConc) (h : MockConc.Runs es tr s) :
    ∃ taken doing, Turns (fun i c => (MockPtr.call (some ⟨es, min i es.length⟩) c).2) taken doing tr ∧ s.index = min taken.length es.length := by
  obtain ⟨taken, doing, h1, h2⟩ := inv h
  exact ⟨taken, doing, h1, h2.index⟩

/-- **C67.** In terms of the script: the `i`-th call to take effect is compared with the `i`-th line. -/
theorem C67_script (es : List Expectation) (lines : List (Request × Answer FileInfo)) (hl : ScriptedAll es lines) (tr : List (CallEv Request Seen))
    (s : MockConc) (h : MockConc.Runs es tr s) :
    ∃ taken doing, Turns (fun i c => some (verdictAt lines i c)) taken doing (tr.map (CallEv.map Seen.verdict)) := by
  obtain ⟨taken, doing, h1, -⟩ := inv h
  have := h1.map Seen.verdict
  rw [show (fun i c => (answer es i c).verdict) = fun i c => some (verdictAt lines i c) from
    funext fun i => funext fun c => answer_verdict hl i c] at this
  exact ⟨taken, _, this⟩

/-- **C67.** Once no goroutine is in a call any more: there is an order of all the calls that were made, and the answers that were returned
are those of the script played against the calls in this order. -/
theorem C67_settled (es : List Expectation) (lines : List (Request × Answer FileInfo)) (hl : ScriptedAll es lines) (tr : List (CallEv Request Seen))
    (s : MockConc) (h : MockConc.Runs es tr s) (hi : ∀ t, s.pc t = .idle) :
    ∃ order, (made tr).Perm order ∧ ((returned tr).map fun x => (x.1, x.2.verdict)).Perm (order.zip ((plays lines order).map some)) := by
  obtain ⟨taken, doing, h1, hI⟩ := inv h
  obtain ⟨h2, h3⟩ := turns_settled h1 fun t => by have := hI.doing t; rw [hi] at this; exact this
  refine ⟨taken, h2, ?_⟩
  rw [← answers_plays hl]
  exact h3.map _

/-- **C67.** If the script is the same call again and again, and that call was made as often as it is scripted (by any goroutines, at any
time), then every scripted answer was given exactly once. -/
theorem C67_each_once (es : List Expectation) (c : Request) (as : List (Answer FileInfo)) (hl : ScriptedAll es (as.map fun a => (c, a)))
    (tr : List (CallEv Request Seen)) (s : MockConc) (h : MockConc.Runs es tr s) (hi : ∀ t, s.pc t = .idle)
    (hm : made tr = List.replicate as.length c) :
    ((returned tr).map fun x => x.2.verdict).Perm (as.map fun a => some (.answered a)) := by
  obtain ⟨order, h1, h2⟩ := C67_settled es _ hl tr s h hi
  rw [hm] at h1
  have ho : order = List.replicate as.length c := List.perm_replicate.1 h1.symm
  have h3 := h2.map Prod.snd
  rw [List.map_map] at h3
  refine List.Perm.trans h3 (List.Perm.of_eq ?_)
  subst ho
  apply List.ext_getElem?
  intro i
  simp only [List.getElem?_map, List.zip, List.getElem?_zipWith, plays, List.getElem?_mapIdx, List.getElem?_replicate]
  by_cases hlt : i < as.length
  · simp [hlt, verdictAt]
  · simp [hlt]

/-- **C67.** The index is protected: no goroutine is about to write it while another is about to read or to write it. -/
theorem C67_no_race (es : List Expectation) (tr : List (CallEv Request Seen)) (s : MockConc) (h : MockConc.Runs es tr s) (t u : Nat) (c : Request)
    (i v : Nat) (hs : s.pc t = .store c i v) (hne : u ≠ t) :
    (∀ c', s.pc u ≠ .load c') ∧ (∀ c' i', s.pc u ≠ .incr c' i') ∧ ∀ c' i' v', s.pc u ≠ .store c' i' v' := by
  obtain ⟨taken, doing, -, hI⟩ := inv h
  have : ∀ p, s.pc u = p → ¬ Holds p := fun p hp hh => hne (hI.alone (t := t) (u := u) (by rw [hs]; trivial) (by rw [hp]; exact hh))
  exact ⟨fun c' hp => this _ hp trivial, fun c' i' hp => this _ hp trivial, fun c' i' v' hp => this _ hp trivial⟩

/-- **C67.** No deadlock: as long as some call has not returned, some goroutine can take a step in its call. -/
theorem C67_no_deadlock (es : List Expectation) (tr : List (CallEv Request Seen)) (s : MockConc) (h : MockConc.Runs es tr s) (t : Nat)
    (hb : s.pc t ≠ .idle) : ∃ u, s.step es u ≠ none := by
  obtain ⟨taken, doing, -, hI⟩ := inv h
  have hh : ∀ u, Holds (s.pc u) → s.step es u ≠ none := by
    intro u hu
    unfold step
    cases hp : s.pc u <;> rw [hp] at hu <;> first | exact absurd hu id | skip
    all_goals dsimp only
    all_goals first | (intro h; cases h; done) | (split <;> (intro h; cases h))
  cases ho : s.owner with
  | some u => exact ⟨u, hh u ((hI.owner u).1 ho)⟩
  | none =>
    refine ⟨t, ?_⟩
    cases hp : s.pc t with
    | idle => exact absurd hp hb
    | lock c => unfold step; rw [hp]; simp [ho]
    | after c i e => unfold step; rw [hp]; simp
    | _ => exact hh t (by rw [hp]; trivial)

/-- **C67.** A call takes at most eight steps.  So all calls return, if no goroutine waits for ever to take its step. -/
theorem C67_bounded (es : List Expectation) (s s' : MockConc) (ts : List Nat) (h : MockConc.Advances es ts s s') (t : Nat) :
    ts.count t ≤ 8 := by
  have : ts.count t ≤ rank (s.pc t) := by
    induction h with
    | nil => simp
    | @cons ts s s' s'' ev u hs _ ih =>
      obtain ⟨h1, h2⟩ := step_rank hs
      by_cases hu : t = u
      · subst hu
        rw [List.count_cons_self]; omega
      · rw [List.count_cons_of_ne (Ne.symm hu), ← h2 t hu]; exact ih
  have hr : rank (s.pc t) ≤ 8 := by cases s.pc t <;> simp [rank]
  omega

/-! ## Example -/

/-- A script of two `Close` calls, which return nil and `EOF`. -/
def closeTwice : List Expectation := [.close none, .close (some .eof)]

theorem closeTwice_scripted : ScriptedAll closeTwice ([.closed none, .closed (some .eof)].map fun a => (.close, a)) :=
  ⟨rfl, fun i e l he hl => by
    match i with
    | 0 => cases he; cases hl; exact .close none
    | 1 => cases he; cases hl; exact .close (some .eof)
    | i + 2 => simp [closeTwice] at he⟩

/-- Execute a schedule: goroutine `t` makes a call (if it is in none), or takes a step (if it can). -/
def MockConc.play (es : List Expectation) : List (Nat × Option Request) → List (CallEv Request Seen) × MockConc
  | [] => ([], {})
  | (t, some c) :: l =>
    let x := MockConc.play es l
    match x.2.pc t with
    | .idle => (x.1 ++ [.call t c], x.2.at_ t (.lock c))
    | _ => x
  | (t, none) :: l =>
    let x := MockConc.play es l
    match x.2.step es t with
    | some (s, ev) => (x.1 ++ ev.toList, s)
    | none => x

theorem MockConc.play_runs (es : List Expectation) (l : List (Nat × Option Request)) : Runs es (play es l).1 (play es l).2 := by
  induction l with
  | nil => exact .start
  | cons a l ih =>
    obtain ⟨t, c⟩ := a
    cases c with
    | some c =>
      simp only [play]
      split
      · next hp => exact .call t c ih hp
      · exact ih
    | none =>
      simp only [play]
      split
      · next hp => exact .step t ih hp
      · exact ih

/-- Goroutines 1 and 2 call `Close`.  Goroutine 2 gets the mutex while 1 has to wait, but returns last.  (The schedule begins at its end.) -/
def twoClosers : List (Nat × Option Request) :=
  ([(1, some Request.close), (2, some Request.close)] ++ [2, 2, 1, 2, 2, 2, 2, 1, 2, 1, 1, 1, 1, 1, 1, 1, 1, 1, 2].map fun t => (t, none)).reverse

/-- Goroutine 2 got the first answer, although 1 called and returned before it. -/
example : ((MockConc.play closeTwice twoClosers).1.map fun
      | .call t _ => (t, none)
      | .ret t _ b => (t, b.verdict)) =
    [(1, none), (2, none), (1, some (.answered (.closed (some .eof)))), (2, some (.answered (.closed none)))] := by decide +kernel

example : ((returned (MockConc.play closeTwice twoClosers).1).map fun x => x.2.verdict).Perm
    [some (.answered (.closed none)), some (.answered (.closed (some .eof)))] :=
  C67_each_once closeTwice .close _ closeTwice_scripted _ _ (MockConc.play_runs closeTwice twoClosers)
    (fun t => by
      match t with
      | 0 => rfl
      | 1 => rfl
      | 2 => rfl
      | t + 3 => rfl)
    rfl

end Verif
