import Verif.Spec.Scrape

/-! # The metrics show what was done to them -/

set_option autoImplicit false

namespace Verif
open Spec

/-! ## Counter vectors -/

theorem Vec.get_add (c d : GoStr) (n : Int) (v : Vec) : (v.add c n).get d = v.get d + if c = d then n else 0 := by
  induction v with
  | nil => simp only [Vec.add, Vec.get]; split <;> simp
  | cons p v ih =>
    obtain ⟨c', m⟩ := p
    simp only [Vec.add]
    by_cases h : c' = c
    · subst h
      simp only [if_true, Vec.get]
      split <;> simp
    · rw [if_neg h]
      simp only [Vec.get]
      by_cases h2 : c' = d
      · subst h2
        rw [if_pos rfl, if_pos rfl, if_neg (fun e => h e.symm)]
        simp
      · rw [if_neg h2, if_neg h2, ih]

theorem Vec.total_add (c : GoStr) (n : Int) (v : Vec) : (v.add c n).total = v.total + n := by
  induction v with
  | nil => simp [Vec.add, Vec.total]
  | cons p v ih =>
    obtain ⟨c', m⟩ := p
    simp only [Vec.add]
    split
    · simp only [Vec.total, List.map_cons, List.sum_cons]; omega
    · simp only [Vec.total, List.map_cons, List.sum_cons] at ih ⊢; omega

/-! ## Histograms -/

theorem sum_take_modify (l : List Nat) (k m : Nat) :
    ((l.modify k (· + 1)).take m).sum = (l.take m).sum + if k < m ∧ k < l.length then 1 else 0 := by
  induction l generalizing k m with
  | nil => simp
  | cons x l ih =>
    cases m with
    | zero => simp
    | succ m =>
      cases k with
      | zero => simp [List.modify_cons]; omega
      | succ k =>
        simp only [List.modify_succ_cons, List.take_succ_cons, List.sum_cons, ih, List.length_cons, Nat.add_lt_add_iff_right]
        omega

theorem findIdx_le_iff (bounds : List Int) (hb : bounds.Pairwise (· ≤ ·)) (v : Int) (j : Nat) (b : Int) (h : bounds[j]? = some b) :
    bounds.findIdx (fun b => decide (v ≤ b)) < j + 1 ↔ v ≤ b := by
  induction bounds generalizing j with
  | nil => simp at h
  | cons x l ih =>
    rw [List.pairwise_cons] at hb
    rw [List.findIdx_cons]
    by_cases hx : v ≤ x
    · simp only [hx, decide_true, cond_true]
      refine ⟨fun _ => ?_, fun _ => by omega⟩
      cases j with
      | zero => simp at h; omega
      | succ j =>
        have := hb.1 b (List.mem_of_getElem? (by simpa using h))
        omega
    · simp only [hx, decide_false, cond_false]
      cases j with
      | zero => simp at h; subst h; simp [hx]
      | succ j =>
        rw [Nat.add_lt_add_iff_right, ih hb.2 j (by simpa using h)]

theorem Spec.HistShows.observe {bounds : List Int} {h : Hist} {l : List Int} (hb : bounds.Pairwise (· ≤ ·)) (hs : HistShows bounds h l)
    (v : Int) : HistShows bounds (h.observe bounds v) (l ++ [v]) := by
  have hk : bounds.findIdx (fun b => decide (v ≤ b)) < h.buckets.length := by
    rw [hs.size]; have := @List.findIdx_le_length _ (fun b => decide (v ≤ b)) bounds; omega
  constructor
  · simp [Hist.observe, hs.size]
  · simp [Hist.observe, hs.count]
  · simp [Hist.observe, hs.sum]
  · intro j b hj
    have e := hs.upTo j b hj
    have f := findIdx_le_iff bounds hb v j b hj
    simp only [Hist.observe, Hist.upTo] at e ⊢
    rw [sum_take_modify, e, List.countP_append]
    simp only [hk, and_true, f]
    by_cases hv : v ≤ b <;> simp [hv]
  · have e := hs.all
    simp only [Hist.observe, Hist.upTo] at e ⊢
    rw [sum_take_modify, e]
    simp only [hk, and_true]
    rw [if_pos (by rw [hs.size] at hk; exact hk)]
    simp

theorem sum_perm {l l' : List Int} (hp : l.Perm l') : l.sum = l'.sum := by
  induction hp with
  | nil => rfl
  | cons _ _ ih => simp [ih]
  | swap => simp only [List.sum_cons]; omega
  | trans _ _ h1 h2 => exact h1.trans h2

theorem Spec.HistShows.perm {bounds : List Int} {h : Hist} {l l' : List Int} (hs : HistShows bounds h l) (hp : l.Perm l') :
    HistShows bounds h l' :=
  ⟨hs.size, hs.count.trans hp.length_eq, hs.sum.trans (sum_perm hp), fun j b hj => (hs.upTo j b hj).trans (hp.countP_eq _),
    hs.all.trans hp.length_eq⟩

theorem byteBuckets_sorted : byteBuckets.Pairwise (· ≤ ·) := by decide +kernel

/-! ## All metrics -/

theorem displays_init : Displays {} [] := by
  refine ⟨rfl, fun _ => rfl, rfl, fun _ => rfl, fun _ => rfl, fun _ => rfl, rfl, rfl, ?_, ?_, List.Perm.refl _⟩ <;>
  · refine ⟨rfl, rfl, rfl, ?_, rfl⟩
    intro j b hj
    simp only [Hist.upTo, List.take_replicate, List.sum_replicate_nat]
    simp [recvObserved, sendObserved]

theorem Spec.Displays.perm {r : Registry} {ev ev' : List MEv} (h : Displays r ev) (hp : ev.Perm ev') : Displays r ev' where
  panics := h.panics.trans (hp.filter _).length_eq
  requests c := (h.requests c).trans (congrArg Nat.cast ((hp.filterMap _).count_eq c))
  requestsTotal := h.requestsTotal.trans (congrArg Nat.cast (hp.filterMap _).length_eq)
  latency c := (h.latency c).trans (congrArg Nat.cast ((hp.filterMap _).count_eq c))
  recvBytes c := (h.recvBytes c).trans (sum_perm (((hp.filterMap _).filter _).map _))
  sendBytes c := (h.sendBytes c).trans (sum_perm (((hp.filterMap _).filter _).map _))
  sendTotal := h.sendTotal.trans (sum_perm ((hp.filterMap _).map _))
  latencyHist := h.latencyHist.trans (hp.countP_eq _)
  recvHist := h.recvHist.perm (hp.filterMap _)
  sendHist := h.sendHist.perm (hp.filterMap _)
  reported := h.reported.trans (hp.filterMap _)

theorem sumFor_snoc (c d : GoStr) (n : Int) (l : List (GoStr × Int)) :
    sumFor c (l ++ [(d, n)]) = sumFor c l + if d = c then n else 0 := by
  simp only [sumFor, List.filter_append, List.map_append, List.sum_append]
  congr 1
  by_cases hc : d = c
  · rw [if_pos hc, List.filter_cons_of_pos (by simpa using hc)]; simp
  · rw [if_neg hc, List.filter_cons_of_neg (by simpa using hc)]; simp

theorem Spec.Displays.apply {r : Registry} {ev : List MEv} (h : Displays r ev) (e : MEv) : Displays (r.apply e) (ev ++ [e]) := by
  have app : ∀ {α : Type} (f : MEv → Option α), (ev ++ [e]).filterMap f = ev.filterMap f ++ (f e).toList := by
    intro α f
    rw [List.filterMap_append]
    cases hf : f e <;> simp [hf]
  obtain ⟨h1, h2, h3, h4, h5, h6, h7, h8, h9, h10, h11⟩ := h
  simp only [panicsCounted, requestsCounted, latencyCounted, recvCounted, sendCounted, latencyObserved, recvObserved, sendObserved,
    panicsReported] at h1 h2 h3 h4 h5 h6 h7 h8 h9 h10 h11
  cases e <;> constructor <;>
    simp only [Registry.apply, panicsCounted, requestsCounted, latencyCounted, recvCounted, sendCounted, latencyObserved, recvObserved,
      sendObserved, panicsReported, app, Option.toList_none, Option.toList_some, List.append_nil, List.filter_append, List.countP_append] <;>
    (first
      | assumption
      | (simp [h1, h8]; done)
      | (intro c; rw [Vec.get_add, h2, List.count_append, List.count_singleton]; simp only [beq_iff_eq]; split <;> simp; done)
      | (intro c; rw [Vec.get_add, h4, List.count_append, List.count_singleton]; simp only [beq_iff_eq]; split <;> simp; done)
      | (intro c; rw [Vec.get_add, h5, sumFor_snoc]; done)
      | (intro c; rw [Vec.get_add, h6, sumFor_snoc]; done)
      | (simp only [Vec.total_add, h3, h7, List.length_append, List.map_append, List.sum_append]; simp; done)
      | exact h9.observe byteBuckets_sorted _
      | exact h10.observe byteBuckets_sorted _
      | exact h11.append_right _)

/-! ## Servers -/

theorem flatten_set (m : List (List MEv)) (i : Nat) (d : List MEv) (e : MEv) (h : m[i]? = some d) :
    (m.flatten ++ [e]).Perm (m.set i (d ++ [e])).flatten := by
  induction m generalizing i with
  | nil => simp at h
  | cons x m ih =>
    cases i with
    | zero =>
      simp at h
      subst h
      simp only [List.set_cons_zero, List.flatten_cons, List.append_assoc]
      exact List.Perm.append_left _ List.perm_append_comm
    | succ i =>
      simp only [List.set_cons_succ, List.flatten_cons, List.append_assoc]
      exact List.Perm.append_left _ (ih i (by simpa using h))

/-- The goroutines: the requests, what has been done for them, what has yet to be done. -/
structure Server.Split (s : Server) (l : List (Served × List MEv × List MEv)) : Prop where
  begun : s.begun = l.map (·.1)
  todo : s.todo = l.map (·.2.2)
  parts : ∀ x ∈ l, x.1.2.1 = x.2.1 ++ x.2.2
  shows : Displays s.reg (l.map (·.2.1)).flatten

theorem split_done {s : Server} {l : List (Served × List MEv × List MEv)} (h : s.Split l) : s.done = l.map (·.2.1) := by
  obtain ⟨h1, h2, h3, -⟩ := h
  rw [Server.done, h1, h2]
  clear h1 h2
  induction l with
  | nil => rfl
  | cons x l ih =>
    simp only [List.map_cons, List.zipWith_cons_cons]
    rw [ih (fun y hy => h3 y (List.mem_cons_of_mem _ hy)), h3 x List.mem_cons_self]
    simp

theorem split_step {s : Server} {l : List (Served × List MEv × List MEv)} (h : s.Split l) (m : Move) :
    ∃ l', (s.step m).Split l' := by
  cases m with
  | arrive q =>
    refine ⟨l ++ [(q, [], q.2.1)], by simp [Server.step, h.begun], by simp [Server.step, h.todo], ?_, ?_⟩
    · intro x hx
      rw [List.mem_append, List.mem_singleton] at hx
      rcases hx with hx | rfl
      · exact h.parts x hx
      · rfl
    · simpa [Server.step] using h.shows
  | tick i =>
    simp only [Server.step]
    split
    · rename_i e rest hi
      rw [h.todo, List.getElem?_map] at hi
      obtain ⟨⟨q, d, t⟩, hx, ht⟩ := Option.map_eq_some_iff.1 hi
      dsimp only at ht
      subst ht
      refine ⟨l.set i (q, d ++ [e], rest), ?_, ?_, ?_, ?_⟩
      · rw [h.begun, List.map_set]
        have : (l.map (·.1))[i]? = some q := by rw [List.getElem?_map, hx]; rfl
        obtain ⟨hlt, hq⟩ := List.getElem?_eq_some_iff.1 this
        conv => rhs; rw [show ((q, d ++ [e], rest) : Served × List MEv × List MEv).1 = (l.map (·.1))[i] from hq.symm]
        rw [List.set_getElem_self]
      · rw [h.todo, List.map_set]
      · intro x hx'
        rcases List.mem_or_eq_of_mem_set hx' with hx' | rfl
        · exact h.parts x hx'
        · have := h.parts _ (List.mem_of_getElem? hx)
          simpa using this
      · rw [List.map_set]
        refine (h.shows.apply e).perm (flatten_set _ i d e ?_)
        rw [List.getElem?_map, hx]; rfl
    · exact ⟨l, h⟩

theorem split_run (s : Server) (l : List (Served × List MEv × List MEv)) (h : s.Split l) (ms : List Move) :
    ∃ l', (s.run ms).Split l' := by
  induction ms generalizing s l with
  | nil => exact ⟨l, h⟩
  | cons m ms ih =>
    obtain ⟨l', h'⟩ := split_step h m
    exact ih _ l' h'

theorem split_init : Server.Split {} [] := ⟨rfl, rfl, by simp, displays_init⟩

end Verif
