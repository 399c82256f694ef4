import Verif.Proofs.ServedHeaders
import Verif.Props.Sharing

/-!
# C68: what is done to the headers of one ResponseWriter does not show in another's

`Serve` hands out the slices of the Response.  Two ResponseWriters that are served the same Response (or copies of it) have the same
slices.  `Header.Add` writes into their spare capacity, if they have any: what one adds is then replaced by what the other adds.
-/

set_option autoImplicit false

namespace Verif

open Spec

variable {B : Type}

/-- ResponseWriters with the maps `W` (empty at first) are served Responses with the maps `R`, and values are added, set and deleted with the
methods of `http.Header`: at each time each has the headers it would have if it were the only one, and the Responses have theirs. -/
def Separate (spare : Nat → Nat) (W : List Ref) (R : List (Option Ref)) (H : Heap) : Prop :=
  ∀ ops : List HEdit,
    (∀ i w, W[i]? = some w → (ops.foldl (Heap.edit spare W R) H).lookup (some w) =
      ops.foldl (edited (fun j => H.lookup (R[j]?.getD none))) (fun _ => .none) i) ∧
    ∀ m ∈ R, (ops.foldl (Heap.edit spare W R) H).lookup m = H.lookup m

/-- The maps of the ResponseWriters: they exist, are different from each other and from those of the Responses, and empty. -/
structure NewWriters (W : List Ref) (R : List (Option Ref)) (H : Heap) : Prop where
  nodup : W.Nodup
  apart : ∀ w ∈ W, some w ∉ R
  has : ∀ w ∈ W, H.HasMap w
  empty : ∀ w ∈ W, H.map w = []

/-- **C68** (full statement: `Separate` without `Snug`; that is false, see `C68_iff`): if the slices of the Responses have no spare capacity. -/
theorem C68_separate_partial (spare : Nat → Nat) {W : List Ref} {R : List (Option Ref)} {H : Heap} (hwf : H.WF) (hW : NewWriters W R H)
    (hs : Snug H R) : Separate spare W R H := by
  intro ops
  have h0 : HKept W R H H (fun _ => .none) := by
    refine ⟨hwf, hW.has, fun _ _ => rfl, fun _ _ _ _ => rfl, fun w hw e he => ?_, fun i w hi => ?_⟩
    · rw [hW.empty w hw] at he; cases he
    · funext k
      rw [lookup_eq, hW.empty w (mem_of_get hi)]
      rfl
  have h := HKept.edits hwf hs hW.nodup hW.apart spare ops h0
  refine ⟨h.vals, fun m hm => ?_⟩
  cases m with
  | none => rfl
  | some r => exact lookup_congr (h.maps r hm) fun e he => h.strings r hm e (by rw [h.maps r hm]; exact he)

/-- **C68**: and only then, as soon as there are two ResponseWriters. -/
theorem C68_iff (spare : Nat → Nat) {W : List Ref} {R : List (Option Ref)} {H : Heap} (hwf : H.WF) (hW : NewWriters W R H)
    (h2 : 2 ≤ W.length) : Separate spare W R H ↔ Snug H R := by
  refine ⟨fun hsep r hr e he hp hc => ?_, C68_separate_partial spare hwf hW⟩
  intro hl
  obtain ⟨k, s⟩ := e
  obtain ⟨j, hj⟩ := List.getElem?_of_mem hr
  obtain ⟨w0, h0⟩ : ∃ w, W[0]? = some w := ⟨W[0], by simp⟩
  obtain ⟨w1, h1⟩ : ∃ w, W[1]? = some w := ⟨W[1], by simp⟩
  have hne : w0 ≠ w1 := by
    intro e
    subst e
    have := (List.getElem?_inj (List.getElem?_eq_some_iff.1 h0).1 hW.nodup).1 (h0.trans h1.symm)
    omega
  have hr0 : r ≠ w0 := fun e => hW.apart w0 (mem_of_get h0) (e ▸ hr)
  have m0 := hW.has w0 (mem_of_get h0)
  have m1 := hW.has w1 (mem_of_get h1)
  let G := (H.serveHeaders w0 (some r)).serveHeaders w1 (some r)
  have hwf1 : (H.serveHeaders w0 (some r)).WF := serve_wf hwf
  have hmap : (H.serveHeaders w0 (some r)).map r = H.map r := serve_map hr0
  have g0 : G.get (some w0) k = some s := by
    rw [get_eq, serve_map hne, ← get_eq]
    exact serve_get hwf m0 hp he
  have g1 : G.get (some w1) k = some s := serve_get hwf1 (serve_has m1) hp (by rw [hmap]; exact he)
  have hv : s.Valid G := by
    refine ((hwf r).2 _ he).mono ?_
    rw [serve_arr, serve_arr]
    exact Nat.le_refl _
  have key := add_add spare hne (serve_has (serve_has m0)) hc hv hl g0 g1 (lit "x") (lit "y")
  have hspec := (hsep [.serve 0 j, .serve 1 j, .add 0 k (lit "x"), .add 1 k (lit "y")]).1 0 w0 h0
  simp only [List.foldl_cons, List.foldl_nil, Heap.edit, h0, h1, hj, edited, Option.getD_some, hc] at hspec
  have hspec := congrFun hspec k
  rw [show (((H.serveHeaders w0 (some r)).serveHeaders w1 (some r)).hadd spare w0 k (lit "x")).hadd spare w1 k (lit "y") =
    (G.hadd spare w0 k (lit "x")).hadd spare w1 k (lit "y") from rfl, key] at hspec
  simp [oneOf, Hdrs.with] at hspec
  exact absurd hspec.2 (by decide)

-- Two ResponseWriters, a Response whose slice has no spare capacity.
example : let H : Heap := { extArrs := [[lit "a"]], extMaps := [[], [], [(lit "Vary", { arr := .ext 0, len := 1, cap := 1 })]] }
    H.WF ∧ NewWriters [.ext 0, .ext 1] [some (.ext 2), none] H ∧ Snug H [some (.ext 2), none] := by
  refine ⟨?_, ⟨by decide, by decide, by simp [Heap.HasMap], by simp [Heap.map]⟩, ?_⟩
  · intro r
    match r with
    | .ext 0 | .ext 1 | .ext (n + 3) | .own _ => exact ⟨by simp [Heap.map], by simp [Heap.map]⟩
    | .ext 2 => exact ⟨by simp [Heap.map], by simp [Heap.map, Slice.Valid, Heap.arr]⟩
  · intro r hr
    simp only [List.mem_cons, Option.some.injEq, reduceCtorEq, List.not_mem_nil, or_false] at hr
    subst hr
    simp [Heap.map, Slice.Tight]

-- What two ResponseWriters then have.
example :
    let H : Heap := { extArrs := [[lit "a"]], extMaps := [[], [], [(lit "Vary", { arr := .ext 0, len := 1, cap := 1 })]] }
    let H' := [HEdit.serve 0 0, .serve 1 0, .add 0 (lit "vary") (lit "x"), .add 1 (lit "VARY") (lit "y")].foldl
      (Heap.edit (fun n => n) [.ext 0, .ext 1] [some (.ext 2)]) H
    H'.lookup (some (.ext 0)) (lit "Vary") = some [lit "a", lit "x"] ∧ H'.lookup (some (.ext 1)) (lit "Vary") = some [lit "a", lit "y"] ∧
      H'.lookup (some (.ext 2)) (lit "Vary") = some [lit "a"] := by decide +kernel

/-! ## Which Responses are safe -/

/-- The slices in the maps made by this package have no spare capacity. -/
def OwnTight (H : Heap) : Prop := ∀ i, ∀ e ∈ H.map (.own i), e.2.Tight

theorem OwnTight.setMap {H : Heap} (h : OwnTight H) (r : Ref) {l : List (GoStr × Slice)} (hl : ∀ i, r = .own i → ∀ e ∈ l, e.2.Tight) :
    OwnTight (H.setMap r l) := by
  intro i e he
  by_cases hr : Ref.own i = r
  · subst hr
    simp only [Heap.setMap, Heap.map, List.getElem?_set_self'] at he
    cases ho : H.ownMaps[i]? with
    | none => rw [ho] at he; cases he
    | some x => rw [ho] at he; exact hl i rfl e he
  · rw [Heap.map_setMap_ne H _ hr] at he
    exact h i e he

theorem OwnTight.put {H : Heap} (h : OwnTight H) (r : Ref) (k : GoStr) {s : Slice} (hs : s.Tight) : OwnTight (H.put r k s) := by
  rw [put_eq]
  refine h.setMap r fun i hi e he => ?_
  rcases mem_putList he with rfl | he
  · exact hs
  · subst hi; exact h i e he.1

theorem OwnTight.putExt {H : Heap} (h : OwnTight H) (n : Nat) (k : GoStr) (s : Slice) : OwnTight (H.put (.ext n) k s) :=
  h.setMap _ fun i hi => by cases hi

theorem OwnTight.del {H : Heap} (h : OwnTight H) (r : Ref) (k : GoStr) : OwnTight (H.del r k) :=
  h.setMap r fun i hi e he => by subst hi; exact h i e (List.mem_filter.1 he).1

theorem OwnTight.newArr {H : Heap} (h : OwnTight H) (a : List GoStr) : OwnTight (H.newArr a).1 := fun i e he => h i e (by rw [Heap.map_newArr] at he; exact he)

theorem OwnTight.setArr {H : Heap} (h : OwnTight H) (r : Ref) (a : List GoStr) : OwnTight (H.setArr r a) := fun i e he =>
  h i e (by rw [Heap.map_setArr] at he; exact he)

theorem OwnTight.newMap {H : Heap} (h : OwnTight H) : OwnTight H.newMap.1 := by
  intro i e he
  simp only [Heap.newMap, Heap.map, List.getElem?_append] at he
  split at he
  · exact h i e he
  · cases hx : ([[]] : List (List (GoStr × Slice)))[i - H.ownMaps.length]? with
    | none => rw [hx] at he; cases he
    | some l =>
      rw [hx] at he
      have := List.mem_of_getElem? hx
      simp only [List.mem_singleton] at this
      subst this
      cases he

theorem OwnTight.hset {H : Heap} (h : OwnTight H) (r : Ref) (k v : GoStr) : OwnTight (H.hset r k v) :=
  (h.newArr _).put r _ (by simp [Slice.Tight])

theorem OwnTight.copyEntry {H : Heap} (h : OwnTight H) (r : Ref) (e : GoStr × Slice) : OwnTight (H.copyEntry r e) := by
  simp only [Heap.copyEntry, Heap.copyStrings]
  split
  · exact h.put r _ (by simp [Slice.Tight, Slice.nil])
  · exact (h.newArr _).put r _ (by simp [Slice.Tight])

theorem OwnTight.foldl {α : Type} {f : Heap → α → Heap} (hf : ∀ H a, OwnTight H → OwnTight (f H a)) (l : List α) :
    ∀ {H : Heap}, OwnTight H → OwnTight (l.foldl f H) := by
  induction l with
  | nil => intro H h; exact h
  | cons a l ih => intro H h; exact ih (hf H a h)

theorem OwnTight.copyHeaders {H : Heap} (h : OwnTight H) (m : Option Ref) : OwnTight (H.copyHeaders m).1 := by
  rw [Heap.copyHeaders]
  split
  · exact h
  · exact OwnTight.foldl (fun H e h => h.copyEntry _ e) _ h.newMap

theorem OwnTight.alloc {H : Heap} (h : OwnTight H) (v : List (GoStr × List GoStr)) : OwnTight (H.alloc v).1 :=
  OwnTight.foldl (fun _ _ h => (h.newArr _).put _ _ (by simp [Slice.Tight])) _ h.newMap

theorem OwnTight.headers {H : Heap} (h : OwnTight H) (b : Bld) : OwnTight (b.headers H).1 := by
  rw [Bld.headers]
  split
  · exact h.newMap
  · exact h

theorem OwnTight.bset {H : Heap} (h : OwnTight H) (b : Bld) (k v : GoStr) : OwnTight (b.set H k v).1 := (h.headers b).hset _ _ _

theorem OwnTight.made {H : Heap} (h : OwnTight H) (b : Bld) (m : Res Nat) (c : GoStr) : OwnTight (b.made H m c).1 := by
  unfold Bld.made
  split
  · exact h
  · exact h
  · exact h.bset _ _ _

theorem OwnTight.page {H : Heap} (h : OwnTight H) (b : Bld) (c : Int) (e : Option Err) (g : GenHdrs) (y : Option Nat) :
    OwnTight (b.page H c e g y).1 := by
  unfold Bld.page
  split
  · exact h
  · exact h.alloc _
  · exact h

theorem OwnTight.fill {H : Heap} (h : OwnTight H) (r : Ref) (k v : GoStr) : OwnTight (H.fill r k v) := by
  rw [Heap.fill]
  split
  · exact (h.newArr _).put r _ (by simp [Slice.Tight])
  · exact h

/-- The call appends to the values of a header. -/
def LOp.appends : LOp → Prop
  | .withHeader _ _ app => app = true
  | .withDigest _ _ => True
  | _ => False

@[inherit_doc LOp.appends] def BOp.appends : BOp → Prop
  | .on _ op => op.appends
  | _ => False

theorem OwnTight.lstep {H : Heap} (h : OwnTight H) (E : BEnv B) (X : B) (b : Bld) (op : LOp) (ha : ¬ op.appends) : OwnTight (b.step E H X op).1 := by
  cases op <;> simp only [LOp.appends, not_false_eq_true, not_true_eq_false] at ha <;> simp only [Bld.step] <;>
    (repeat' split) <;>
    first
    | exact h
    | exact h.headers b
    | exact h.bset b _ _
    | exact h.made b _ _
    | exact h.page b _ _ _ _
    | exact h.copyHeaders _
    | exact (h.headers b).del _ _
    | exact ((h.headers b).newArr _).put _ _ (by simp [Slice.Tight])
    | exact (h.headers b).setArr _ _
    | (exfalso; simp_all; done)
    | skip

theorem OwnTight.build {H H' : Heap} (h : OwnTight H) (S : BodyStore B) (X : B) (b : Bld) {b' : Bld} {r : Rsp} (hb : b.build S H X = some (H', b', r)) :
    OwnTight H' := by
  cases hy : b.body with
  | none => simp [Bld.build, hy] at hb
  | some i =>
    rw [Bld.build, hy] at hb
    have e := congrArg Prod.fst (Option.some.inj hb)
    dsimp only at e
    rw [← e]
    split
    · exact ((h.headers b).fill _ _ _).fill _ _ _
    · exact (h.headers b).fill _ _ _

theorem OwnTight.step {s : BState B} (h : OwnTight s.heap) (E : BEnv B) (op : BOp) (ha : ¬ op.appends) : OwnTight (s.step E op).1.heap := by
  cases op with
  | on i op =>
    simp only [BState.step]
    split
    · exact h
    · exact h.lstep E _ _ op ha
  | copy i =>
    simp only [BState.step]
    repeat' split
    all_goals first | exact h | exact h.copyHeaders _
  | build i =>
    simp only [BState.step]
    split
    · exact h
    · split
      · exact h
      · rename_i hb
        exact h.build _ _ _ hb
  | ext m =>
    cases m with
    | newArr a => exact h
    | newMap => exact h
    | put n k sl =>
      simp only [BState.step, Heap.mutate]
      split
      · exact h.putExt _ _ _
      · exact h
    | del n k => exact h.del _ _
    | elem a j v => exact h.setArr _ _
  | poke r k vals => exact (h.newArr _).put _ _ (by simp [Slice.Tight])
  | new => exact h
  | respStatus j | respHeaders j | respBody j | respErr j =>
    simp only [BState.step]
    split <;> exact h
  | respString j | respCopy j =>
    simp only [BState.step]
    repeat' split
    all_goals exact h

theorem OwnTight.after (E : BEnv B) (ops : List BOp) (ha : ∀ op ∈ ops, ¬ op.appends) : ∀ {s : BState B}, OwnTight s.heap →
    OwnTight (s.after E ops).heap := by
  induction ops with
  | nil => intro s h; exact h
  | cons op ops ih =>
    intro s h
    exact ih (fun op hop => ha op (List.mem_cons_of_mem _ hop)) (h.step E op (ha op (List.mem_cons_self ..)))

/-- **C68**: Responses built by Builders that never append to a header are safe: neither `WithHeader(…, true)` nor `WithDigest` is called
(the Builders may set headers, be given headers, be copied and so on). -/
theorem C68_built {E : BEnv B} (hE : NoShared E) (X : B) (ops : List BOp) (hl : ∀ op ∈ ops, op.legal) (ha : ∀ op ∈ ops, ¬ op.appends)
    (spare : Nat → Nat) {W : List Ref} (hW : NewWriters W ((BState.after E { bodies := X } ops).rsps.map Rsp.hdrs) (BState.after E { bodies := X } ops).heap) :
    Separate spare W ((BState.after E { bodies := X } ops).rsps.map Rsp.hdrs) (BState.after E { bodies := X } ops).heap := by
  have hr : Reached E (BState.after E { bodies := X } ops) := ⟨X, ops, hl, rfl⟩
  have ht : OwnTight (BState.after E { bodies := X } ops).heap := OwnTight.after E ops ha (fun i e he => by simp [Heap.map] at he)
  refine C68_separate_partial spare (hr.wf hE) hW fun r hr' e he _ _ => ?_
  obtain ⟨om, oa, σ, R⟩ := hr.rel hE
  obtain ⟨q, hq, hqr⟩ := List.mem_map.1 hr'
  obtain ⟨j, hj⟩ := List.getElem?_of_mem hq
  rcases R.rsp j with ⟨h1, -⟩ | ⟨q', sr, h1, -, hrel⟩
  · rw [h1] at hj; cases hj
  · rw [h1] at hj
    cases hj
    rcases hrel.hdrs with ⟨h2, -⟩ | ⟨i, h2, -⟩
    · rw [h2] at hqr; cases hqr
    · rw [h2] at hqr
      cases hqr
      exact ht i e he

/-- **C68**: whatever the headers, those of a copy made with `WithHeaders` or `Builder.Copy` are safe. -/
theorem C68_copied {H : Heap} (m : Option Ref) : Snug (H.copyHeaders m).1 [(H.copyHeaders m).2] := by
  intro r hr e he _ _
  rw [Heap.copyHeaders] at hr he
  split at he
  · rename_i h0
    rw [if_pos h0] at hr
    simp at hr
  · rename_i h0
    rw [if_neg h0] at hr
    simp only [List.mem_singleton, Option.some.injEq] at hr
    subst hr
    have : ∀ (L : List (GoStr × Slice)) {G : Heap}, (∀ e ∈ G.map H.newMap.2, e.2.Tight) →
        ∀ e ∈ (L.foldl (Heap.copyEntry H.newMap.2) G).map H.newMap.2, e.2.Tight := by
      intro L
      induction L with
      | nil => intro G h; exact h
      | cons a L ih =>
        intro G h
        refine ih (G := G.copyEntry H.newMap.2 a) fun e he => ?_
        simp only [Heap.copyEntry, Heap.copyStrings] at he
        have aux : ∀ {G : Heap} {k : GoStr} {s : Slice}, s.Tight → (∀ e ∈ G.map H.newMap.2, e.2.Tight) →
            ∀ e ∈ (G.put H.newMap.2 k s).map H.newMap.2, e.2.Tight := by
          intro G k s hs h e he
          rw [put_eq] at he
          simp only [Heap.newMap, Heap.setMap, Heap.map, List.getElem?_set_self'] at he h
          cases ho : G.ownMaps[H.ownMaps.length]? with
          | none => rw [ho] at he; cases he
          | some x =>
            rw [ho] at he h
            rcases mem_putList he with rfl | he
            · exact hs
            · exact h e he.1
        split at he
        · exact aux (by simp [Slice.Tight, Slice.nil]) h e he
        · refine aux (G := (G.newArr _).1) (by simp [Slice.Tight]) (fun e he => h e ?_) e he
          rw [Heap.map_newArr] at he; exact he
    refine this _ (fun e he => ?_) e he
    simp [Heap.newMap, Heap.map] at he

/-! ## And which are not -/

/-- A Builder that is given three values of one header, its Response, and a copy of that; and two ResponseWriters. -/
def growOps : List BOp :=
  [.ext .newMap, .ext .newMap, .new, .on 0 (.withHeader (lit "Vary") (lit "a") true), .on 0 (.withHeader (lit "Vary") (lit "b") true),
    .on 0 (.withHeader (lit "Vary") (lit "c") true), .on 0 (.withBody (some 0)), .build 0, .respCopy 0]

/-- The environment, with the capacities that Go 1.17 allocates for up to four strings. -/
def growEnv : BEnv (List (List Byte)) := { exEnv with spare := fun n => if n = 2 then 1 else 0 }

/-- **C68** is false in general: a Response with three values of a header and its copy are served to two ResponseWriters, and a value is added to
the headers of each.  The first ResponseWriter then has the value that was added to those of the second. -/
theorem C68_leaks : ∃ (E : BEnv (List (List Byte))) (s : BState (List (List Byte))) (W : List Ref), NoShared E ∧ Reached E s ∧
    NewWriters W (s.rsps.map Rsp.hdrs) s.heap ∧
    let H := [HEdit.serve 0 0, .serve 1 1, .add 0 (lit "Vary") (lit "x"), .add 1 (lit "Vary") (lit "y")].foldl
      (Heap.edit E.spare W (s.rsps.map Rsp.hdrs)) s.heap
    W.map (fun w => H.lookup (some w) (lit "Vary")) =
      [some [lit "a", lit "b", lit "c", lit "y"], some [lit "a", lit "b", lit "c", lit "y"]] := by
  refine ⟨growEnv, .after growEnv { bodies := [[1, 2, 3]] } growOps, [.ext 0, .ext 1], ?_, ⟨_, growOps, ?_, rfl⟩, ⟨?_, ?_, ?_, ?_⟩, ?_⟩
  · exact exEnv_noShared
  · simp [growOps, BOp.legal]
  · decide
  · decide +kernel
  · have : (BState.after growEnv { bodies := [[1, 2, 3]] } growOps).heap.extMaps.length = 2 := by decide +kernel
    simp [Heap.HasMap, this]
  · have : (BState.after growEnv { bodies := [[1, 2, 3]] } growOps).heap.extMaps = [[], []] := by decide +kernel
    simp [Heap.map, this]
  · decide +kernel

/-- **C68**: in any case, whoever assigns to an element of a slice in the headers of a ResponseWriter (`w.Header()[k][i] = v`) changes the
Response that was served, and so all its copies. -/
theorem C68_in_place {H : Heap} (hwf : H.WF) {w r : Ref} (hw : H.HasMap w) (hr : r ≠ w) {k : GoStr} {s : Slice} (hk : k ≠ headerPush)
    (he : (k, s) ∈ H.map r) {i : Nat} (hi : i < s.len) (v : GoStr) :
    ∃ H', (H.serveHeaders w (some r)).writeElem w k i v = some H' ∧
      H'.lookup (some r) k = some ((H.strings s).set i v) := by
  have hg := serve_get hwf hw hk he
  have hv : s.Valid H := (hwf r).2 _ he
  refine ⟨_, by rw [Heap.writeElem, hg]; exact if_pos hi, ?_⟩
  have hg' : H.get (some r) k = some s := Heap.get_of_mem hwf he
  rw [Heap.lookup, get_eq, Heap.map_setArr, serve_map hr, ← get_eq, hg', Option.map_some]
  simp only [Heap.strings]
  rw [Heap.arr_setArr_self (by simp), serve_arr]
  congr 1
  apply List.ext_getElem?
  intro n
  have := hv.1
  have := hv.2
  simp only [List.getElem?_take, List.getElem?_drop, List.getElem?_set, List.length_take, List.length_drop]
  by_cases hn : n = i
  · subst hn
    rw [if_pos hi, if_pos rfl, if_pos (by omega), if_pos rfl, if_pos (by omega)]
  · simp only [if_neg (by omega : ¬ s.off + i = s.off + n), if_neg (fun e : i = n => hn e.symm)]

example : let H : Heap := { extArrs := [[lit "a"]], extMaps := [[], [(lit "Vary", { arr := .ext 0, len := 1, cap := 1 })]] }
    ((H.serveHeaders (.ext 0) (some (.ext 1))).writeElem (.ext 0) (lit "Vary") 0 (lit "z")).map (fun H' => H'.lookup (some (.ext 1)) (lit "Vary")) =
      some (some [lit "z"]) := by decide +kernel

-- A Builder that does not append, and two ResponseWriters.
def setOps : List BOp :=
  [.ext .newMap, .ext .newMap, .new, .on 0 (.withHeader (lit "Vary") (lit "a") false), .on 0 (.withBody (some 0)), .build 0, .respCopy 0]

example : (∀ op ∈ setOps, op.legal) ∧ (∀ op ∈ setOps, ¬ op.appends) ∧
    (BState.after growEnv { bodies := [[1, 2, 3]] } setOps).rsps.map Rsp.hdrs = [some (.own 0), some (.own 0)] ∧
    (BState.after growEnv { bodies := [[1, 2, 3]] } setOps).heap.lookup (some (.own 0)) (lit "Vary") = some [lit "a"] ∧
    NewWriters [.ext 0, .ext 1] ((BState.after growEnv { bodies := [[1, 2, 3]] } setOps).rsps.map Rsp.hdrs)
      (BState.after growEnv { bodies := [[1, 2, 3]] } setOps).heap := by
  refine ⟨by simp [setOps, BOp.legal], by simp [setOps, BOp.appends, LOp.appends], by decide +kernel, by decide +kernel, by decide,
    by decide +kernel, ?_, ?_⟩
  · have : (BState.after growEnv { bodies := [[1, 2, 3]] } setOps).heap.extMaps.length = 2 := by decide +kernel
    simp [Heap.HasMap, this]
  · have : (BState.after growEnv { bodies := [[1, 2, 3]] } setOps).heap.extMaps = [[], []] := by decide +kernel
    simp [Heap.map, this]

end Verif
