import Verif.Props.Pages

/-!
# What is shared nevertheless (C29, C30), iteration order (C46), Content-Length (C48), and examples for C26–C33
-/

set_option autoImplicit false

namespace Verif

open Spec

variable {B : Type}

/-! ## A concrete environment -/

/-- A body is a list of bytes. -/
def exStore : BodyStore (List (List Byte)) where
  remaining X i := match X[i]? with | some b => b.length | none => -1
  copy X i := match X[i]? with | some b => (X ++ [b], .ret (.ok X.length)) | none => (X, .ret (.error .closed))
  fromBytes X raw := (X ++ [raw], X.length)

def exEnv : BEnv (List (List Byte)) where
  store := exStore
  gens _ := defaultGen exStore (fun c => if c = 404 then lit "Not Found" else [])
  mime := some
  spare n := n + 1

theorem exEnv_noShared : NoShared exEnv := by
  intro g X
  constructor <;> intros <;> simp [exEnv, defaultGen]

/-- Other code makes a map and gives it to a Builder. -/
def exOps : List BOp :=
  [.ext (.newArr [lit "a", lit "b"]), .ext .newMap, .ext (.put 0 (lit "X") { arr := .ext 0, len := 2, cap := 2 }), .new,
    .on 0 (.withHeaders (some (.ext 0))), .on 0 (.withStatus 404), .on 0 (.withBody (some 0))]

def exState : BState (List (List Byte)) := .after exEnv { bodies := [[1, 2, 3]] } exOps

theorem exOps_legal : ∀ op ∈ exOps, op.legal := by simp [exOps, BOp.legal]

theorem exState_reached : Reached exEnv exState := ⟨_, _, exOps_legal, rfl⟩

def exBld : Bld := { code := 404, hdrs := some (.own 0), body := some 0 }

theorem exState_bld : exState.blds[0]? = some exBld := by decide +kernel

-- C26: the status is the one last set; a copy has it too; after Build it is gone.
example : (lastStatus (BState.trace exEnv { bodies := [[1, 2, 3]] } (exOps ++ [.copy 0, .on 1 (.withStatus 500), .build 0]))) =
    [none, some 500] := by decide +kernel
example : ((exState.step exEnv (.build 0)).1.rsps.map Rsp.code) = [404] := by decide +kernel
example : ¬ StatusOk 199 ∧ ¬ StatusOk 1000 ∧ StatusOk 200 ∧ StatusOk 999 := by simp [StatusOk]

-- C27: with the headers of the Builder, and a Content-Type and the Content-Length.
example :
    let s' := (exState.step exEnv (.build 0)).1
    let f := s'.heap.lookup (some (.own 0))
    s'.rsps.map Rsp.hdrs = [some (.own 0)] ∧ f (lit "X") = some [lit "a", lit "b"] ∧
      f (lit "Content-Type") = some [lit "application/octet-stream"] ∧ f (lit "Content-Length") = some [lit "3"] := by
  decide +kernel

-- C28: the hypotheses can be met, also with a PageGenerator that is kept.
example : exBld.body ≠ none ∧ (exState.step exEnv (.build 0)).1.blds = [{}] := by decide +kernel
example : ((exState.step exEnv (.on 0 (.withPageGenerator (some 7)))).1.step exEnv (.build 0)).1.blds = [{ gen := some 7 }] := by
  decide +kernel
example : (BState.after exEnv { bodies := [] } [.new, .on 0 (.withStatus 404)]).blds = [{ code := 404 }] := by decide +kernel

-- C29: the other code changes its map and its slice; the Builder does not notice.
example :
    let s' := exState.after exEnv [.ext (.elem 0 0 (lit "z")), .ext (.put 0 (lit "Y") { arr := .ext 0, len := 1, cap := 2 })]
    s'.heap.lookup (some (.ext 0)) (lit "X") = some [lit "z", lit "b"] ∧ s'.heap.lookup (some (.ext 0)) (lit "Y") = some [lit "z"] ∧
      s'.heap.lookup exBld.hdrs (lit "X") = some [lit "a", lit "b"] ∧ s'.heap.lookup exBld.hdrs (lit "Y") = none := by
  decide +kernel

-- C29: a copy, and the two edited independently (in place, by appending, and through Headers()).
example :
    let s' := exState.after exEnv [.copy 0, .on 1 (.withHeader (lit "x") (lit "c") true), .on 1 (.withHeader (lit "x") (lit "d") true),
      .on 1 (.elem (lit "X") 0 (lit "q")), .on 0 (.withoutHeader (lit "X"))]
    (s'.blds.map fun b => s'.heap.lookup b.hdrs (lit "X")) = [none, some [lit "q", lit "b", lit "c", lit "d"]] := by
  decide +kernel

-- C30: the Builder is used for another Response.
example :
    let s' := exState.after exEnv [.build 0, .on 0 (.withHeader (lit "X") (lit "new") false), .on 0 (.withBody (some 0)), .build 0]
    (s'.rsps.map fun b => s'.heap.lookup b.hdrs (lit "X")) = [some [lit "a", lit "b"], some [lit "new"]] := by
  decide +kernel

-- C31: names in any letter case.
example : canon (lit "content-TYPE") = lit "Content-Type" ∧ canon (lit "x y") = lit "x y" ∧ canon (lit "etag") = lit "Etag" := by
  decide +kernel
example : lit "x-Foo" ≠ [] ∧ exState.blds[0]? = some exBld := by decide +kernel

-- C32
example : etag (lit "v1") true = lit "\"v1\"" ∧ etag (lit "v1") false = lit "W/\"v1\"" := by decide +kernel
example : unbase64 (lit "AQID") = some [1, 2, 3] ∧ unbase64 (lit "AQ==") = some [1] ∧ unbase64 (lit "AQ=") = none := by decide +kernel
example :
    let s' := exState.after exEnv [.on 0 (.withDigest (lit "a=b") [1, 2, 3]), .on 0 (.withDigest (lit "md5") [1])]
    s'.heap.lookup (s'.blds[0]?.bind Bld.hdrs) (lit "Digest") = some [lit "a=b=AQID", lit "md5=AQ=="] := by decide +kernel

-- C33
example : exEnv.gens 0 = defaultGen exEnv.store (fun c => if c = 404 then lit "Not Found" else []) := rfl
example :
    let s' := exState.after exEnv [.on 0 (.redirectPage 302 (lit " /a?b=\"<&> "))]
    let f := s'.heap.lookup (s'.blds[0]?.bind Bld.hdrs)
    s'.bodies[1]? = some (lit "<!DOCTYPE html>\r\n<p>Redirecting to <a href=\"/a?b=&#34;&lt;&amp;&gt;\">/a?b=&#34;&lt;&amp;&gt;</a>...</p>\r\n") ∧
      f (lit "Location") = some [lit "/a?b=\"<&>"] ∧ f (lit "Content-Length") = some [lit "105"] ∧ f (lit "X") = none := by
  decide +kernel
example :
    let s' := exState.after exEnv [.on 0 (.errorPage 404 (some (.ext 1)))]
    s'.bodies[1]? = some (lit "404 Not Found\r\n") := by
  decide +kernel
example : ¬ Blank (lit " /x ") ∧ Blank (lit " \t\r\n") := by
  rw [← trimSpace_nil_iff, ← trimSpace_nil_iff]
  decide +kernel

/-! ## What is shared -/

/-- **C30 (handed over).**  `Build` does not copy the map of the Builder: the Response has the map that `Headers()` returned
before. -/
theorem C30_handed_over {E : BEnv B} {s : BState B} {h j : Nat} {b : Bld} {m : Ref} (hb : s.blds[h]? = some b) (hm : b.hdrs = some m)
    (ho : (s.step E (.build h)).2 = .made j) : ∃ r, (s.step E (.build h)).1.rsps[j]? = some r ∧ r.hdrs = some m := by
  simp only [BState.step, hb] at ho ⊢
  cases hq : b.build E.store s.heap s.bodies with
  | none => rw [hq] at ho; cases ho
  | some v =>
    obtain ⟨H', b', r⟩ := v
    rw [hq] at ho
    simp only [BOut.made.injEq] at ho
    subst ho
    refine ⟨r, by simp, ?_⟩
    simp only [Bld.build] at hq
    split at hq
    · cases hq
    · simp only [Option.some.injEq, Prod.mk.injEq] at hq
      rw [← hq.2.2]
      simp [Bld.headers, hm]

/-- **C30 (copies share).**  `Response.Copy` does not copy the map either. -/
theorem C30_copy_shares {E : BEnv B} {s : BState B} {j n : Nat} {r : Rsp} (hr : s.rsps[j]? = some r)
    (ho : (s.step E (.respCopy j)).2 = .made n) : ∃ r', (s.step E (.respCopy j)).1.rsps[n]? = some r' ∧ r'.hdrs = r.hdrs := by
  simp only [BState.step, hr] at ho ⊢
  rcases hq : copyBody E.store s.bodies r.body with ⟨X, o⟩
  rw [hq] at ho
  cases o with
  | panic p => cases ho
  | hang => cases ho
  | ret v =>
    cases v with
    | error e => cases ho
    | ok body =>
      simp only [BOut.made.injEq] at ho
      subst ho
      exact ⟨{ r with body := body }, by simp, rfl⟩

/-- **C30 (a kept map).**  A caller who kept the map of `Headers()` can change the Response through it. -/
theorem C30_kept_map_changes_response :
    ∃ (s : BState (List (List Byte))) (b : Bld) (m : Ref), Reached exEnv s ∧ s.blds[0]? = some b ∧ b.hdrs = some m ∧
      ∃ r, (s.step exEnv (.build 0)).1.rsps[0]? = some r ∧
        ((s.step exEnv (.build 0)).1.step exEnv (.poke m (lit "X") [lit "changed"])).1.heap.lookup r.hdrs (lit "X") ≠
          (s.step exEnv (.build 0)).1.heap.lookup r.hdrs (lit "X") :=
  ⟨exState, exBld, .own 0, exState_reached, exState_bld, rfl,
    { code := 404, hdrs := some (.own 0), body := some 0, err := none }, by decide +kernel, by decide +kernel⟩

/-- A PageGenerator that returns the same map every time. -/
def sharingEnv : BEnv (List (List Byte)) :=
  { exEnv with gens := fun _ => { redirect := fun X _ _ => (X, .ret (.shared (.ext 0), some 0)), error := fun X _ _ => (X, .ret (.shared (.ext 0), some 0)) } }

/-- **C29, C30 are false for PageGenerators that return a shared map**: `Build` adds Content-Type and Content-Length to the
generator's own map, and a later edit on another Builder changes the Response. -/
theorem C30_shared_generator :
    ∃ ops : List BOp, (∀ op ∈ ops, op.legal) ∧
      let s := BState.after sharingEnv { bodies := [[1, 2, 3]] } ops
      let s' := s.after sharingEnv [.on 1 (.errorPage 404 (some (.ext 1))), .on 1 (.withHeader (lit "X") (lit "v") false)]
      ∃ r, s.rsps[0]? = some r ∧ s.heap.lookup r.hdrs (lit "X") = none ∧ s'.heap.lookup r.hdrs (lit "X") = some [lit "v"] ∧
        s.heap.lookup (some (.ext 0)) (lit "Content-Length") = some [lit "3"] :=
  ⟨[.ext .newMap, .new, .new, .on 0 (.errorPage 404 (some (.ext 1))), .build 0], by simp [BOp.legal],
    { code := 404, hdrs := some (.ext 0), body := some 0, err := some (.ext 1) }, by decide +kernel, by decide +kernel,
    by decide +kernel, by decide +kernel⟩

/-! ## C46: `copyHeaders` ranges over a map -/

theorem get_perm {H : Heap} (hw : H.WF) (r : Ref) {l : List (GoStr × Slice)} (hp : l.Perm (H.map r)) :
    (H.setMap r l).WF ∧ (H.setMap r l).lookup (some r) = H.lookup (some r) := by
  have hk : l.Pairwise (fun a b => a.1 ≠ b.1) :=
    (hp.pairwise_iff (R := fun a b : GoStr × Slice => a.1 ≠ b.1) (fun h e => h e.symm)).2 (hw r).1
  have hw' : (H.setMap r l).WF := WF.setMap hw r hk fun e he => (hw r).2 e (hp.mem_iff.1 he)
  refine ⟨hw', ?_⟩
  have hm : ∀ e, e ∈ (H.setMap r l).map r ↔ e ∈ H.map r := by
    intro e
    have : (H.setMap r l).map r = l ∨ ((H.setMap r l).map r = [] ∧ H.map r = []) := by
      cases r with
      | ext i =>
        simp only [Heap.map, Heap.setMap, List.getElem?_set]
        by_cases hi : i < H.extMaps.length <;> simp [hi]
      | own i =>
        simp only [Heap.map, Heap.setMap, List.getElem?_set]
        by_cases hi : i < H.ownMaps.length <;> simp [hi]
    rcases this with h | ⟨h, h'⟩
    · rw [h]; exact hp.mem_iff
    · rw [h, h']
  funext k
  have hs : ∀ s, (H.setMap r l).strings s = H.strings s := Heap.strings_setMap H r l
  have hg : (H.setMap r l).get (some r) k = H.get (some r) k := by
    cases h1 : H.get (some r) k with
    | some s => exact Heap.get_of_mem hw' ((hm _).2 (Heap.get_some h1))
    | none =>
      cases h2 : (H.setMap r l).get (some r) k with
      | none => rfl
      | some s =>
        have := Heap.get_of_mem hw ((hm _).1 (Heap.get_some h2))
        rw [h1] at this
        cases this
  simp only [Heap.lookup, hg]
  cases H.get (some r) k <;> simp [hs]

/-- **C46 (`copyHeaders`).**  The contents of the copy do not depend on the order in which the map is iterated over. -/
theorem C46_copyHeaders {H : Heap} (hw : H.WF) (r : Ref) {l : List (GoStr × Slice)} (hp : l.Perm (H.map r)) :
    ((H.setMap r l).copyHeaders (some r)).1.lookup ((H.setMap r l).copyHeaders (some r)).2 =
      (H.copyHeaders (some r)).1.lookup (H.copyHeaders (some r)).2 := by
  obtain ⟨h1, h2⟩ := get_perm hw r hp
  have c1 := copyHeaders_spec (om := fun _ => .rsp) (oa := fun _ => .rsp) (t := .rsp) hw ⟨fun _ _ => rfl, fun _ _ => rfl⟩ (some r)
  have c2 := copyHeaders_spec (om := fun _ => .rsp) (oa := fun _ => .rsp) (t := .rsp) h1 ⟨fun _ _ => rfl, fun _ _ => rfl⟩ (some r)
  rw [c1.2.lookup, c2.2.lookup, h2]

theorem Reached.wf {E : BEnv B} (hE : NoShared E) {s : BState B} (hs : Reached E s) : s.heap.WF := by
  obtain ⟨_, _, _, R⟩ := hs.rel hE
  exact R.wf

-- a map with two entries, in the other order
example :
    let H := exState.heap.put (.ext 0) (lit "Y") { arr := .ext 0, len := 1, cap := 1 }
    H.map (.ext 0) = [(lit "X", { arr := .ext 0, len := 2, cap := 2 }), (lit "Y", { arr := .ext 0, len := 1, cap := 1 })] := by
  decide +kernel

/-! ## C48: the declared length -/

/-- **C48 (partial).**  If the Builder has no Content-Length header when `Build` is called, then the Content-Length of the Response
is the number of bytes remaining in its Body; there is none if that number is unknown. -/
theorem C48_content_length_partial {E : BEnv B} (hE : NoShared E) {s : BState B} (hs : Reached E s) {h : Nat} {b : Bld}
    (hb : s.blds[h]? = some b) {i : Nat} (hi : b.body = some i) (hn : s.heap.lookup b.hdrs (lit "Content-Length") = none) :
    ∃ s' r, s.step E (.build h) = (s', .made s.rsps.length) ∧ s'.rsps[s.rsps.length]? = some r ∧ r.body = some i ∧
      s'.bodies = s.bodies ∧
      ((0 ≤ E.store.remaining s'.bodies i ∧ ∃ v, s'.heap.lookup r.hdrs (lit "Content-Length") = some [v] ∧
          decimal v = some (E.store.remaining s'.bodies i)) ∨
        (E.store.remaining s'.bodies i < 0 ∧ s'.heap.lookup r.hdrs (lit "Content-Length") = none)) := by
  obtain ⟨H', r, h1, _, h3, _, h2⟩ := build_step hE hs hb hi
  have hne : lit "Content-Length" ≠ lit "Content-Type" := by decide +kernel
  refine ⟨_, r, h1, by simp, h3.trans hi, rfl, ?_⟩
  simp only
  rw [h2]
  rcases Int.lt_or_le (E.store.remaining s.bodies i) 0 with hn' | hn'
  · refine .inr ⟨hn', ?_⟩
    simp only [Hdrs.filled, hn]
    rw [if_neg hne, if_neg (by omega)]
  · exact .inl ⟨hn', itoa (E.store.remaining s.bodies i), by simp [Hdrs.filled, hn, hne, hn'], decimal_itoa _⟩

example : exState.heap.lookup exBld.hdrs (lit "Content-Length") = none := by decide +kernel

/-- **C48 is false in general**, although the caller never mentions Content-Length: after `ErrorPage(404, err).WithBody(b)` the
Response declares the length of the generated page, which is not the length of `b`. -/
theorem C48_stale_content_length :
    let s := BState.after exEnv { bodies := [[1, 2, 3]] } [.new, .on 0 (.errorPage 404 (some (.ext 1))), .on 0 (.withBody (some 0)), .build 0]
    ∃ r, s.rsps[0]? = some r ∧ r.body = some 0 ∧ exStore.remaining s.bodies 0 = 3 ∧
      s.heap.lookup r.hdrs (lit "Content-Length") = some [lit "15"] :=
  ⟨{ code := 404, hdrs := some (.own 0), body := some 0, err := some (.ext 1) }, by decide +kernel, by decide +kernel,
    by decide +kernel, by decide +kernel⟩

end Verif
