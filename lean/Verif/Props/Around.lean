import Verif.Props.Told

/-!
# C80: header maps and PageGenerators of the program

Examples: a program that makes a header map and passes it to `WithHeaders`, and one with a PageGenerator of its own.
-/

set_option autoImplicit false

namespace Verif
open Spec Spec.Told Spec.Wire ToldP
open Verif.Wire (wire)

/-- A PageGenerator that makes a page for errors, and does not know what to do with redirects. -/
def oopsGen : Gen (Shelf MemFam) where
  redirect X _ _ := (X, .panic (.value 3))
  error X code _ :=
    let b := X.add (toldKinds.mem (fromBytes (lit "oops")))
    (b.1, .ret (.fresh [(lit "X-Code", [itoa code])], some b.2))

def oopsEnv : BEnv (Shelf MemFam) where
  store := Shelf.store toldKinds
  gens g := if g = 1 then oopsGen else defaultGen (Shelf.store toldKinds) toldAround.text
  mime := Mime.normal
  spare n := n + 1

theorem oopsEnv_noShared : NoShared oopsEnv := by
  intro g X
  constructor <;> intros <;> simp only [oopsEnv] <;> split <;> simp [oopsGen, defaultGen]

/-- Its pages. -/
def oopsPages : Pages where
  redirect _ _ := none
  error code _ := some { fields := fun k => if k = lit "x-code" then [itoa code] else [], body := some (lit "oops") }

theorem oops_makes : toldKinds.Makes oopsGen oopsPages := by
  refine ⟨fun X code location => ⟨fun _ _ h => h, .value 3, rfl⟩, fun X code e => ⟨fun _ _ h => holds_add h _, _, _, _, rfl, rfl, ?_, _, rfl, holds_new toldKinds X _⟩⟩
  have := hdrs_of [(lit "X-Code", [itoa code])] HdrsRel.none (by
    simp only [List.mem_cons, List.not_mem_nil, or_false]
    rintro e rfl
    exact ⟨by show canon (lit "X-Code") = lit "X-Code"; decide +kernel, by simp⟩)
  refine this.of_fields (q := { fields := fun k => if k = lit "x-code" then [itoa code] else [] }) ?_
  simp only [List.foldl_cons, List.foldl_nil, Plan.put]
  rw [show lower (lit "X-Code") = lit "x-code" by decide +kernel]

/-- The program has made a map. -/
def mapState : BState (Shelf MemFam) := { bodies := {}, heap := { extArrs := [[lit "a", lit "b", lit "c"]], extMaps := [[(lit "X-From", { arr := .ext 0, len := 2, cap := 3 })]] } }

theorem mapState_lived : mapState.Lived oopsEnv :=
  (((BState.Lived.start ({} : Shelf MemFam)).step (op := .ext (.newArr [lit "a", lit "b", lit "c"])) trivial).step (op := .ext .newMap) trivial).step
    (op := .ext (.put 0 (lit "X-From") { arr := .ext 0, len := 2, cap := 3 })) trivial

/-- What is around the handlers. -/
def oopsAround : Around where
  text := toldAround.text
  maps _ k := if k = lit "x-from" then [lit "a", lit "b"] else []
  gens _ := oopsPages

theorem mapState_offers : mapState.heap.Offers 0 (oopsAround.maps 0) := by
  constructor
  · have := hdrs_of [(lit "X-From", [lit "a", lit "b"])] HdrsRel.none (by
      simp only [List.mem_cons, List.not_mem_nil, or_false]
      rintro e rfl
      exact ⟨by decide +kernel, by simp⟩)
    have e : mapState.heap.lookup (some (.ext 0)) = Hdrs.of [(lit "X-From", [lit "a", lit "b"])] := by
      funext k
      by_cases hk : k = lit "X-From"
      · subst hk; decide +kernel
      · simp [Heap.lookup, Heap.get, Heap.entries, Heap.map, mapState, Hdrs.of, Hdrs.with, Hdrs.none, hk, Ne.symm hk]
    rw [e]
    refine HdrsRel.of_fields (q := { fields := oopsAround.maps 0 }) this ?_
    simp only [List.foldl_cons, List.foldl_nil, Plan.put, oopsAround]
    rw [show lower (lit "X-From") = lit "x-from" by decide +kernel]
  · intro e he
    simp only [mapState, Heap.map, List.getElem?_cons_zero, Option.getD_some, List.mem_cons, List.not_mem_nil, or_false] at he
    subst he
    exact ⟨0, rfl⟩

/-- A handler that takes the map and adds to it. -/
def mapCalls : List Say := [.header (lit "X-Lost") (lit "1") false, .headers (some 0), .header (lit "x-FROM") (lit "d") true, .bytes (lit "hello")]

-- There is a plan, ...
example : ∃ p, LeadsAll oopsAround {} mapCalls p ∧ p.fields (lit "x-from") = [lit "a", lit "b", lit "d"] ∧ p.fields (lit "x-lost") = [] ∧ Spec.Told.Sendable p (lit "hello") :=
  ⟨_, .cons (.set _ (by decide)) (.cons (.headers 0) (.cons (.add _ (by decide)) (.cons (.bytes _) (.nil _)))), by decide +kernel, by decide +kernel, by decide,
    by show (200 : Int) ≠ 304; decide, by decide +kernel, .inl (by decide +kernel)⟩

-- ... it is carried out, ...
example : ∃ p C, LeadsAll oopsAround {} mapCalls p ∧ p.body = some C ∧ ∃ s', mapState.handle toldKinds oopsEnv mapCalls = (s', .made 0) ∧ Arrives toldKinds s' 0 p C := by
  rcases C80_client oopsEnv_noShared rfl (A := oopsAround) rfl rfl mapState_lived (fun _ _ h => by cases h) mapCalls (by
    intro x hx
    simp only [mapCalls, List.mem_cons, List.not_mem_nil, or_false] at hx
    rcases hx with rfl | rfl | rfl | rfl <;> try trivial
    exact mapState_offers) with ⟨⟨e, h⟩, -⟩ | ⟨p, C, h1, h2, s', h3, h4⟩
  · have h' := congrArg endOf h
    rw [show endOf (mapState.handle toldKinds oopsEnv mapCalls).2 = .inl 0 by decide +kernel] at h'
    cases h'
  · exact ⟨p, C, h1, h2, s', h3, h4⟩

-- ... and the map and the array behind it are as they were: there was room in it for the value that was added.
example : let x := mapState.handle toldKinds oopsEnv mapCalls
    (x.1.rsps.map fun r => x.1.heap.lookup r.hdrs (lit "X-From")) = [some [lit "a", lit "b", lit "d"]] ∧ x.1.heap.extArrs = mapState.heap.extArrs ∧
      x.1.heap.extMaps = mapState.heap.extMaps :=
  ⟨by decide +kernel, by decide +kernel, by decide +kernel⟩

/-- A handler with the PageGenerator. -/
def oopsCalls : List Say := [.generator (some 1), .status 200, .errorPage 500 (some (.ext 2)), .header (lit "X-More") (lit "y") true]

theorem oops_known (x : Say) (hx : x ∈ oopsCalls) : x.Known toldKinds oopsEnv oopsAround mapState.heap := by
  simp only [oopsCalls, List.mem_cons, List.not_mem_nil, or_false] at hx
  rcases hx with rfl | rfl | rfl | rfl <;> try trivial
  exact .inr oops_makes

example : ∃ p, LeadsAll oopsAround {} oopsCalls p ∧ p.status = 500 ∧ p.fields (lit "x-code") = [lit "500"] ∧ p.fields (lit "x-more") = [lit "y"] ∧ p.body = some (lit "oops") ∧
    Spec.Told.Sendable p (lit "oops") :=
  ⟨_, .cons (.generator 1) (.cons (.status (by decide) (by decide)) (.cons (.errorBy (by decide) (by decide) (by decide) rfl) (.cons (.add _ (by decide)) (.nil _)))), rfl,
    by decide +kernel, by decide +kernel, rfl, by decide, by show (500 : Int) ≠ 304; decide, by decide +kernel, .inl (by decide +kernel)⟩

-- What the client gets.
example : let s := (mapState.handle toldKinds oopsEnv oopsCalls).1
    s.rsps.map (fun r => (r.code, r.body)) = [(500, some 0)] ∧
    let x := overNet true 99 true false (s.bodies.ops toldKinds 0) 99 false (fun _ => .ret ())
      (.resp { code := 500, hdrs := [(lit "X-Code", [lit "500"]), (lit "X-More", [lit "y"]), (lit "Content-Type", [lit "application/octet-stream"]), (lit "Content-Length", [lit "4"])],
               body := s.bodies, err := none })
    receive true false (wire (WireP.plain false x.1) x.1) =
      some ({ status := 500
              fields := [(lit "X-Code", lit "500"), (lit "X-More", lit "y"), (lit "Content-Type", lit "application/octet-stream"), (lit "Content-Length", lit "4"), (lit "Date", [])]
              body := lit "oops" }, []) := ⟨by decide +kernel, by decide +kernel⟩

-- A page that it does not make, and then one by the default generator.
example : endOf (mapState.handle toldKinds oopsEnv [.generator (some 1), .redirectPage 302 (lit "/x")]).2 = .inr (some (.value 3)) ∧
    (¬ ∃ p, LeadsAll oopsAround {} [.generator (some 1), .redirectPage 302 (lit "/x")] p) ∧
    endOf (mapState.handle toldKinds oopsEnv [.generator (some 1), .generator (some 0), .redirectPage 302 (lit " /x ")]).2 = .inl 0 := by
  refine ⟨by decide +kernel, ?_, by decide +kernel⟩
  rintro ⟨p, h⟩
  cases h with
  | cons h1 h2 =>
    cases h1
    cases h2 with
    | cons h1 h2 =>
      cases h1 with
      | redirectPage h0 => cases h0
      | redirectBy _ _ _ _ _ h => cases h

end Verif
