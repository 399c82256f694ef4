import Verif.Model.Store
import Verif.Props.Success
import Verif.Props.Sharing

/-!
# C55, from the Builder to the client

`C55_bytes`, `C55_readerAt`, `C55_seeker`, `C55_stream`: for the Bodies of this repository.  `C55_built`: for Responses made by a
Builder: the Content-Length header is the number of bytes that are sent.  `C55_error_page`, `C55_redirect_page`: the pages of the default
generator arrive.
-/

set_option autoImplicit false

namespace Verif
open Spec
variable {β γ ω σ : Type}

/-! ## The Bodies of this repository -/

/-- **C55**, for `FromBytes` and `FromString` of a non-empty string. -/
theorem C55_bytes {N : RW ω} {data : List Byte} {K : Nat} (hN : Obliging N data K) (hK : 32768 ≤ K) (hK' : K < 2 ^ 62)
    (hlen : data.length < 2 ^ 63) (hne : data ≠ []) (raises isHEAD : Bool) (fuel : Nat) (hf : data.length < fuel) (assertErr : Bool)
    (onPanic : PanicArg → Res Unit) (code : Int) (h1 : 100 ≤ code) (h2 : code ≤ 999) (hdrs : List (GoStr × List GoStr)) (err : Option Err) (w : ω) :
    Answered (request N raises isHEAD (BodyOps.ofFam MemFam.step true 0) fuel assertErr onPanic (.resp { code, hdrs, body := fromBytes data, err }) w)
      (if N.isPusher then hdrGet hdrs (lit "Push") else []) hdrs code (sentBody isHEAD code data) :=
  C55_request hN hK (mem_lively data hlen hne 0 K hK') raises isHEAD fuel hf assertErr onPanic { code, hdrs, body := fromBytes data, err }
    (mem_source_init data) h1 h2 w

/-- **C55**, for the first `n` bytes of a well-behaved `io.ReaderAt`. -/
theorem C55_readerAt {N : RW ω} {R : Rdr σ} {F : List Byte} {Inv : σ → Prop} (hR : IsReaderAt R F Inv) (hq : CloseNil R) (n : Nat)
    (hn : n ≤ F.length) (hn63 : n < 2 ^ 63) {st : σ} (hi : Inv st) {K : Nat} (hN : Obliging N (F.take n) K) (hK : 32768 ≤ K) (hK' : K < 2 ^ 62)
    (raises isHEAD : Bool) (fuel : Nat) (hf : n < fuel) (assertErr : Bool)
    (onPanic : PanicArg → Res Unit) (code : Int) (h1 : 100 ≤ code) (h2 : code ≤ 999) (hdrs : List (GoStr × List GoStr)) (err : Option Err) (w : ω) :
    Answered (request N raises isHEAD (BodyOps.ofFam (ReaderAtBody.step R) false 0) fuel assertErr onPanic
        (.resp { code, hdrs, body := ReaderAtBody.init st n, err }) w)
      (if N.isPusher then hdrGet hdrs (lit "Push") else []) hdrs code (sentBody isHEAD code (F.take n)) :=
  C55_request hN hK (readerAt_lively hR hq n hn hn63 0 K hK') raises isHEAD fuel (by simp; omega) assertErr onPanic
    { code, hdrs, body := ReaderAtBody.init st n, err } (readerAt_source_init hi n hn) h1 h2 w

/-- **C55**, for the first `n` bytes of a well-behaved `io.ReadSeeker` that fills the buffer. -/
theorem C55_seeker {N : RW ω} {R : Rdr σ} {F : List Byte} {At : σ → Nat → Prop} (hR : IsFullSeeker R F At) (hq : CloseNil R) (n : Nat)
    (hn : n ≤ F.length) (hn63 : n < 2 ^ 63) {st : σ} {p : Nat} (hi : At st p) {K : Nat} (hN : Obliging N (F.take n) K) (hK : 32768 ≤ K)
    (hK' : K < 2 ^ 62) (raises isHEAD : Bool) (fuel : Nat) (hf : n < fuel) (assertErr : Bool)
    (onPanic : PanicArg → Res Unit) (code : Int) (h1 : 100 ≤ code) (h2 : code ≤ 999) (hdrs : List (GoStr × List GoStr)) (err : Option Err) (w : ω) :
    Answered (request N raises isHEAD (BodyOps.ofFam (SeekerBody.step R) false 0) fuel assertErr onPanic
        (.resp { code, hdrs, body := SeekerBody.init st n, err }) w)
      (if N.isPusher then hdrGet hdrs (lit "Push") else []) hdrs code (sentBody isHEAD code (F.take n)) :=
  C55_request hN hK (seeker_lively hR hq n hn hn63 0 K hK') raises isHEAD fuel (by simp; omega) assertErr onPanic
    { code, hdrs, body := SeekerBody.init st n, err } ⟨_, _, psim_init ⟨p, hi⟩ hn, rfl, rfl, by simp [Cursor.rest]⟩ h1 h2 w

/-- **C55**, for a stream (its first `L` bytes if a length `L` was given) that comes to its end. -/
theorem C55_stream {N : RW ω} {R : Rdr σ} (hq : CloseNil R) {Inv : σ → List Byte → Prop} (hS : IsStream R .eof Inv) {b : Nat} {idle : σ → Nat}
    (hE : Eager R b idle) {st : σ} {T : List Byte} (hi : Inv st T) (L : Int) {K : Nat} (hN : Obliging N (cut T L) K) (hK : 32768 ≤ K)
    (hK' : K < 2 ^ 62) (loops : Nat) (hl : (K + 65536) * (b + 1) + b < loops) (raises isHEAD : Bool) (fuel : Nat) (hf : T.length < fuel)
    (assertErr : Bool) (onPanic : PanicArg → Res Unit) (code : Int) (h1 : 100 ≤ code) (h2 : code ≤ 999) (hdrs : List (GoStr × List GoStr))
    (err : Option Err) (w : ω) :
    Answered (request N raises isHEAD (BodyOps.ofFam (streamStep R loops) false 0) fuel assertErr onPanic
        (.resp { code, hdrs, body := streamInit st L, err }) w)
      (if N.isPusher then hdrGet hdrs (lit "Push") else []) hdrs code (sentBody isHEAD code (cut T L)) :=
  C55_request hN hK (stream_lively hq hS hE T L K hK' loops hl 0) raises isHEAD fuel
    (by unfold cut; split
        · rw [List.length_take]; omega
        · exact hf) assertErr onPanic
    { code, hdrs, body := streamInit st L, err } (stream_source_init st T hi L) h1 h2 w

/-! ## From the Builder -/

/-- The entries of a header map, in any order. -/
def Spec.Lists (hdrs : List (GoStr × List GoStr)) (f : Hdrs) : Prop := ∀ k v, (k, v) ∈ hdrs ↔ f k = some v

theorem conversation_sets {log : List WEv} {urls : List GoStr} {hdrs : List (GoStr × List GoStr)} {code : Int} {C : List Byte}
    (h : Conversation log urls hdrs code C) {f : Hdrs} (hl : Lists hdrs f) {k : GoStr} (hk : k ≠ lit "Push") (vs : List GoStr) :
    .set k vs ∈ log ↔ f k = some vs := by
  obtain ⟨P, T, rfl, h1, -, h2, -⟩ := h
  rw [← hl k vs]
  constructor
  · intro hm
    rcases List.mem_append.1 hm with hm | hm
    · rcases List.mem_append.1 hm with hm | hm
      · obtain ⟨u, h | h⟩ := h1 _ hm <;> cases h
      · simp only [headerEvents, List.mem_map, List.mem_filter] at hm
        obtain ⟨⟨k', v'⟩, ⟨h3, -⟩, h4⟩ := hm
        cases h4
        exact h3
    · rcases List.mem_cons.1 hm with hm | hm
      · cases hm
      · have := h2 _ hm; cases this
  · intro hm
    apply List.mem_append_left
    apply List.mem_append_right
    simp only [headerEvents, List.mem_map, List.mem_filter]
    exact ⟨(k, vs), ⟨hm, by simpa using hk⟩, rfl⟩

theorem conversation_handed {log : List WEv} {urls : List GoStr} {hdrs : List (GoStr × List GoStr)} {code : Int} {C : List Byte}
    (h : Conversation log urls hdrs code C) : handed log = C ∧ accepted log = C.length ∧ statuses log = [code] := by
  obtain ⟨P, T, rfl, h1, -, h2, h3, h4⟩ := h
  have p1 : handed P = [] ∧ accepted P = 0 ∧ statuses P = [] := by
    clear h2 h3 h4
    induction P with
    | nil => exact ⟨rfl, rfl, rfl⟩
    | cons e P ih =>
      obtain ⟨i1, i2, i3⟩ := ih (fun e he => h1 e (List.mem_cons_of_mem _ he))
      obtain ⟨u, rfl | rfl⟩ := h1 e (by simp) <;> exact ⟨i1, i2, i3⟩
  have p2 : handed (headerEvents hdrs) = [] ∧ accepted (headerEvents hdrs) = 0 ∧ statuses (headerEvents hdrs) = [] := by
    unfold headerEvents
    generalize hdrs.filter _ = l
    induction l with
    | nil => exact ⟨rfl, rfl, rfl⟩
    | cons e l ih => exact ih
  have p3 : statuses T = [] := by
    clear h3 h4
    unfold statuses
    rw [List.filterMap_eq_nil_iff]
    intro e he
    have := h2 e he
    cases e <;> simp_all [passesBody]
  refine ⟨?_, ?_, ?_⟩
  · rw [handed_append, handed_append, p1.1, p2.1]
    exact h3
  · rw [accepted_append, accepted_append, p1.2.1, p2.2.1]
    simpa [accepted] using h4
  · have e : ∀ a b, statuses (a ++ b) = statuses a ++ statuses b := fun a b => List.filterMap_append
    rw [e, e, p1.2.2, p2.2.2]
    show code :: statuses T = _
    rw [p3]

/-- The declared length of a body: the Content-Length header was sent exactly so, and is the number of bytes sent (unless the body is suppressed). -/
structure Spec.LengthDeclared (log : List WEv) (n : Nat) : Prop where
  ex : ∃ v, decimal v = some (n : Int) ∧ ∀ vs, .set (lit "Content-Length") vs ∈ log ↔ vs = [v]

variable {X : Type}

/-- **C55**, for a Response made by a Builder that has no Content-Length header of its own, with a Body that knows its length:
the Adaptor answers the request completely, and the Content-Length header that the client gets is the length of the body. -/
theorem C55_built {E : BEnv X} (hE : NoShared E) {s : BState X} (hs : Reached E s) {h : Nat} {b : Bld} (hb : s.blds[h]? = some b)
    {i : Nat} (hi : b.body = some i) (hcl : s.heap.lookup b.hdrs (lit "Content-Length") = none)
    {N : RW ω} {C : List Byte} {K : Nat} (hN : Obliging N C K) (hK : 32768 ≤ K) {B : BodyOps X} {P : X → List Byte → Prop} (hB : Lively B P K)
    (hP : P s.bodies C) (hrem : E.store.remaining s.bodies i = C.length)
    (raises isHEAD : Bool) (fuel : Nat) (hf : C.length < fuel) (assertErr : Bool) (onPanic : PanicArg → Res Unit) (w : ω) :
    ∃ s' r, s.step E (.build h) = (s', .made s.rsps.length) ∧ s'.rsps[s.rsps.length]? = some r ∧ r.body = some i ∧ s'.bodies = s.bodies ∧
      ∀ hdrs, Lists hdrs (s'.heap.lookup r.hdrs) →
        let x := request N raises isHEAD B fuel assertErr onPanic (.resp { code := r.code, hdrs, body := s'.bodies, err := r.err }) w
        Answered x (if N.isPusher then hdrGet hdrs (lit "Push") else []) hdrs r.code (sentBody isHEAD r.code C) ∧ LengthDeclared x.1 C.length := by
  obtain ⟨s', r, h1, h2, h3⟩ := C27_headers hE hs hb hi
  obtain ⟨H', r', g1, -, g3, -, -⟩ := build_step hE hs hb hi
  rw [h1] at g1
  obtain ⟨rfl, -⟩ := Prod.mk.inj g1
  have hr : r' = r := by simpa using h2
  subst hr
  have hrange : 200 ≤ r'.code ∧ r'.code ≤ 999 := by
    obtain ⟨Y, ops, hl, e⟩ := hs.step (op := .build h) trivial
    rw [h1] at e
    exact C26_range E Y ops (by rw [← e]; exact h2)
  refine ⟨_, r', h1, h2, by rw [g3, hi], rfl, fun hdrs hlist => ?_⟩
  have ha := C55_request hN hK hB raises isHEAD fuel hf assertErr onPanic
    { code := r'.code, hdrs, body := s.bodies, err := r'.err } hP (by dsimp only; omega) hrange.2 w
  refine ⟨ha, ?_⟩
  obtain ⟨v, hv1, hv2⟩ := h3.2.2.1 hcl (by rw [hrem]; omega)
  refine ⟨v, by rw [hv2, hrem], fun vs => ?_⟩
  rw [conversation_sets ha.conversation hlist (by decide +kernel), hv1]
  constructor
  · intro h; cases h; rfl
  · rintro rfl; rfl

/-! ## The Bodies that Builders hold -/

theorem wtGives_map {B : BodyOps β} {get : γ → β} {put : γ → β → γ} {X : γ} (hgp : ∀ b, get (put X b) = b) {t : WT β} {C : List Byte}
    (h : WTGives B t C) : WTGives (B.focus get put) (t.map (put X)) C := by
  induction t generalizing C with
  | done b n err => exact ⟨h.1, h.2.1, by show (B.close (get (put X b))).2 = _; rw [hgp]; exact h.2.2⟩
  | write b d cont ih => obtain ⟨C', h1, h2⟩ := h; exact ⟨C', h1, ih _ _ h2⟩
  | panic b p => exact h
  | hang b => exact h

theorem lively_focus {B : BodyOps β} {P : β → List Byte → Prop} {K : Nat} (h : Lively B P K) {get : γ → β} {put : γ → β → γ} {Ok : γ → Prop}
    (hok : ∀ X b, Ok X → get (put X b) = b ∧ Ok (put X b)) : Lively (B.focus get put) (fun X C => Ok X ∧ P (get X) C) K where
  read X C k hk hK hX := by
    obtain ⟨b', d, e, C', h1, h2, h3, h4, h5⟩ := h.read (get X) C k hk hK hX.2
    refine ⟨put X b', d, e, C', ?_, h2, h3, ⟨(hok X b' hX.1).2, by rw [(hok X b' hX.1).1]; exact h4⟩, h5⟩
    simp [BodyOps.focus, h1]
  writeTo hw X C hX := wtGives_map (fun b => (hok X b hX.1).1) (h.writeTo hw (get X) C hX.2)
  close X hX := h.close (get X) hX.2

theorem World.fam_setFam {X : World} {f : Nat} (h : f < X.fams.length) (m : MemFam) :
    (X.setFam f m).fam f = m ∧ f < (X.setFam f m).fams.length := by
  constructor
  · simp [World.fam, World.setFam, List.getElem?_set, h]
  · simpa [World.setFam] using h

/-- What a Body of a World still has. -/
def World.Has (data : List Byte) (f h : Nat) (X : World) (C : List Byte) : Prop := f < X.fams.length ∧ SrcRel (MemRel data) h (X.fam f) C

theorem world_lively (data : List Byte) (hlen : data.length < 2 ^ 63) (hne : data ≠ []) (f h K : Nat) (hK : K < 2 ^ 62) :
    Lively (World.ops f h) (World.Has data f h) K :=
  lively_focus (mem_lively data hlen hne h K hK) (get := fun X : World => X.fam f) (put := fun X m => X.setFam f m)
    (Ok := fun X => f < X.fams.length) fun _ m hX => World.fam_setFam hX m

theorem world_fromBytes (X : World) (data : List Byte) :
    let Y := (World.store.fromBytes X data).1
    let i := (World.store.fromBytes X data).2
    Y.bodies[i]? = some (X.fams.length, 0) ∧ World.Has data X.fams.length 0 Y data ∧ World.store.remaining Y i = data.length := by
  have e : ({ fams := X.fams ++ [fromBytes data], bodies := X.bodies ++ [(X.fams.length, 0)] } : World).fam X.fams.length = fromBytes data := by
    simp [World.fam]
  refine ⟨by simp [World.store], ⟨by simp [World.store], ?_⟩, ?_⟩
  · show SrcRel _ _ (World.fam _ _) _
    simp only [World.store]
    rw [e]
    exact mem_source_init data
  · simp only [World.store, List.getElem?_concat_length, World.ops, BodyOps.focus, e]
    unfold fromBytes
    split
    · rename_i h; rw [h]; rfl
    · show (data.length : Int) - 0 = _
      simp

/-! ## The pages arrive -/

theorem of_foldl (l : List (GoStr × List GoStr)) (f : Hdrs) (hnd : (l.map Prod.fst).Nodup) (k : GoStr) (vs : List GoStr) :
    l.foldl (fun f e => f.with e.1 (some e.2)) f k = some vs ↔ (k, vs) ∈ l ∨ k ∉ l.map Prod.fst ∧ f k = some vs := by
  induction l generalizing f with
  | nil => simp
  | cons e l ih =>
    obtain ⟨k', v'⟩ := e
    simp only [List.map_cons, List.nodup_cons] at hnd
    rw [List.foldl_cons, ih _ hnd.2]
    simp only [Hdrs.with, List.mem_cons, List.map_cons, Prod.mk.injEq, not_or]
    by_cases hk : k = k'
    · subst hk
      have : (k, vs) ∉ l := fun h => hnd.1 (List.mem_map.2 ⟨_, h, rfl⟩)
      simp [this, hnd.1, eq_comm]
    · simp [hk]

theorem of_mem (l : List (GoStr × List GoStr)) (hnd : (l.map Prod.fst).Nodup) (k : GoStr) (vs : List GoStr) : Hdrs.of l k = some vs ↔ (k, vs) ∈ l := by
  unfold Hdrs.of
  rw [of_foldl l _ hnd]
  simp [Hdrs.none]

theorem of_none (l : List (GoStr × List GoStr)) {k : GoStr} (hnd : (l.map Prod.fst).Nodup ∧ k ∉ l.map Prod.fst) : Hdrs.of l k = none := by
  cases h : Hdrs.of l k with
  | none => rfl
  | some vs => exact absurd (List.mem_map.2 ⟨_, (of_mem l hnd.1 k vs).1 h, rfl⟩) hnd.2

theorem of_ne_none (l : List (GoStr × List GoStr)) {k : GoStr} (hnd : (l.map Prod.fst).Nodup ∧ k ∈ l.map Prod.fst) : Hdrs.of l k ≠ none := by
  obtain ⟨⟨k', v⟩, h, rfl⟩ := List.mem_map.1 hnd.2
  rw [(of_mem l hnd.1 _ _).2 h]
  simp

theorem conversation_no_push {log : List WEv} {urls : List GoStr} {hdrs : List (GoStr × List GoStr)} {code : Int} {C : List Byte}
    (h : Conversation log urls hdrs code C) (vs : List GoStr) : .set (lit "Push") vs ∉ log := by
  obtain ⟨P, T, rfl, h1, -, h2, -⟩ := h
  intro hm
  rcases List.mem_append.1 hm with hm | hm
  · rcases List.mem_append.1 hm with hm | hm
    · obtain ⟨u, h | h⟩ := h1 _ hm <;> cases h
    · simp only [headerEvents, List.mem_map, List.mem_filter] at hm
      obtain ⟨e, ⟨-, h3⟩, h4⟩ := hm
      have h5 : e.1 = lit "Push" := (WEv.set.inj h4).1
      simp [h5] at h3
  · rcases List.mem_cons.1 hm with hm | hm
    · cases hm
    · have := h2 _ hm; cases this

/-- A Builder with a page of its own: what the client gets. -/
theorem page_arrives {E : BEnv World} (hst : E.store = World.store) (hE : NoShared E) {s : BState World} (hs : Reached E s) {h : Nat} {b : Bld}
    (hb : s.blds[h]? = some b) {Y : World} {page : List Byte} (hY : s.bodies = (E.store.fromBytes Y page).1) {l : List (GoStr × List GoStr)} {code : Int}
    {g : Option Nat} {err : Option Err}
    (hv : b.view s.heap = { gen := g, code, body := some (E.store.fromBytes Y page).2, err, hdrs := Hdrs.of l }) (hc : 200 ≤ code ∧ code ≤ 999)
    (hl : ∀ k vs, Hdrs.of l k = some vs ↔ (k, vs) ∈ l) (hct : Hdrs.of l (lit "Content-Type") ≠ none) (hcl : Hdrs.of l (lit "Content-Length") ≠ none)
    (hpu : Hdrs.of l (lit "Push") = none) (hne : page ≠ []) :
    ∃ s' r i f k, s.step E (.build h) = (s', .made s.rsps.length) ∧ s'.rsps[s.rsps.length]? = some r ∧ r.code = code ∧ r.err = err ∧ r.body = some i ∧
      s'.bodies.bodies[i]? = some (f, k) ∧
      ∀ (ω : Type) (N : RW ω) (K : Nat), Obliging N page K → 32768 ≤ K → K < 2 ^ 62 → page.length < 2 ^ 63 →
      ∀ (raises isHEAD : Bool) (fuel : Nat), page.length < fuel →
      ∀ (assertErr : Bool) (onPanic : PanicArg → Res Unit) (w : ω) (hdrs : List (GoStr × List GoStr)), Lists hdrs (s'.heap.lookup r.hdrs) →
        let x := request N raises isHEAD (World.ops f k) fuel assertErr onPanic (.resp { code := r.code, hdrs, body := s'.bodies, err := r.err }) w
        Answered x [] hdrs code (sentBody isHEAD code page) ∧ ∀ k vs, .set k vs ∈ x.1 ↔ (k, vs) ∈ l := by
  simp only [Bld.view, SBld.mk.injEq] at hv
  obtain ⟨-, v2, v3, v4, v5⟩ := hv
  obtain ⟨H', r, g1, g2, g3, g4, g5⟩ := build_step hE hs hb v4
  obtain ⟨w1, w2, -⟩ := world_fromBytes Y page
  rw [← hst, ← hY] at w1 w2
  have hcode : r.code = code := by rw [g2, if_neg (by omega), v2]
  have hfill : H'.lookup r.hdrs = Hdrs.of l := by
    rw [g5, v3]
    funext k
    unfold Hdrs.filled
    split
    · rename_i h; exact h.symm
    · rename_i h
      rw [if_neg (fun e => by rw [e] at h; exact hct h), if_neg (fun e => by rw [e.1] at h; exact hcl h)]
      exact h.symm
  refine ⟨_, r, _, Y.fams.length, 0, g1, by simp, hcode, by rw [g4, v5], by rw [g3, v4], w1, ?_⟩
  intro ω N K hN hK hK' hlen raises isHEAD fuel hf assertErr onPanic w hdrs hlist x
  have hlist' : Lists hdrs (Hdrs.of l) := by rw [← hfill]; exact hlist
  have ha : Answered x _ _ _ _ := C55_request hN hK (world_lively page hlen hne Y.fams.length 0 K hK') raises isHEAD fuel hf assertErr onPanic
    { code := r.code, hdrs, body := s.bodies, err := r.err } w2 (by dsimp only; omega) (by dsimp only; omega) w
  have hpush : hdrGet hdrs (lit "Push") = [] := by
    unfold hdrGet
    split
    · rename_i e he
      have h1 := List.find?_some he
      have h2 := List.mem_of_find?_eq_some he
      obtain ⟨k, v⟩ := e
      have h1 : k = lit "Push" := by simpa using h1
      subst h1
      rw [hlist' _ _, hpu] at h2
      cases h2
    · rfl
  have ha : Answered x [] hdrs code (sentBody isHEAD code page) := by
    have e : (if N.isPusher then hdrGet hdrs (lit "Push") else []) = [] := by rw [hpush]; simp
    dsimp only at ha
    rw [e, hcode] at ha
    exact ha
  refine ⟨ha, fun k vs => ?_⟩
  by_cases hk : k = lit "Push"
  · subst hk
    constructor
    · intro hm
      exact absurd hm (conversation_no_push ha.conversation vs)
    · intro hm
      rw [← hl, hpu] at hm
      cases hm
  · rw [conversation_sets ha.conversation hlist' hk, hl]

/-- **C55**, for error pages: `ErrorPage(code, err)`, `Build`, and the Adaptor.  The client gets the status `code`, the text of the page, its
Content-Type, its length, `Cache-Control: no-cache`, and nothing else. -/
theorem C55_error_page {E : BEnv World} (hst : E.store = World.store) (hE : NoShared E) (st : Int → GoStr) (hd : E.gens 0 = defaultGen E.store st)
    {s : BState World} (hs : Reached E s) {h : Nat} {b : Bld} (hb : s.blds[h]? = some b) (hg : b.gen = none) (code : Int)
    (hc : 200 ≤ code ∧ code ≤ 999) (err : Err) :
    ∃ d n page s1 s2 r i f k, decimal d = some code ∧ page = d ++ lit " " ++ st code ++ lit "\r\n" ∧ decimal n = some (page.length : Int) ∧
      s.step E (.on h (.errorPage code (some err))) = (s1, .unit) ∧ s1.step E (.build h) = (s2, .made s1.rsps.length) ∧
      s2.rsps[s1.rsps.length]? = some r ∧ r.code = code ∧ r.err = some err ∧ r.body = some i ∧ s2.bodies.bodies[i]? = some (f, k) ∧
      ∀ (ω : Type) (N : RW ω) (K : Nat), Obliging N page K → 32768 ≤ K → K < 2 ^ 62 → page.length < 2 ^ 63 →
      ∀ (raises isHEAD : Bool) (fuel : Nat), page.length < fuel →
      ∀ (assertErr : Bool) (onPanic : PanicArg → Res Unit) (w : ω) (hdrs : List (GoStr × List GoStr)), Lists hdrs (s2.heap.lookup r.hdrs) →
        let x := request N raises isHEAD (World.ops f k) fuel assertErr onPanic (.resp { code := r.code, hdrs, body := s2.bodies, err := r.err }) w
        Answered x [] hdrs code (sentBody isHEAD code page) ∧
          ∀ k vs, .set k vs ∈ x.1 ↔ (k, vs) ∈ [(lit "Content-Type", [lit "text/plain; charset=utf-8"]), (lit "Content-Length", [n]),
            (lit "Cache-Control", [lit "no-cache"])] := by
  obtain ⟨d, n, page, b', h1, h2, h3, h4, h5, h6, h7⟩ := C33_error hE st hd hs hb hg code hc err
  obtain ⟨s2, r, i, f, k, g1, g2, g3, g4, g5, g6, g7⟩ := page_arrives hst hE (hs.step (op := .on h (.errorPage code (some err))) trivial) h4 h6 h7 hc
    (of_mem _ (by simp only [List.map_cons, List.map_nil]; decide +kernel)) (of_ne_none _ (by simp only [List.map_cons, List.map_nil]; decide +kernel)) (of_ne_none _ (by simp only [List.map_cons, List.map_nil]; decide +kernel)) (of_none _ (by simp only [List.map_cons, List.map_nil]; decide +kernel)) (by rw [h2]; simp [lit])
  exact ⟨d, n, page, _, s2, r, i, f, k, h1, h2, h3, Prod.ext rfl h5, g1, g2, g3, g4, g5, g6, g7⟩

/-- **C55**, for redirect pages. -/
theorem C55_redirect_page {E : BEnv World} (hst : E.store = World.store) (hE : NoShared E) (st : Int → GoStr) (hd : E.gens 0 = defaultGen E.store st)
    {s : BState World} (hs : Reached E s) {h : Nat} {b : Bld} (hb : s.blds[h]? = some b) (hg : b.gen = none) (code : Int)
    (hc : 300 ≤ code ∧ code ≤ 399) (location : GoStr) (hl : ¬ Blank location) :
    ∃ v e n page s1 s2 r i f k, Trimmed location v ∧ Unescapes e v ∧
      page = lit "<!DOCTYPE html>\r\n<p>Redirecting to <a href=\"" ++ e ++ lit "\">" ++ e ++ lit "</a>...</p>\r\n" ∧
      decimal n = some (page.length : Int) ∧
      s.step E (.on h (.redirectPage code location)) = (s1, .unit) ∧ s1.step E (.build h) = (s2, .made s1.rsps.length) ∧
      s2.rsps[s1.rsps.length]? = some r ∧ r.code = code ∧ r.err = none ∧ r.body = some i ∧ s2.bodies.bodies[i]? = some (f, k) ∧
      ∀ (ω : Type) (N : RW ω) (K : Nat), Obliging N page K → 32768 ≤ K → K < 2 ^ 62 → page.length < 2 ^ 63 →
      ∀ (raises isHEAD : Bool) (fuel : Nat), page.length < fuel →
      ∀ (assertErr : Bool) (onPanic : PanicArg → Res Unit) (w : ω) (hdrs : List (GoStr × List GoStr)), Lists hdrs (s2.heap.lookup r.hdrs) →
        let x := request N raises isHEAD (World.ops f k) fuel assertErr onPanic (.resp { code := r.code, hdrs, body := s2.bodies, err := r.err }) w
        Answered x [] hdrs code (sentBody isHEAD code page) ∧
          ∀ k vs, .set k vs ∈ x.1 ↔ (k, vs) ∈ [(lit "Location", [v]), (lit "Content-Type", [lit "text/html; charset=utf-8"]),
            (lit "Content-Length", [n]), (lit "Cache-Control", [lit "max-age=86400, must-revalidate"])] := by
  obtain ⟨v, e, n, page, b', h0, h1, h2, h3, h4, h5, h6, h7⟩ := C33_redirect hE st hd hs hb hg code hc location hl
  obtain ⟨s2, r, i, f, k, g1, g2, g3, g4, g5, g6, g7⟩ := page_arrives hst hE (hs.step (op := .on h (.redirectPage code location)) trivial) h4 h6 h7
    (by omega) (of_mem _ (by simp only [List.map_cons, List.map_nil]; decide +kernel)) (of_ne_none _ (by simp only [List.map_cons, List.map_nil]; decide +kernel)) (of_ne_none _ (by simp only [List.map_cons, List.map_nil]; decide +kernel)) (of_none _ (by simp only [List.map_cons, List.map_nil]; decide +kernel)) (by rw [h2]; simp [lit])
  exact ⟨v, e, n, page, _, s2, r, i, f, k, h0, h1, h2, h3, Prod.ext rfl h5, g1, g2, g3, g4, g5, g6, g7⟩

/-! ## Examples -/

/-- `ReadFrom` with buffers of 4 bytes, at most `fuel` times. -/
def eat : Nat → Unit → Nat → RF Unit
  | 0, w, _ => .hang w
  | fuel + 1, w, n => .read w 4 fun d e =>
    match e with
    | none => eat fuel w (n + d.length)
    | some .eof => .done w (n + d.length : Nat) none
    | some e => .done w (n + d.length : Nat) (some e)

/-- A client with all the optional methods. -/
def eager : RW Unit := { plainRW with
  readFrom := fun w => eat 1000 w 0, isPusher := true, isReaderFrom := true, isFlusher := true, isCloseNotifier := true, isHijacker := true }

theorem plainRW_obliging (C : List Byte) (K : Nat) : Obliging plainRW C K where
  writeHeader _ _ _ _ := rfl
  write _ _ := rfl
  push h := by cases h
  readFrom h := by cases h

theorem eat_eats {K : Nat} (hK : 4 ≤ K) (fuel : Nat) (w : Unit) (n : Nat) (C : List Byte) (h : C.length < fuel) : RFEats K (eat fuel w n) n C := by
  induction fuel generalizing n C with
  | zero => omega
  | succ fuel ih =>
    refine ⟨by omega, hK, ?_⟩
    rintro d C' rfl -
    refine ⟨fun hd => ih _ _ ?_, fun _ => ⟨w, rfl⟩⟩
    have := List.length_pos_iff.2 hd
    simp at h
    omega

theorem eager_obliging {C : List Byte} (h : C.length < 1000) {K : Nat} (hK : 4 ≤ K) : Obliging eager C K where
  writeHeader _ _ _ _ := rfl
  write _ _ := rfl
  push _ _ _ := .inl rfl
  readFrom _ _ := eat_eats hK _ _ _ _ h

-- A Response with two headers and a push, for a client that has `ReadFrom` and one that has not, for GET and HEAD, over three kinds of Body.
example : (request eager true false (BodyOps.ofFam MemFam.step true 0) 9 false (fun _ => .ret ()) (.resp exResp) ()) =
    ([.push (lit "/p") (.ret none), .set (lit "A") [lit "x"], .set (lit "B") [], .status 404, .write [104, 105] (.ret (2, none))],
     [.requestsTotal (lit "404"), .latencyTotal (lit "404"), .recvBytesTotal (lit "404") 0, .sendBytesTotal (lit "404") 2, .latencyHist,
      .recvBytesHist 0, .sendBytesHist 2], .ret ()) := by decide +kernel
example : (request eager true true (BodyOps.ofFam MemFam.step true 0) 9 false (fun _ => .ret ()) (.resp exResp) ()).1 =
    [.push (lit "/p") (.ret none), .set (lit "A") [lit "x"], .set (lit "B") [], .status 404] := by decide +kernel
example : handed (request eager true false (BodyOps.ofFam (ReaderAtBody.step (fileRdr [1, 2, 3, 4, 5, 6, 7])) false 0) 9 false (fun _ => .ret ())
    (.resp { code := 200, hdrs := [], body := ReaderAtBody.init 0 6 }) ()).1 = [1, 2, 3, 4, 5, 6] := by decide +kernel
example : handed (request plainRW true false (BodyOps.ofFam (SeekerBody.step (fileRdr [1, 2, 3, 4, 5, 6, 7])) false 0) 9 false (fun _ => .ret ())
    (.resp { code := 200, hdrs := [], body := SeekerBody.init 0 6 }) ()).1 = [1, 2, 3, 4, 5, 6] := by decide +kernel

/-- The environment of the examples: the Bodies are those of this repository. -/
def worldEnv : BEnv World where
  store := World.store
  gens _ := defaultGen World.store (fun c => if c = 404 then lit "Not Found" else [])
  mime := some
  spare n := n + 1

theorem worldEnv_noShared : NoShared worldEnv := by
  intro g X
  constructor <;> intros <;> simp [worldEnv, defaultGen]

-- The hypotheses of `C55_error_page` and `C55_redirect_page` can be met, ...
example : Reached worldEnv (.after worldEnv { bodies := {} } [.new]) ∧ (BState.after worldEnv { bodies := {} } [.new]).blds[0]? = some ({} : Bld) ∧
    worldEnv.store = World.store ∧ worldEnv.gens 0 = defaultGen worldEnv.store (fun c => if c = 404 then lit "Not Found" else []) :=
  ⟨⟨_, _, by simp [BOp.legal], rfl⟩, by decide +kernel, rfl, rfl⟩

-- ... and this is what the client gets.
example :
    let s := BState.after worldEnv { bodies := {} } [.new, .on 0 (.errorPage 404 (some (.ext 1))), .build 0]
    s.rsps.map (fun r => (r.code, r.body)) = [(404, some 0)] ∧ s.bodies.bodies = [(0, 0)] ∧
    (request plainRW true false (World.ops 0 0) 99 false (fun _ => .ret ()) (.resp (Resp.mk 404
        [(lit "Cache-Control", [lit "no-cache"]), (lit "Content-Length", [lit "15"]), (lit "Content-Type", [lit "text/plain; charset=utf-8"])]
        s.bodies none)) ()).1 =
      [.set (lit "Cache-Control") [lit "no-cache"], .set (lit "Content-Length") [lit "15"], .set (lit "Content-Type") [lit "text/plain; charset=utf-8"],
        .status 404, .write (lit "404 Not Found\r\n") (.ret (15, none))] := by decide +kernel

-- `C55_built`: a Builder with a Body made by FromBytes, and a copy of it.
example :
    let s := BState.after worldEnv { bodies := (World.store.fromBytes {} [1, 2, 3]).1 } [.new, .on 0 (.withBody (some 0)), .copy 0, .build 0, .build 1]
    s.rsps.map (fun r => (r.code, r.body, s.heap.lookup r.hdrs (lit "Content-Length"))) =
      [(200, some 0, some [lit "3"]), (200, some 1, some [lit "3"])] ∧ s.bodies.bodies = [(0, 0), (0, 1)] := by decide +kernel

end Verif
