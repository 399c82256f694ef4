import Verif.Proofs.Told
import Verif.Props.Wire10

/-!
# C80: what a handler tells a Builder is what the client gets

From the calls of a handler to the bytes a client reads off a connection: Builders on the heap (Model/Builder.lean), Bodies (Model/Bytes.lean), the Adaptor and
its Writer (Model/Serve.lean), `net/http` (Model/NetHttp.lean, Model/Wire.lean), and a client that follows RFC 7230 (Spec/Wire.lean).
-/

set_option autoImplicit false

namespace Verif
open Spec Spec.Told Spec.Wire ToldP
open Verif.Wire (wire reusable Exchange sends wire10 plan10)
variable {Φ : Type}

theorem name_of_lower {k name : GoStr} (h : lower k = lower name) (hn : isName name = true) : isName k = true := by
  have h1 : k.all isToken = true := by rw [← lower_token, h, lower_token]; exact name_tokens hn
  have h2 : k ≠ [] := by
    rintro rfl
    have := congrArg List.length h
    simp [lower] at this
    exact WireP.name_ne hn (List.length_eq_zero_iff.1 this.symm)
  rw [← WireP.validName_eq]
  simp only [Verif.Wire.validName, Bool.and_eq_true, decide_eq_true_eq]
  exact ⟨h2, h1⟩

theorem length_read {v : GoStr} {n : Nat} (h : lengthOf v = some n) : cleaned v = v ∧ decimal v = some (n : Int) := by
  unfold lengthOf at h
  split at h
  · cases h
  · rename_i hne
    have hd := WireP.natValue_digit h
    constructor
    · unfold cleaned
      rw [List.map_congr_left (g := id), List.map_id, WireP.strip_id]
      · intro c hc
        have h := hd _ hc
        have h1 : c ≠ 32 := by rintro rfl; simp at h
        have h2 : c ≠ 9 := by rintro rfl; simp at h
        simp [ows, h1, h2]
      · intro c hc
        rw [if_neg]
        · rfl
        · have h := hd _ hc
          rintro (rfl | rfl) <;> simp at h
    · obtain ⟨c, s, rfl⟩ := List.exists_cons_of_ne_nil hne
      have h45 : c ≠ 45 := by rintro rfl; have := hd 45 (by simp); simp at this
      have e : decimal (c :: s) = (natValue (c :: s)).map fun n => (n : Int) := by
        simp only [decimal]
        split
        · rename_i h'; cases h'
        · rename_i h'; exact absurd (List.cons.inj h').1 h45
        · rfl
      rw [e, h]
      rfl

/-- The headers of a message that says what a response with planned headers says: in whatever spelling they are asked for. -/
theorem values_named {m : Message} {w : NetW} (hs : Wire.Says m w) (hcan : ∀ e ∈ w.hdrs, isName e.1 = true → canon e.1 = e.1) {k : GoStr} (hk : isName k = true) :
    values m.fields k = named m.fields (canon k) := by
  unfold values named
  congr 1
  apply List.filter_congr
  intro f hf
  rw [Bool.eq_iff_iff, decide_eq_true_eq, decide_eq_true_eq]
  refine ⟨fun h => ?_, fun h => by rw [h, lower_canon]⟩
  have hfn := name_of_lower h hk
  have hc : canon f.1 = f.1 := by
    by_cases ho : f.1 ∈ ownNames
    · revert ho
      generalize f.1 = x
      intro ho
      simp only [ownNames, List.mem_cons, List.not_mem_nil, or_false] at ho
      rcases ho with rfl | rfl | rfl | rfl | rfl <;> decide +kernel
    · have h1 := hs.others f.1 ho
      rw [if_pos hfn] at h1
      by_cases he : ∃ e ∈ w.hdrs, e.1 = f.1
      · obtain ⟨e, h2, h3⟩ := he
        rw [← h3]
        exact hcan e h2 (by rw [h3]; exact hfn)
      · rw [WireP.hdrGet_none (fun e h2 h3 => he ⟨e, h2, h3⟩)] at h1
        exfalso
        have : f.2 ∈ named m.fields f.1 := List.mem_map.2 ⟨f, List.mem_filter.2 ⟨hf, by simp⟩, rfl⟩
        rw [h1] at this
        cases this
  rw [← hc]
  exact (canon_eq_iff hfn).2 h

/-- What can be sent: not too much; a status that has a body or none by itself; and headers that leave it to the server how it is sent, but that a length may be
given if it is right. -/
structure Spec.Told.Sendable (p : Plan) (C : List Byte) : Prop where
  short : C.length < 2 ^ 63
  status : p.status ≠ 304
  encoding : p.fields (lit "transfer-encoding") = []
  length : p.fields (lit "content-length") = [] ∨ ∃ n, p.fields (lit "content-length") = [n] ∧ lengthOf n = some C.length

theorem filled_get {hdrs : List (GoStr × List GoStr)} {f : Hdrs} (hl : Lists hdrs f) (k : GoStr) : hdrGet hdrs k = (f k).getD [] := by
  cases h : f k with
  | some v => exact hdrGet_lists hl h
  | none =>
    refine WireP.hdrGet_none fun e he hk => ?_
    subst hk
    have := (hl e.1 e.2).1 he
    rw [h] at this
    cases this

theorem filled_at {f : Hdrs} (n : Int) {k : GoStr} (h1 : k ≠ lit "Content-Type") (h2 : k ≠ lit "Content-Length") : f.filled n k = f k := by
  unfold Hdrs.filled
  cases f k <;> simp [h1, h2]

/-- What is on the wire is what was planned. -/
structure AsPlanned (x : NetW) (isHEAD : Bool) (code : Int) (hdrs : List (GoStr × List GoStr)) (C : List Byte) : Prop where
  head : x.isHEAD = isHEAD
  status : x.status = code
  declared : x.declared = declaredLength hdrs
  hdrs : x.hdrs = (hdrs.filter fun e => e.1 ≠ lit "Push")
  framed : Framed x
  body : x.body = if isHEAD = true ∨ code = 204 then [] else C

theorem length_declared {f : Hdrs} {p : Plan} (hp : HdrsRel f p) {C : List Byte} (hC : Sendable p C) {n : Int} (hn : n = C.length ∨ n = -1)
    {hdrs : List (GoStr × List GoStr)} (hlist : Lists hdrs (f.filled n)) :
    (∃ v, hdrGet hdrs (lit "Content-Length") = [v] ∧ lengthOf v = some C.length) ∨ hdrGet hdrs (lit "Content-Length") = [] ∧ n = -1 := by
  have hne : lit "Content-Length" ≠ lit "Content-Type" := by decide +kernel
  have hpl := hp.same (lit "Content-Length") (by decide +kernel)
  rw [show canon (lit "Content-Length") = lit "Content-Length" by decide +kernel, show lower (lit "Content-Length") = lit "content-length" by decide +kernel] at hpl
  rw [filled_get hlist]
  rcases hC.length with h | ⟨v, h, hv⟩
  · rw [h] at hpl
    have : f (lit "Content-Length") = none := by
      cases hx : f (lit "Content-Length") with
      | none => rfl
      | some v => rw [hx] at hpl; exact absurd (by rw [hx]; exact congrArg some hpl) (hp.nonempty (lit "Content-Length"))
    rcases hn with rfl | rfl
    · refine .inl ⟨itoa C.length, ?_, (WireP.itoa_read _).1⟩
      simp [Hdrs.filled, this, hne]
    · refine .inr ⟨?_, rfl⟩
      simp [Hdrs.filled, this, hne]
  · rw [h] at hpl
    refine .inl ⟨v, ?_, hv⟩
    cases hx : f (lit "Content-Length") with
    | none => rw [hx] at hpl; cases hpl
    | some w => rw [hx] at hpl; simp only [Hdrs.filled, hx]; exact hpl

theorem declared_planned {f : Hdrs} {p : Plan} (hp : HdrsRel f p) {C : List Byte} (hC : Sendable p C) {n : Int} (hn : n = C.length ∨ n = -1)
    {hdrs : List (GoStr × List GoStr)} (hlist : Lists hdrs (f.filled n)) : declaredLength hdrs = some C.length ∨ declaredLength hdrs = none ∧ n = -1 := by
  unfold declaredLength
  rcases length_declared hp hC hn hlist with ⟨v, hv1, hv2⟩ | ⟨h, h'⟩
  · rw [hv1]
    exact .inl (parseLength_decimal _ _ (length_read hv2).2 hC.short)
  · rw [h]; exact .inr ⟨rfl, h'⟩

theorem planned_telling {f : Hdrs} {p : Plan} (hp : HdrsRel f p) {C : List Byte} (hC : Sendable p C) (h1 : 200 ≤ p.status) (h2 : p.status ≤ 999)
    {n : Int} (hn : n = C.length ∨ n = -1) {hdrs : List (GoStr × List GoStr)} (hlist : Lists hdrs (f.filled n)) (hnd : (hdrs.map Prod.fst).Nodup)
    {isHEAD : Bool} {x : NetW}
    (hx : AsPlanned x isHEAD p.status hdrs C) : Telling x ∧ Telling10 x ∧ ∀ m, Says m x → Fulfils m isHEAD p C := by
  have hne : lit "Content-Length" ≠ lit "Content-Type" := by decide +kernel
  have hct : canon (lit "content-type") = lit "Content-Type" := by decide +kernel
  have hl : LengthOk hdrs := by
    unfold LengthOk
    rcases length_declared hp hC hn hlist with ⟨v, hv1, hv4⟩ | ⟨h, -⟩
    · have hv3 := (length_read hv4).1
      have hdl : declaredLength hdrs = some C.length := by
        unfold declaredLength
        rw [hv1]
        exact parseLength_decimal _ _ (length_read hv4).2 hC.short
      rw [hdl, hv1]
      refine ⟨?_, ?_⟩
      · intro n hn w hw
        cases hn
        rw [List.mem_singleton.1 hw, hv3]
        exact hv4
      · simp only [List.head?_cons, ne_eq, Option.some.injEq]
        rintro rfl
        cases hv4
    · rw [h]
      exact ⟨fun _ _ _ hv => (by cases hv), by simp⟩
  -- canonical names
  have hcan : ∀ e ∈ hdrs, isName e.1 = true → canon e.1 = e.1 := by
    rintro ⟨k, w⟩ he hk
    have hx := (hlist k w).1 he
    dsimp only at hk ⊢
    by_cases k1 : k = lit "Content-Type"
    · subst k1; decide +kernel
    by_cases k2 : k = lit "Content-Length"
    · subst k2; decide +kernel
    rw [filled_at _ k1 k2] at hx
    exact hp.canonical k hk (by rw [hx]; simp)
  have hnf : NoFraming hdrs := by
    rintro ⟨k, w⟩ he hw
    dsimp only at hw ⊢
    constructor
    · intro hk
      have hkn : isName k = true := name_of_lower (name := lit "transfer-encoding") (by rw [hk]; decide +kernel) (by decide +kernel)
      have hkc := hcan _ he hkn
      have hx := (hlist k w).1 he
      have k1 : k ≠ lit "Content-Type" := by rintro rfl; revert hk; decide +kernel
      have k2 : k ≠ lit "Content-Length" := by rintro rfl; revert hk; decide +kernel
      rw [filled_at _ k1 k2] at hx
      have := hp.same k hkn
      rw [hkc, hx, hk, hC.encoding] at this
      exact hw this
    · intro hk
      have hkn : isName k = true := name_of_lower (name := lit "content-length") (by rw [hk]; decide +kernel) (by decide +kernel)
      have hkc := hcan _ he hkn
      dsimp only at hkc
      rw [← hkc, (canon_eq_iff (name := lit "content-length") hkn).2 (by rw [hk]; decide +kernel)]
      decide +kernel
  obtain ⟨a1, a2, a3, a4, a5, a6⟩ := hx
  have hcl : hdrGet x.hdrs (lit "Content-Length") = hdrGet hdrs (lit "Content-Length") := by
    rw [a4]; exact hdrGet_filter hdrs (by decide +kernel)
  have hdl' : declaredLength x.hdrs = declaredLength hdrs := by rw [a4]; exact declared_filter hdrs
  have ht : Telling x := by
    refine ⟨by omega, by omega, by rw [a3, hdl'], ?_, a5, ?_, ?_⟩
    · rw [a4]
      exact hnd.sublist ((List.filter_sublist).map _)
    · rw [a4]
      intro e he
      exact hnf e (List.mem_filter.1 he).1
    · unfold LengthOk
      rw [hcl, hdl']
      exact hl
  have ht10 : Telling10 x := by
    refine ⟨ht.final, ht.three, ht.declared, ht.once, a5, fun e he hne => (ht.free e he hne).2, ht.length.1, ?_⟩
    rw [hdl', hcl]
    rcases length_declared hp hC hn hlist with ⟨v, hv1, hv4⟩ | ⟨h, -⟩
    · unfold declaredLength
      rw [hv1]
      dsimp only
      rw [parseLength_decimal _ _ (length_read hv4).2 hC.short]
      intro h; cases h
    · exact fun _ => h
  have hcan' : ∀ e ∈ x.hdrs, isName e.1 = true → canon e.1 = e.1 := by
    rw [a4]; exact fun e he => hcan e (List.mem_filter.1 he).1
  have hget : ∀ k, k ≠ lit "Push" → hdrGet x.hdrs k = (f.filled n k).getD [] := by
    intro k hk
    rw [a4, hdrGet_filter hdrs hk, filled_get hlist]
  have hin : ∀ k, k ≠ lit "Push" → f.filled n k ≠ none → ∃ e ∈ x.hdrs, e.1 = k := by
    intro k hk hx
    obtain ⟨w, hw⟩ := Option.ne_none_iff_exists'.1 hx
    exact ⟨(k, w), by rw [a4]; exact List.mem_filter.2 ⟨(hlist k w).2 hw, by simpa using hk⟩, rfl⟩
  refine ⟨ht, ht10, fun m hs => ⟨by rw [hs.status, a2], by rw [hs.body, a6], ?_, ?_, ?_, ?_⟩⟩
  · intro k hk htr hdt hcty
    have ho : canon k ∉ ownNames ∧ canon k ≠ lit "Push" ∧ canon k ≠ lit "Content-Type" ∧ canon k ≠ lit "Content-Length" := by
      have hlk := lower_canon k
      refine ⟨fun h => ?_, fun h => ?_, fun h => ?_, fun h => ?_⟩
      · simp only [ownNames, List.mem_cons, List.not_mem_nil, or_false] at h
        rcases h with h | h | h | h | h <;> rw [h] at hlk
        · exact hdt (by rw [← hlk]; decide +kernel)
        · exact htr (by rw [← hlk]; decide +kernel)
        · exact hcty (by rw [← hlk]; decide +kernel)
        · exact htr (by rw [← hlk]; decide +kernel)
        · exact htr (by rw [← hlk]; decide +kernel)
      all_goals rw [h] at hlk
      · exact htr (by rw [← hlk]; decide +kernel)
      · exact hcty (by rw [← hlk]; decide +kernel)
      · exact htr (by rw [← hlk]; decide +kernel)
    rw [values_named hs hcan' hk, hs.others _ ho.1, if_pos (name_canon hk), hget _ ho.2.1, filled_at _ ho.2.2.1 ho.2.2.2, hp.same k hk]
  · intro hdate
    have hc : canon (lit "date") = lit "Date" := by decide +kernel
    have hsame := hp.same (lit "date") (by decide +kernel)
    rw [hc, show lower (lit "date") = lit "date" by decide +kernel] at hsame
    have hfl : f.filled n (lit "Date") = f (lit "Date") := filled_at _ (by decide +kernel) (by decide +kernel)
    rw [values_named hs hcan' (by decide +kernel), hc, hs.date, hget _ (by decide +kernel), hfl, hsame]
    refine hin _ (by decide +kernel) ?_
    rw [hfl]
    intro h
    rw [h] at hsame
    exact hdate hsame.symm
  · have hsame := hp.same (lit "content-type") (by decide +kernel)
    rw [hct, show lower (lit "content-type") = lit "content-type" by decide +kernel] at hsame
    have hfl : f.filled n (lit "Content-Type") = some (if p.fields (lit "content-type") = [] then [lit "application/octet-stream"] else p.fields (lit "content-type")) := by
      unfold Hdrs.filled
      cases hx : f (lit "Content-Type") with
      | none =>
        rw [hx] at hsame
        have : p.fields (lit "content-type") = [] := hsame.symm
        simp [this]
      | some v =>
        rw [hx] at hsame
        have hv : v = p.fields (lit "content-type") := hsame
        have : v ≠ [] := by rintro rfl; exact hp.nonempty _ hx
        rw [← hv, if_neg this]
    rw [values_named hs hcan' (by decide +kernel), hct, hs.contentType (by rw [a2]; exact hC.status) (hin _ (by decide +kernel) (by rw [hfl]; simp)),
      hget _ (by decide +kernel), hfl]
    rfl
  · have : lit "Push" ∉ ownNames := by decide +kernel
    rw [values_named hs hcan' (by decide +kernel), show canon (lit "push") = lit "Push" by decide +kernel, hs.others _ this, WireP.hdrGet_none, List.map_nil, ite_self]
    rw [a4]
    intro e' he'
    have := (List.mem_filter.1 he').2
    simpa using this

theorem client_gets {f : Hdrs} {p : Plan} (hp : HdrsRel f p) {C : List Byte} (hC : Sendable p C) (h1 : 200 ≤ p.status) (h2 : p.status ≤ 999)
    {n : Int} (hn : n = C.length ∨ n = -1) {hdrs : List (GoStr × List GoStr)} (hlist : Lists hdrs (f.filled n)) (hnd : (hdrs.map Prod.fst).Nodup)
    {isHEAD : Bool} {x : NetW} (hx : AsPlanned x isHEAD p.status hdrs C) {c : Verif.Wire.Choices} (hc : Sound c x) (strict : Bool) (next : GoStr) :
    ∃ m, receive strict isHEAD (wire c x ++ next) = some (m, next) ∧ Fulfils m isHEAD p C := by
  obtain ⟨ht, -, hf⟩ := planned_telling hp hC h1 h2 hn hlist hnd hx
  obtain ⟨m, e, hs⟩ := C76_message ht hc strict next
  rw [hx.head] at e
  exact ⟨m, e, hf m hs⟩

theorem client_gets10 {f : Hdrs} {p : Plan} (hp : HdrsRel f p) {C : List Byte} (hC : Sendable p C) (h1 : 200 ≤ p.status) (h2 : p.status ≤ 999)
    {n : Int} (hn : n = C.length ∨ n = -1) {hdrs : List (GoStr × List GoStr)} (hlist : Lists hdrs (f.filled n)) (hnd : (hdrs.map Prod.fst).Nodup)
    {isHEAD : Bool} {x : NetW} (hx : AsPlanned x isHEAD p.status hdrs C) {c : Verif.Wire.Choices} (hc : Sound c x) (strict : Bool) (keep : Bool) (next : GoStr)
    (hnext : (plan10 c keep x).untilEnd = true → next = []) : ∃ m, receive10 strict isHEAD (wire10 c keep x ++ next) = some (m, next) ∧ Fulfils m isHEAD p C := by
  obtain ⟨-, ht, hf⟩ := planned_telling hp hC h1 h2 hn hlist hnd hx
  obtain ⟨m, e, hs⟩ := C81_message ht keep hc strict hnext
  rw [hx.head] at e
  exact ⟨m, e, hf m hs⟩

/-- A Body of which nothing can be copied: the head of the response is sent all the same. -/
theorem overNet_refused {β : Type} {B : BodyOps β} {fuel : Nat} {r : Resp β} {b' : β} {e : Err}
    (hcopy : ∀ {ω : Type} (D : RW ω) (w : ω), ioCopy D B fuel r.body w = (b', w, .ret (0, some e))) (hclose : ∃ o, (B.close b').2 = .ret o)
    (http1 : Bool) (n : Nat) (raises isHEAD assertErr : Bool) (onPanic : PanicArg → Res Unit) (h1 : 200 ≤ r.code) (h2 : r.code ≤ 999) (hnd : (r.hdrs.map Prod.fst).Nodup) :
    overNet http1 n raises isHEAD B fuel assertErr onPanic (.resp r) =
      ({ isHEAD := isHEAD, hdrs := (r.hdrs.filter fun e => e.1 ≠ headerPush), status := r.code, declared := declaredLength r.hdrs },
        metricsOf (itoa r.code) 0 (some (.error e)) assertErr, onPanic (.itself (.error e))) := by
  let N := netRW http1 n
  let kind := Writer.kindFor N
  let w₀ : NetW := { isHEAD := isHEAD }
  let s₀ : WState NetW := Writer.init w₀ isHEAD
  have a1 : (if (Writer.ops N raises kind).isPusher then pushAll (Writer.ops N raises kind) (hdrGet r.hdrs headerPush) s₀ else (s₀, none)) = (s₀, none) := by
    have : (Writer.ops N raises kind).isPusher = true := rfl
    rw [if_pos this, through_pushAll]
    have e : pushAll N (hdrGet r.hdrs headerPush) s₀.next = (s₀.next, none) := net_pushAll _ _ _ _
    simp only [e, ite_self]
  let H := r.hdrs.filter fun e => e.1 ≠ headerPush
  let w₂ : NetW := { isHEAD := isHEAD, hdrs := H, status := r.code, declared := declaredLength r.hdrs }
  let s₂ : WState NetW := { s₀ with next := w₂, status := r.code }
  have hwh : (Writer.ops N raises kind).writeHeader (setAll (Writer.ops N raises kind) r.hdrs s₀) r.code = (s₂, .ret ()) := by
    rw [through_setAll]
    have e : setAll N r.hdrs s₀.next = { w₀ with hdrs := H } := net_setAll http1 n r.hdrs w₀ hnd
    rw [e]
    show Writer.writeHeader N raises _ r.code = _
    simp only [Writer.writeHeader, Writer.writeHeaderImpl]
    rw [if_neg (by omega), if_neg (by omega), if_neg (by simp [Writer.init, s₀])]
    have e2 : N.writeHeader { w₀ with hdrs := H } r.code = (w₂, .ret ()) := by
      have e3 : N.writeHeader = NetW.writeHeader := rfl
      rw [e3]
      unfold NetW.writeHeader
      rw [if_neg (by simp [w₀]), if_neg (by omega)]
      show (({ w₀ with hdrs := H, status := r.code, declared := declaredLength H } : NetW), (Res.ret () : Res Unit)) = _
      rw [show declaredLength H = declaredLength r.hdrs from declared_filter r.hdrs]
    simp only [e2]
    rfl
  obtain ⟨o, ho⟩ := hclose
  have hs : serve (Writer.ops N raises kind) B fuel r s₀ = ((B.close b').1, s₂, .ret (some e)) := by
    unfold serve
    rw [a1]
    dsimp only
    rw [hwh]
    dsimp only
    rw [hcopy]
    dsimp only
    rcases hc : B.close b' with ⟨b'', q⟩
    rw [hc] at ho
    dsimp only at ho
    subst ho
    rfl
  have := adaptor_served assertErr onPanic hs (by show r.code ≠ 0; omega) (by show (0 : Int) ≤ 0; omega)
  show (let x := adaptor (Writer.wr N raises kind) B fuel assertErr onPanic (.resp r) s₀; (x.1.next, x.2)) = _
  rw [this]
  rfl

theorem fam_setFam (K : Kinds Φ) {X : Shelf Φ} {f : Nat} (h : f < X.fams.length) (m : Φ) : (X.setFam f m).fam K f = m ∧ f < (X.setFam f m).fams.length := by
  constructor
  · simp [Shelf.fam, Shelf.setFam, List.getElem?_set, h]
  · simpa [Shelf.setFam] using h

/-- A Body that is ready to deliver `C`, among others. -/
theorem shelf_lively {K : Kinds Φ} {X : Shelf Φ} {i : Nat} {C : List Byte} (h : X.Ready K i C) (hC : C.length < 2 ^ 63) :
    ∃ P, Lively (X.ops K i) P 32768 ∧ Quits (X.ops K i) P ∧ P X C := by
  obtain ⟨f, j, h1, h2, h3⟩ := h
  obtain ⟨P, l1, l2, l3⟩ := h3.lively hC
  refine ⟨fun Y C => f < Y.fams.length ∧ P (Y.fam K f) C, ?_, ?_, h2, l3⟩
  · simp only [Shelf.ops, h1]
    exact lively_focus l1 fun Y m hY => fam_setFam K hY m
  · simp only [Shelf.ops, h1]
    exact ⟨fun Y C hY => l2.close _ C hY.2, fun hw Y C hY => wtStops_map (fun m => (fam_setFam K hY.1 m).1) (l2.writeTo hw _ C hY.2)⟩

/-- An empty Body is never ready: its `WriteTo` returns `io.EOF` (C08). -/
theorem vacant_not_ready {K : Kinds Φ} {X : Shelf Φ} {i : Nat} {C : List Byte} (hv : X.Vacant K i) (hC : C.length < 2 ^ 63) : ¬ X.Ready K i C := by
  intro hr
  obtain ⟨P, hl, -, hP⟩ := shelf_lively hr hC
  obtain ⟨f, j, h1, h2, l, b, h3, h4, h5⟩ := hv
  have hw : (X.ops K i).isWriterTo = true := by
    simp only [Shelf.ops, h1, Shelf.famOps, BodyOps.focus, BodyOps.ofFam, h3, K.drains_mem]
  have := hl.writeTo hw X C hP
  simp [Shelf.ops, h1, Shelf.famOps, BodyOps.focus, BodyOps.ofFam, h3, K.step_mem, MemFam.step, EmptyBody.step, EmptyBody.writeTo, Op.h, h4, h5, WT.map, WTGives] at this

/-- What the Adaptor sends of a Response with a Body that has content. -/
theorem net_ready {K : Kinds Φ} {X : Shelf Φ} {i : Nat} {C : List Byte} (h : X.Ready K i C) (hC : C.length < 2 ^ 63)
    (http1 : Bool) (n : Nat) (hn : C.length < n) (raises isHEAD : Bool) (fuel : Nat) (hfu : C.length < fuel) (assertErr : Bool) (onPanic : PanicArg → Res Unit)
    {code : Int} (h1 : 200 ≤ code) (h2 : code ≤ 999) (h3 : code ≠ 304) {hdrs : List (GoStr × List GoStr)} (hnd : (hdrs.map Prod.fst).Nodup)
    (hd : ∀ n, declaredLength hdrs = some n → n = C.length) (err : Option Err) :
    let x := overNet http1 n raises isHEAD (X.ops K i) fuel assertErr onPanic (.resp { code, hdrs, body := X, err })
    AsPlanned x.1 isHEAD code hdrs C ∧ x.2.2 = .ret () ∧ reusable x.1 = true := by
  intro x
  obtain ⟨P, l1, l2, l3⟩ := shelf_lively h hC
  have hroom : HasRoom isHEAD code (declaredLength hdrs) C := .inr (.inr (.inr ⟨h3, hd⟩))
  have hi := (C64_iff (Nat.le_refl 32768) l1 l2 http1 n hn raises isHEAD fuel hfu assertErr onPanic { code, hdrs, body := X, err } l3 h1 h2 hnd).2 hroom
  obtain ⟨a1, a2, a3, a4, -, -⟩ := C64_request (Nat.le_refl 32768) l1 l2 http1 n hn raises isHEAD fuel hfu assertErr onPanic { code, hdrs, body := X, err } l3 h1 h2 hnd
  exact ⟨⟨a1, a2, a3, a4, hi.framed, hi.body⟩, hi.returned,
    (C77_goes_on (Nat.le_refl 32768) l1 l2 http1 n hn raises isHEAD fuel hfu assertErr onPanic { code, hdrs, body := X, err } l3 h1 h2 hnd hroom).2⟩

/-- What the Adaptor sends of a Response with an empty Body. -/
theorem net_vacant {K : Kinds Φ} {X : Shelf Φ} {i : Nat} (h : X.Vacant K i) (http1 : Bool) (n : Nat) (raises isHEAD : Bool) (fuel : Nat) (assertErr : Bool)
    (onPanic : PanicArg → Res Unit) {code : Int} (h1 : 200 ≤ code) (h2 : code ≤ 999) {hdrs : List (GoStr × List GoStr)} (hnd : (hdrs.map Prod.fst).Nodup)
    (hd : ∀ n, declaredLength hdrs = some n → n = 0) (err : Option Err) :
    let x := overNet http1 n raises isHEAD (X.ops K i) fuel assertErr onPanic (.resp { code, hdrs, body := X, err })
    AsPlanned x.1 isHEAD code hdrs [] ∧ x.2.2 = onPanic (.itself (.error .eof)) ∧ reusable x.1 = true := by
  intro x
  obtain ⟨f, j, k1, k2, l, b, k3, k4, k5⟩ := h
  have hcopy : ∀ {ω : Type} (D : RW ω) (w : ω), ioCopy D (X.ops K i) fuel X w = (X.setFam f (K.mem (.empty l)), w, .ret (0, some .eof)) := by
    intro ω D w
    simp [ioCopy, Shelf.ops, k1, Shelf.famOps, BodyOps.focus, k3, K.drains_mem, BodyOps.ofFam, K.step_mem, MemFam.step, EmptyBody.step, EmptyBody.writeTo, Op.h, k4, k5, runWT, WT.map]
  have hx : x = _ := overNet_refused (r := { code, hdrs, body := X, err }) hcopy (by
    refine ⟨none, ?_⟩
    simp [Shelf.ops, k1, Shelf.famOps, BodyOps.focus, (fam_setFam K k2 _).1, BodyOps.ofFam, K.step_mem, MemFam.step, EmptyBody.step, EmptyBody.close, Op.h, k4, k5])
    http1 n raises isHEAD assertErr onPanic h1 h2 hnd
  rw [hx]
  refine ⟨⟨rfl, rfl, rfl, rfl, ?_, by simp⟩, rfl, ?_⟩
  · unfold Framed
    dsimp only
    split
    · rfl
    · intro n hn
      rw [hd n hn]
      rfl
  · unfold reusable
    dsimp only
    cases hq : declaredLength hdrs with
    | none => simp
    | some n => rw [hd n hq]; simp

/-- Response `j` is going to be what was planned: it has a Body with the content `C`, and if the plan can be sent, then the client gets it — whatever the server may choose,
and whatever follows on the connection; the client of HTTP/1.0 as well (there, nothing follows a body whose length was not told).  `ServeHTTP` returns, but for `body.Empty()`, when it calls OnPanic (C08). -/
def Spec.Told.Arrives (K : Kinds Φ) (s : BState (Shelf Φ)) (j : Nat) (p : Plan) (C : List Byte) : Prop :=
  ∃ r i, s.rsps[j]? = some r ∧ r.body = some i ∧ s.bodies.Holds K i C ∧ (Sendable p C →
    ∀ hdrs, Lists hdrs (s.heap.lookup r.hdrs) → (hdrs.map Prod.fst).Nodup →
    ∀ (http1 : Bool) (n : Nat), C.length < n → ∀ (raises isHEAD : Bool) (fuel : Nat), C.length < fuel → ∀ (assertErr : Bool) (onPanic : PanicArg → Res Unit),
    let x := overNet http1 n raises isHEAD (s.bodies.ops K i) fuel assertErr onPanic (.resp { code := r.code, hdrs, body := s.bodies, err := r.err })
    (¬ s.bodies.Vacant K i → x.2.2 = .ret ()) ∧ (s.bodies.Vacant K i → C = [] ∧ x.2.2 = onPanic (.itself (.error .eof))) ∧
    x.1.isHEAD = isHEAD ∧ reusable x.1 = true ∧
    (∀ c, Sound c x.1 → ∀ strict next, ∃ m, receive strict isHEAD (wire c x.1 ++ next) = some (m, next) ∧ Fulfils m isHEAD p C) ∧
    (∀ c, Sound c x.1 → ∀ strict keep next, ((plan10 c keep x.1).untilEnd = true → next = []) →
      ∃ m, receive10 strict isHEAD (wire10 c keep x.1 ++ next) = some (m, next) ∧ Fulfils m isHEAD p C))

/-- A Response that was made of a Builder which was as planned. -/
theorem arrives {K : Kinds Φ} {s : BState (Shelf Φ)} {j i : Nat} {r : Rsp} {p : Plan} {C : List Byte} {f : Hdrs} {code n : Int}
    (hj : s.rsps[j]? = some r) (hi : r.body = some i) (hb : s.bodies.Holds K i C) (hf : HdrsRel f p) (hl : s.heap.lookup r.hdrs = f.filled n)
    (hn : n = C.length ∨ n = -1) (hr : r.code = if code = 0 then 200 else code) (hc : code = 0 ∧ p.status = 200 ∨ p.status = code ∧ 200 ≤ code ∧ code ≤ 999) :
    Arrives K s j p C := by
  refine ⟨r, i, hj, hi, hb, ?_⟩
  intro hS hdrs hlist hnd http1 m hm raises isHEAD fuel hfu assertErr onPanic
  have hcode : r.code = p.status ∧ 200 ≤ p.status ∧ p.status ≤ 999 := by
    rw [hr]
    rcases hc with ⟨k1, k2⟩ | ⟨k1, k2, k3⟩
    · rw [if_pos k1, k2]; omega
    · rw [if_neg (by omega), k1]; omega
  rw [hl] at hlist
  have hdecl := declared_planned hf hS hn hlist
  have hdecl' : ∀ n, declaredLength hdrs = some n → n = C.length := by
    rcases hdecl with h | ⟨h, -⟩ <;> rw [h]
    · intro n hn; exact (Option.some.inj hn).symm
    · intro n hn; cases hn
  rcases hb with hrb | ⟨rfl, hrb⟩
  · have hx := net_ready hrb hS.short http1 m hm raises isHEAD fuel hfu assertErr onPanic hcode.2.1 hcode.2.2 hS.status hnd hdecl' r.err
    rw [← hcode.1] at hx
    refine ⟨fun _ => hx.2.1, fun hv => absurd hrb (vacant_not_ready hv hS.short), hx.1.head, hx.2.2, fun c hc strict next => ?_, fun c hc strict keep next hnext => ?_⟩
    · exact client_gets hf hS hcode.2.1 hcode.2.2 hn hlist hnd (by rw [← hcode.1]; exact hx.1) hc strict next
    · exact client_gets10 hf hS hcode.2.1 hcode.2.2 hn hlist hnd (by rw [← hcode.1]; exact hx.1) hc strict keep next hnext
  · have hx := net_vacant hrb http1 m raises isHEAD fuel assertErr onPanic hcode.2.1 hcode.2.2 hnd hdecl' r.err
    rw [← hcode.1] at hx
    refine ⟨fun hv => absurd hrb hv, fun _ => ⟨rfl, hx.2.1⟩, hx.1.head, hx.2.2, fun c hc strict next => ?_, fun c hc strict keep next hnext => ?_⟩
    · exact client_gets hf hS hcode.2.1 hcode.2.2 hn hlist hnd (by rw [← hcode.1]; exact hx.1) hc strict next
    · exact client_gets10 hf hS hcode.2.1 hcode.2.2 hn hlist hnd (by rw [← hcode.1]; exact hx.1) hc strict keep next hnext

/-- Response `j` is one that was made of a Builder which was as planned, and its Body has the content `C`. -/
structure ToldP.Planned (K : Kinds Φ) (s : BState (Shelf Φ)) (σ : SState (Shelf Φ)) (j i : Nat) (p : Plan) (C : List Byte) : Prop where
  made : ∃ sr f n code, σ.rsps[j]? = some sr ∧ sr.body = some i ∧ sr.hdrs = Hdrs.filled f n ∧ HdrsRel f p ∧ (n = C.length ∨ n = -1) ∧
    sr.code = (if code = 0 then 200 else code) ∧ (code = 0 ∧ p.status = 200 ∨ p.status = code ∧ 200 ≤ code ∧ code ≤ 999)
  holds : s.bodies.Holds K i C

theorem ToldP.Planned.arrives {K : Kinds Φ} {om oa : Nat → Tag} {s : BState (Shelf Φ)} {σ : SState (Shelf Φ)} (R : StRel om oa s σ) {j i : Nat} {p : Plan} {C : List Byte}
    (h : Planned K s σ j i p C) : Arrives K s j p C := by
  obtain ⟨sr, f, n, code, h1, h2, h3, h4, h5, h6, h7⟩ := h.made
  rcases R.rsp j with ⟨-, e⟩ | ⟨r, sr', e1, e2, e3⟩
  · rw [h1] at e; cases e
  · rw [h1] at e2; cases e2
    exact Verif.arrives e1 (e3.body.trans h2) h.holds h4 (by rw [e3.hdrs.lookup, h3]) h5 (e3.code.trans h6) h7

/-- `Build`, called on a Builder that is as planned. -/
theorem build_planned {K : Kinds Φ} {E : BEnv (Shelf Φ)} (hE : NoShared E) (hst : E.store = Shelf.store K) {A : Around} {om oa : Nat → Tag} {s : BState (Shelf Φ)}
    {σ : SState (Shelf Φ)} (R : StRel om oa s σ) {h : Nat} {sb : SBld} (hb : σ.blds[h]? = some sb) {p : Plan} (hr : Rel K E A s.bodies sb p) :
    (p.body = none ∧ (s.step E (.build h)).2 = .panic .badArg) ∨
    ∃ C i, p.body = some C ∧ (s.step E (.build h)).2 = .made s.rsps.length ∧
      ∃ om' oa' σ', StRel om' oa' (s.step E (.build h)).1 σ' ∧ Planned K (s.step E (.build h)).1 σ' s.rsps.length i p C := by
  obtain ⟨e, om', oa', R'⟩ := step_sim hE R (op := .build h) trivial
  simp only [SState.step, hb] at e R'
  cases hbody : sb.body with
  | none =>
    rw [hbody] at e
    refine .inl ⟨?_, e⟩
    have := hr.body
    rw [hbody] at this
    cases hq : p.body with
    | none => rfl
    | some C => rw [hq] at this; exact this.elim
  | some i =>
    have hrb := hr.body
    rw [hbody] at hrb
    cases hpb : p.body with
    | none => rw [hpb] at hrb; exact hrb.elim
    | some C =>
      rw [hpb] at hrb
      rw [hbody] at e R'
      refine .inr ⟨C, i, rfl, by rw [e, R.nr], om', oa', _, R', ⟨sb.response E.store σ.bodies i, sb.hdrs, _, sb.code, ?_, rfl, rfl, hr.hdrs, ?_, rfl, ?_⟩, ?_⟩
      · rw [R.nr]; simp
      · rw [hst, ← R.bodies]; exact holds_remaining hrb
      · rcases hr.code with ⟨k1, k2⟩ | ⟨k1, k2, k3⟩
        · exact .inl ⟨k1, k2⟩
        · exact .inr ⟨by omega, by omega, by omega⟩
      · have : (s.step E (.build h)).1.bodies = s.bodies := by rw [R'.bodies, R.bodies]
        rw [this]; exact hrb

/-- A handler that makes a Builder, makes these calls on it, and builds a Response. -/
theorem handle_planned {K : Kinds Φ} {E : BEnv (Shelf Φ)} (hE : NoShared E) (hst : E.store = Shelf.store K) {A : Around} (hd : E.gens 0 = defaultGen E.store A.text)
    (hm : E.mime = Mime.normal) {s : BState (Shelf Φ)} (hs : s.Lived E) (hsrc : ∀ i C, A.bodies i = some C → s.bodies.Holds K i C)
    (l : List Say) (hl : ∀ x ∈ l, x.Known K E A s.heap) :
    ((∃ e, (s.handle K E l).2 = .panic e) ∧ ¬ ∃ p C, LeadsAll A {} l p ∧ p.body = some C) ∨
    ∃ p C, LeadsAll A {} l p ∧ p.body = some C ∧ ∃ s', s.handle K E l = (s', .made s.rsps.length) ∧
      ∃ om oa σ i, StRel om oa s' σ ∧ Planned K s' σ s.rsps.length i p C := by
  obtain ⟨om, oa, σ, R⟩ := lived_rel hE hs
  obtain ⟨-, om1, oa1, R1⟩ := step_sim hE R (op := .new) trivial
  have hb1 : (σ.step E (argOf s.heap .new) .new).1.blds[s.blds.length]? = some {} := by
    simp [SState.step, R.nb]
  have hrel : Rel K E A (s.step E .new).1.bodies {} {} := ⟨rfl, .inl rfl, .inl ⟨rfl, rfl⟩, HdrsRel.none, trivial⟩
  rcases chain_rel hE hst hd hm l R1 hb1 hrel hl hsrc with ⟨c1, p, hp, om2, oa2, σ2, sb, R2, hb2, hrs, hr⟩ | ⟨⟨e, c1⟩, c2⟩
  · have hh : s.handle K E l = (BState.chain K E s.blds.length (s.step E .new).1 l).1.step E (.build s.blds.length) := by
      rw [BState.handle]
      split
      · rename_i h1; rw [h1]
      · rename_i h1; exact absurd (by rw [← c1]) (h1 (BState.chain K E s.blds.length (s.step E .new).1 l).1)
    generalize BState.chain K E s.blds.length (s.step E .new).1 l = y at c1 R2 hr hh
    have hlen : y.1.rsps.length = s.rsps.length := by rw [R2.nr, hrs, R.nr]; rfl
    rcases build_planned hE hst R2 hb2 hr with ⟨h1, h2⟩ | ⟨C, i, h1, h2, om3, oa3, σ3, R3, h3⟩
    · refine .inl ⟨⟨.badArg, by rw [hh, h2]⟩, ?_⟩
      rintro ⟨q, C, hq, hqC⟩
      have := ((leadsAll_any hp {} ⟨rfl, rfl⟩).2 q hq).1
      rw [h1, hqC] at this
      cases this
    · rw [hlen] at h2 h3
      exact .inr ⟨p, C, hp, h1, _, by rw [hh, ← h2], om3, oa3, σ3, i, R3, h3⟩
  · refine .inl ⟨⟨e, ?_⟩, fun ⟨p, C, h1, _⟩ => c2 ⟨p, h1⟩⟩
    rw [BState.handle]
    split
    · rename_i h1; rw [h1] at c1; cases c1
    · exact c1

/-- **C80.** A handler makes a Builder, makes these calls on it, and builds a Response; the Bodies it passes to `WithBody` are of any kind, as long as they
deliver what they hold.  Either this panics, and there is no way to do what was asked for; or there is, and the client gets it, whatever was done with other
Builders before. -/
theorem C80_client {K : Kinds Φ} {E : BEnv (Shelf Φ)} (hE : NoShared E) (hst : E.store = Shelf.store K) {A : Around} (hd : E.gens 0 = defaultGen E.store A.text)
    (hm : E.mime = Mime.normal) {s : BState (Shelf Φ)} (hs : s.Lived E) (hsrc : ∀ i C, A.bodies i = some C → s.bodies.Holds K i C)
    (l : List Say) (hl : ∀ x ∈ l, x.Known K E A s.heap) :
    ((∃ e, (s.handle K E l).2 = .panic e) ∧ ¬ ∃ p C, LeadsAll A {} l p ∧ p.body = some C) ∨
    ∃ p C, LeadsAll A {} l p ∧ p.body = some C ∧ ∃ s', s.handle K E l = (s', .made s.rsps.length) ∧ Arrives K s' s.rsps.length p C := by
  rcases handle_planned hE hst hd hm hs hsrc l hl with h | ⟨p, C, h1, h2, s', h3, om, oa, σ, i, R, h4⟩
  · exact .inl h
  · exact .inr ⟨p, C, h1, h2, s', h3, h4.arrives R⟩

/-- The exchange on a connection in which a handler makes these calls, where `A` says what the Bodies, maps and PageGenerators it uses are. -/
def Spec.Told.Answers (K : Kinds Φ) (E : BEnv (Shelf Φ)) (A : Around) (l : List Say) (e : Exchange) : Prop :=
  ∃ (s s' : BState (Shelf Φ)) (j : Nat) (r : Rsp) (i : Nat) (hdrs : List (GoStr × List GoStr)), ∃ (n : Nat) (raises isHEAD : Bool) (fuel : Nat) (assertErr : Bool)
    (onPanic : PanicArg → Res Unit), s.Lived E ∧ (∀ i C, A.bodies i = some C → s.bodies.Holds K i C) ∧ (∀ x ∈ l, x.Known K E A s.heap) ∧ s.handle K E l = (s', .made j) ∧ s'.rsps[j]? = some r ∧ r.body = some i ∧
    Lists hdrs (s'.heap.lookup r.hdrs) ∧ (hdrs.map Prod.fst).Nodup ∧ (∀ C, s'.bodies.Holds K i C → C.length < n ∧ C.length < fuel) ∧
    let x := overNet true n raises isHEAD (s'.bodies.ops K i) fuel assertErr onPanic (.resp { code := r.code, hdrs, body := s'.bodies, err := r.err })
    e.w = x.1 ∧ e.out = x.2.2 ∧ Sound e.choices e.w

/-- A handler on a connection: what there is around it, its calls, and the exchange. -/
structure Spec.Told.Turn where
  around : Around
  calls : List Say
  ex : Exchange

/-- **C80.** One handler after the other on a connection: the client gets, one after the other, what they planned. -/
theorem C80_connection {K : Kinds Φ} {E : BEnv (Shelf Φ)} (hE : NoShared E) (hst : E.store = Shelf.store K) {text : Int → GoStr}
    (hd : E.gens 0 = defaultGen E.store text) (hm : E.mime = Mime.normal) (strict : Bool) (l : List Spec.Told.Turn)
    (hl : ∀ x ∈ l, Answers K E x.around x.calls x.ex ∧ x.around.text = text ∧ x.ex.out = .ret () ∧ x.ex.keep = true ∧
      ∀ p C, LeadsAll x.around {} x.calls p → p.body = some C → Sendable p C) :
    ∃ ms, answers strict (l.map fun x => x.ex.w.isHEAD) (sends (l.map (·.ex))) = ms ∧ ms.length = l.length ∧
      ∀ (i : Nat) (m : Message) (x : Spec.Told.Turn), ms[i]? = some m → l[i]? = some x →
        ∃ p C, LeadsAll x.around {} x.calls p ∧ p.body = some C ∧ Fulfils m x.ex.w.isHEAD p C := by
  induction l with
  | nil => exact ⟨[], rfl, rfl, by simp⟩
  | cons a l ih =>
    obtain ⟨ms, i1, i2, i3⟩ := ih fun x hx => hl x (by simp [hx])
    obtain ⟨⟨s, s', j, r, i, hdrs, n, raises, isHEAD, fuel, assertErr, onPanic, b1, b5, k3, b2, b3, b4, b6, b7, b8, b10, b11, b12⟩, k5, k1, k2, k4⟩ := hl a (by simp)
    rcases C80_client hE hst (A := a.around) (by rw [k5]; exact hd) hm b1 b5 a.calls k3 with ⟨⟨e, h⟩, -⟩ | ⟨p, C, h1, h2, s'', h3, r', i', h4, h5, h6, h8⟩
    · rw [b2] at h; cases h
    · rw [b2] at h3
      obtain rfl : j = s.rsps.length := BOut.made.inj (Prod.mk.inj h3).2
      obtain rfl := (Prod.mk.inj h3).1
      rw [b3] at h4; cases h4
      rw [b4] at h5; cases h5
      obtain ⟨-, -, g2, g3, g4⟩ := h8 (k4 p C h1 h2) hdrs b6 b7 true n (b8 C h6).1 raises isHEAD fuel (b8 C h6).2 assertErr onPanic
      rw [← b10] at g2 g3 g4
      obtain ⟨m, q1, q2⟩ := g4.1 a.ex.choices b12 strict (sends (l.map (·.ex)))
      refine ⟨m :: ms, ?_, by simp [i2], ?_⟩
      · rw [List.map_cons, List.map_cons, Verif.Wire.sends, k1]
        dsimp only
        rw [if_pos (by rw [g3, k2]; rfl), answers, g2, q1]
        dsimp only
        rw [i1]
      · intro i m' x hm' hx
        cases i with
        | zero =>
          simp only [List.getElem?_cons_zero, Option.some.injEq] at hm' hx
          subst hm' hx
          exact ⟨p, C, h1, h2, by rw [g2]; exact q2⟩
        | succ i =>
          simp only [List.getElem?_cons_succ] at hm' hx
          exact i3 i m' x hm' hx

/-! ## Examples -/

/-- Only byte slices. -/
def toldKinds : Kinds MemFam := { step := MemFam.step, drains := fun _ => true, mem := id, step_mem := fun _ _ => rfl, drains_mem := fun _ => rfl }

/-- The environment of the examples. -/
def toldEnv : BEnv (Shelf MemFam) where
  store := Shelf.store toldKinds
  gens _ := defaultGen (Shelf.store toldKinds) (fun c => if c = 404 then lit "Not Found" else [])
  mime := Mime.normal
  spare n := n + 1

def toldAround : Around := { text := fun c => if c = 404 then lit "Not Found" else [] }

theorem toldEnv_noShared : NoShared toldEnv := by
  intro g X
  constructor <;> intros <;> simp [toldEnv, defaultGen]

/-- The calls of a handler: a header set under one spelling and added to under another, with line ends in a value; a Content-Type to be normalised; a value sent as JSON. -/
def toldCalls : List Say :=
  [.status 404, .prettyJSON (.arr [.int 1, .bool true]), .header (lit "x-name") (lit "old") true, .header (lit "X-NAME") (lit " a\r\nb ") false, .header (lit "X-name") (lit "c") true,
   .contentType (lit "Text/JSON ; Charset=\"UTF-8\""), .header (lit "push") (lit "/style.css") false, .withoutHeader (lit "x-other"), .error (some (.ext 1))]

/-- What they ask for. -/
def toldPlan : Plan :=
  (((((((({ status := 404 } : Plan).put (lit "Content-Type") [lit "application/json"]).put (lit "x-name") [lit "old"]).put (lit "X-NAME") [lit " a\r\nb "]).put (lit "X-name")
    [lit " a\r\nb ", lit "c"]).put (lit "Content-Type") [lit "text/json; charset=UTF-8"]).put (lit "push") [lit "/style.css"]).put (lit "x-other") [])

example : (toldPlan.fields (lit "x-name"), toldPlan.fields (lit "content-type"), toldPlan.fields (lit "push")) =
    ([lit " a\r\nb ", lit "c"], [lit "text/json; charset=UTF-8"], [lit "/style.css"]) := by decide +kernel

/-- What a call ended with. -/
def endOf : BOut → Nat ⊕ Option Panic
  | .made i => .inl i
  | .panic p => .inr (some p)
  | _ => .inr none

-- The Builder makes a Response of it, ...
example : let x := BState.handle toldKinds toldEnv { bodies := {} } toldCalls
    endOf x.2 = .inl 0 ∧ x.1.rsps.map (fun r => (r.code, r.body)) = [(404, some 0)] ∧
      x.1.rsps.map (fun r => (x.1.heap.lookup r.hdrs (lit "X-Name"), x.1.heap.lookup r.hdrs (lit "Content-Length"))) =
        [(some [lit " a\r\nb ", lit "c"], some [lit "20"])] ∧ x.1.bodies.bodies = [(0, 0)] :=
  ⟨by decide +kernel, by decide +kernel, by decide +kernel, by decide +kernel⟩

/-- The headers of the Response, in some order. -/
def toldHdrs : List (GoStr × List GoStr) :=
  [(lit "X-Name", [lit " a\r\nb ", lit "c"]), (lit "Content-Type", [lit "text/json; charset=UTF-8"]), (lit "Push", [lit "/style.css"]), (lit "Content-Length", [lit "20"])]

-- ... and this is what the client gets.
example : let s := (BState.handle toldKinds toldEnv { bodies := {} } toldCalls).1
    let x := overNet true 99 true false (s.bodies.ops toldKinds 0) 99 false (fun _ => .ret ()) (.resp { code := 404, hdrs := toldHdrs, body := s.bodies, err := some (.ext 1) })
    receive true false (wire (WireP.plain false x.1) x.1 ++ lit "HTTP/1.1 200 OK") =
      some ({ status := 404
              fields := [(lit "X-Name", lit "a  b"), (lit "X-Name", lit "c"), (lit "Content-Type", lit "text/json; charset=UTF-8"), (lit "Content-Length", lit "20"),
                (lit "Date", [])]
              body := lit "[\r\n  1,\r\n  true\r\n]\r\n" }, lit "HTTP/1.1 200 OK") := by
  decide +kernel

-- So there is a plan, and only what the JSON looks like is left open.
example : ∃ p C, LeadsAll toldAround {} toldCalls p ∧ p.body = some C := by
  rcases C80_client toldEnv_noShared rfl rfl rfl (A := toldAround) (s := { bodies := {} }) (.start _) (fun _ _ h => by cases h) toldCalls (by
    intro x hx
    simp only [toldCalls, List.mem_cons, List.not_mem_nil, or_false] at hx
    rcases hx with rfl | rfl | rfl | rfl | rfl | rfl | rfl | rfl | rfl <;> try trivial
    refine Json.WellNamed.arr fun v hv => ?_
    simp only [List.mem_cons, List.not_mem_nil, or_false] at hv
    rcases hv with rfl | rfl <;> constructor) with ⟨⟨e, h⟩, -⟩ | ⟨p, C, h1, h2, -⟩
  · have h' := congrArg endOf h
    rw [show endOf (BState.handle toldKinds toldEnv { bodies := {} } toldCalls).2 = .inl 0 by decide +kernel] at h'
    cases h'
  · exact ⟨p, C, h1, h2⟩

/-- A plan that can be sent. -/
example : let l : List Say := [.status 201, .header (lit "ETAG") (lit "x") true, .etag (lit "v1") false, .bytes (lit "hello"), .header (lit "content-length") (lit "005") false]
    ∃ p, LeadsAll {} {} l p ∧ p.status = 201 ∧ p.fields (lit "etag") = [lit "W/\"v1\""] ∧ p.body = some (lit "hello") ∧ Spec.Told.Sendable p (lit "hello") :=
  ⟨_, .cons (.status (by decide) (by decide)) (.cons (.add _ (by decide)) (.cons (.etag _ _) (.cons (.bytes _) (.cons (.set _ (by decide)) (.nil _))))), rfl,
    by decide +kernel, rfl, by decide, by show (201 : Int) ≠ 304; decide, by decide +kernel, .inr ⟨lit "005", by decide +kernel, by decide +kernel⟩⟩

-- An empty Body: the client gets it, and OnPanic is called.
example : let s := (BState.handle toldKinds toldEnv { bodies := {} } [.status 404, .bytes []]).1
    let x := overNet true 99 true false (s.bodies.ops toldKinds 0) 99 false (fun _ => .panic (.value 7))
      (.resp { code := 404, hdrs := [(lit "Content-Type", [lit "application/octet-stream"]), (lit "Content-Length", [lit "0"])], body := s.bodies, err := none })
    x.2.2 = .panic (.value 7) ∧ receive true false (wire (WireP.plain false x.1) x.1 ++ lit "HTTP") =
      some ({ status := 404
              fields := [(lit "Content-Type", lit "application/octet-stream"), (lit "Content-Length", lit "0"), (lit "Date", [])]
              body := [] }, lit "HTTP") := ⟨by decide +kernel, by decide +kernel⟩

-- A status that is none, a Content-Type that is none, and no Body at all.
example : (endOf (BState.handle toldKinds toldEnv { bodies := {} } [.status 100, .bytes []]).2, endOf (BState.handle toldKinds toldEnv { bodies := {} } [.contentType (lit "no/n/sense"), .bytes []]).2,
    endOf (BState.handle toldKinds toldEnv { bodies := {} } [.status 200]).2) = (.inr (some .badArg), .inr (some (.error (.ext 0))), .inr (some .badArg)) := by decide +kernel

end Verif
