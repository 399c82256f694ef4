import Verif.Proofs.Source

/-!
# Properties of `Response.Serve`: C08 (empty bodies), C34 (what is sent), C35 (closing), C36 (push), C46 (map order)

The ResponseWriter `D` and the Body `B` are arbitrary unless stated otherwise.  `D.record` and `B.record` are the same objects
keeping a log; `serve_is_transparent` says that this changes nothing.
-/

set_option autoImplicit false

namespace Verif
open Spec
variable {β ω : Type}

/-- `Serve` with logs: of the Body, of the ResponseWriter, and the outcome. -/
def served (D : RW ω) (B : BodyOps β) (fuel : Nat) (r : Resp β) (w : ω) : List BEv × List WEv × Res (Option Err) :=
  let x := serve D.record B.record fuel { code := r.code, hdrs := r.hdrs, body := ⟨r.body, []⟩, err := r.err } ⟨w, []⟩
  (x.1.log, x.2.1.log, x.2.2)

/-- Keeping logs does not change what happens. -/
theorem serve_is_transparent (D : RW ω) (B : BodyOps β) (fuel : Nat) (r : Resp β) (w : ω) (l : List WEv) (m : List BEv) :
    let x := serve D.record B.record fuel { code := r.code, hdrs := r.hdrs, body := ⟨r.body, m⟩, err := r.err } ⟨w, l⟩
    (x.1.inner, x.2.1.inner, x.2.2) = serve D B fuel r w := by
  obtain ⟨bm, L, o, h1, h2, -⟩ := serve_record D B fuel r w l m
  simp only [h1, h2]

theorem headerPush_eq : headerPush = lit "Push" := rfl

theorem sets_eq (hdrs : List (GoStr × List GoStr)) : sets hdrs = headerEvents hdrs := rfl

theorem sets_facts (hdrs : List (GoStr × List GoStr)) :
    (∀ e ∈ sets hdrs, ∃ k v, e = .set k v ∧ k ≠ headerPush) := by
  intro e he
  simp only [sets, List.mem_map, List.mem_filter] at he
  obtain ⟨⟨k, v⟩, ⟨_, h⟩, rfl⟩ := he
  exact ⟨k, v, rfl, by simpa using h⟩

theorem pushesOk_facts {P : List WEv} (h : PushesOk P) :
    handed P = [] ∧ statuses P = [] ∧ (∀ k v, WEv.set k v ∉ P) ∧ (∀ d r, WEv.write d r ∉ P) ∧ WEv.readFrom ∉ P ∧ ¬ PushFailed P := by
  refine ⟨?_, ?_, ?_, ?_, ?_, ?_⟩
  · induction P with
    | nil => rfl
    | cons e P ih =>
      obtain ⟨u, rfl | rfl⟩ := h e (by simp) <;> simpa [handed] using ih (fun x hx => h x (by simp [hx]))
  · simp only [statuses, List.filterMap_eq_nil_iff]
    intro e he
    obtain ⟨u, rfl | rfl⟩ := h e he <;> rfl
  · intro k v hm; obtain ⟨u, h | h⟩ := h _ hm <;> simp at h
  · intro k v hm; obtain ⟨u, h | h⟩ := h _ hm <;> simp at h
  · intro hm; obtain ⟨u, h | h⟩ := h _ hm <;> simp at h
  · rintro ⟨u, q, hm, h1, h2⟩
    obtain ⟨u', h | h⟩ := h _ hm <;> simp at h
    · exact h1 h.2
    · exact h2 h.2

theorem sets_handed (hdrs : List (GoStr × List GoStr)) : handed (sets hdrs) = [] := by
  have := sets_facts hdrs
  generalize sets hdrs = l at this
  induction l with
  | nil => rfl
  | cons e l ih =>
    obtain ⟨k, v, rfl, -⟩ := this e (by simp)
    simpa [handed] using ih (fun x hx => this x (by simp [hx]))

/-- The two cases of a log of `Serve`. -/
theorem served_cases (D : RW ω) (B : BodyOps β) (fuel : Nat) (r : Resp β) (w : ω) :
    (PushFailed (served D B fuel r w).2.1 ∧ (served D B fuel r w).1 = [] ∧ D.isPusher = true ∧
      ∃ P u q rest, (served D B fuel r w).2.1 = P ++ [.push u q] ∧ hdrGet r.hdrs headerPush = pushes P ++ u :: rest ∧
        PushesOk P ∧ (served D B fuel r w).2.2 = q) ∨
    (¬ PushFailed (served D B fuel r w).2.1 ∧
      ∃ P T, (served D B fuel r w).2.1 = P ++ sets r.hdrs ++ .status r.code :: T ∧ PushesOk P ∧
          pushes P = (if D.isPusher then hdrGet r.hdrs headerPush else []) ∧
          (∀ e ∈ T, passesBody e = true) ∧
          (((served D B fuel r w).2.2 = .hang ∧ bodyCloses (served D B fuel r w).1 = []) ∨
           (∃ p, (served D B fuel r w).2.2 = .panic p ∧ bodyCloses (served D B fuel r w).1 = []) ∨
           (∃ bm' q, (served D B fuel r w).1 = bm' ++ [.close q] ∧ bodyCloses bm' = [] ∧
             ((∀ err, q = .ret err → ((served D B fuel r w).2.2 = .ret none ↔ err = none ∧ Delivered bm' T) ∧
                ∃ e, (served D B fuel r w).2.2 = .ret e) ∧
              (∀ p, q = .panic p → (served D B fuel r w).2.2 = .panic p) ∧
              (q = .hang → (served D B fuel r w).2.2 = .hang)) ∧
             ((∀ w, NoDrain (D.readFrom w)) → handed T = bodyGave bm')))) := by
  obtain ⟨bm, L, o, h1, h2, h3⟩ := serve_record D B fuel r w [] []
  have e : served D B fuel r w = (bm, L, o) := by simp [served, h1]
  rw [e]
  rcases h3 with ⟨P, u, q, rest, g1, rfl, g2, g3, g4, g5, rfl, rfl⟩ | ⟨P, T, rfl, g2, g3, g4, g5⟩
  · exact .inl ⟨⟨u, o, by simp, g4, g5⟩, rfl, g1, P, u, o, rest, rfl, g2, g3, rfl⟩
  · refine .inr ⟨?_, P, T, rfl, g2, g3, g4, g5⟩
    rintro ⟨u, q, hm, n1, n2⟩
    rcases List.mem_append.1 hm with hm | hm
    · rcases List.mem_append.1 hm with hm | hm
      · exact (pushesOk_facts g2).2.2.2.2.2 ⟨u, q, hm, n1, n2⟩
      · obtain ⟨k, v, h, -⟩ := sets_facts _ _ hm; simp at h
    · rcases List.mem_cons.1 hm with hm | hm
      · simp at hm
      · have := g4 _ hm; simp [passesBody] at this

/-! ## C34 -/

/-- **C34.** Unless a push fails, the client gets, in this order: pushes, exactly the headers of the Response other than Push,
the status (once), and then only parts of the body. -/
theorem C34_order (D : RW ω) (B : BodyOps β) (fuel : Nat) (r : Resp β) (w : ω) (hp : ¬ PushFailed (served D B fuel r w).2.1) :
    ∃ P T, (served D B fuel r w).2.1 = P ++ headerEvents r.hdrs ++ .status r.code :: T ∧ PushesOk P ∧
      ∀ e ∈ T, passesBody e = true := by
  rcases served_cases D B fuel r w with ⟨h, -⟩ | ⟨-, P, T, h1, h2, h3, h4, -⟩
  · exact absurd h hp
  · exact ⟨P, T, h1, h2, h4⟩

/-- **C34.** When `Serve` returns without push failure, the bytes handed to the client are exactly those the Body delivered, in
order (for a ResponseWriter whose `ReadFrom`, if it has one, uses the Body by `Read` only). -/
theorem C34_bytes (D : RW ω) (B : BodyOps β) (fuel : Nat) (r : Resp β) (w : ω) (hp : ¬ PushFailed (served D B fuel r w).2.1)
    (e : Option Err) (hr : (served D B fuel r w).2.2 = .ret e) (hD : ∀ w, NoDrain (D.readFrom w)) :
    handed (served D B fuel r w).2.1 = bodyGave (served D B fuel r w).1 := by
  rcases served_cases D B fuel r w with ⟨h, -⟩ | ⟨-, P, T, h1, h2, h3, h4, h5⟩
  · exact absurd h hp
  · rcases h5 with ⟨h5, -⟩ | ⟨p, h5, -⟩ | ⟨bm', q, h5, h6, h7, h8⟩
    · rw [hr] at h5; simp at h5
    · rw [hr] at h5; simp at h5
    · rw [h1, h5, handed_append, handed_append, (pushesOk_facts h2).1, sets_handed, bodyGave_append]
      simp [handed, bodyGave, h8 hD]

/-- **C34.** When `Serve` returns without push failure, it returns nil iff the copying of the Body was completed and `Close`
returned nil. -/
theorem C34_nil_iff (D : RW ω) (B : BodyOps β) (fuel : Nat) (r : Resp β) (w : ω) (hp : ¬ PushFailed (served D B fuel r w).2.1)
    (e : Option Err) (hr : (served D B fuel r w).2.2 = .ret e) :
    e = none ↔ bodyCloses (served D B fuel r w).1 = [.ret none] ∧
      Delivered ((served D B fuel r w).1.dropLast) (served D B fuel r w).2.1 := by
  rcases served_cases D B fuel r w with ⟨h, -⟩ | ⟨-, P, T, h1, h2, h3, h4, h5⟩
  · exact absurd h hp
  · rcases h5 with ⟨h5, -⟩ | ⟨p, h5, -⟩ | ⟨bm', q, h5, h6, ⟨h7, h7', h7''⟩, h8⟩
    · rw [hr] at h5; simp at h5
    · rw [hr] at h5; simp at h5
    · cases q with
      | panic p => have := h7' p rfl; rw [hr] at this; simp at this
      | hang => have := h7'' rfl; rw [hr] at this; simp at this
      | ret err =>
        obtain ⟨h7, -⟩ := h7 err rfl
        rw [hr] at h7
        have hc : bodyCloses (served D B fuel r w).1 = [.ret err] := by
          rw [h5, bodyCloses_append, h6]; rfl
        have hd : (served D B fuel r w).1.dropLast = bm' := by rw [h5]; simp
        have hdel : Delivered bm' (served D B fuel r w).2.1 ↔ Delivered bm' T := by
          rw [h1]
          obtain ⟨-, -, -, f4, f5, -⟩ := pushesOk_facts h2
          have hl : ∀ n, (P ++ sets r.hdrs ++ .status r.code :: T).getLast? = some (.readFromDone n none) ↔
              T.getLast? = some (.readFromDone n none) := by
            intro n
            rw [List.getLast?_append]
            cases T using List.recOn with
            | nil => simp
            | cons a T => simp [List.getLast?_cons]
          have hm : ∀ d q, WEv.write d q ∈ P ++ sets r.hdrs ++ .status r.code :: T ↔ WEv.write d q ∈ T := by
            intro d q
            simp only [List.mem_append, List.mem_cons]
            constructor
            · rintro ((h | h) | h | h)
              · exact absurd h (f4 d q)
              · obtain ⟨k, v, h, -⟩ := sets_facts _ _ h; simp at h
              · simp at h
              · exact h
            · exact fun h => .inr (.inr h)
          have hrf : WEv.readFrom ∈ P ++ sets r.hdrs ++ .status r.code :: T ↔ WEv.readFrom ∈ T := by
            simp only [List.mem_append, List.mem_cons]
            constructor
            · rintro ((h | h) | h | h)
              · exact absurd h f5
              · obtain ⟨k, v, h, -⟩ := sets_facts _ _ h; simp at h
              · simp at h
              · exact h
            · exact fun h => .inr (.inr h)
          unfold Delivered
          simp only [hl, hm, hrf]
        rw [hc, hd, hdel]
        constructor
        · rintro rfl
          obtain ⟨rfl, h⟩ := h7.1 rfl
          exact ⟨rfl, h⟩
        · rintro ⟨ha, hb⟩
          have : err = none := by simpa using ha
          have := h7.2 ⟨this, hb⟩
          simpa using this

/-- **C34.** For a Body representing the bytes `C` and a ResponseWriter that keeps to its contract: whatever happens, what is
handed to the client is a beginning of `C`; and if `Serve` returns nil it is all of `C`. -/
theorem C34_content (D : RW ω) (hD : HonestWriter D) (B : BodyOps β) {P : β → List Byte → Prop} (hB : IsSource B P) (fuel : Nat)
    (r : Resp β) (C : List Byte) (hP : P r.body C) (w : ω) :
    handed (serve D.record B fuel r ⟨w, []⟩).2.1.log <+: C ∧
    ((serve D.record B fuel r ⟨w, []⟩).2.2 = .ret none → handed (serve D.record B fuel r ⟨w, []⟩).2.1.log = C) := by
  have nilcase : ∀ (b : β) (s : Logged WEv ω) (o : Res (Option Err)), serve D.record B fuel r ⟨w, []⟩ = (b, s, o) →
      handed s.log = [] → o ≠ .ret none → handed (serve D.record B fuel r ⟨w, []⟩).2.1.log <+: C ∧
      ((serve D.record B fuel r ⟨w, []⟩).2.2 = .ret none → handed (serve D.record B fuel r ⟨w, []⟩).2.1.log = C) := by
    intro b s o he hh hne
    rw [he]
    exact ⟨by simp [hh], fun h => absurd h hne⟩
  have hpush : (∃ w' Q, (if D.record.isPusher then pushAll D.record (hdrGet r.hdrs headerPush) ⟨w, []⟩ else (⟨w, []⟩, none)) =
        (⟨w', Q⟩, none) ∧ PushesOk Q) ∨
      (∃ w' Q u q, (if D.record.isPusher then pushAll D.record (hdrGet r.hdrs headerPush) ⟨w, []⟩ else (⟨w, []⟩, none)) =
        (⟨w', Q ++ [.push u q]⟩, some q) ∧ PushesOk Q ∧ q ≠ .ret none) := by
    by_cases hp : D.record.isPusher = true
    · rw [if_pos hp]
      rcases pushAll_record D (hdrGet r.hdrs headerPush) w [] with ⟨w', Q, h1, h2, h3⟩ | ⟨w', Q, u, q, rest, h1, h2, h3, h4, h5⟩
      · exact .inl ⟨w', Q, by simpa using h1, h3⟩
      · exact .inr ⟨w', Q, u, q, by simpa using h1, h3, h4⟩
    · rw [if_neg hp]
      exact .inl ⟨w, [], rfl, by simp [PushesOk]⟩
  rcases hpush with ⟨w1, Q, h1, h2⟩ | ⟨w1, Q, u, q, h1, h2, h3⟩
  · have es := setAll_record D r.hdrs w1 Q
    have hQ : handed (Q ++ sets r.hdrs ++ [.status r.code]) = [] := by
      rw [handed_append, handed_append, (pushesOk_facts h2).1, sets_handed]; rfl
    rcases hst : D.writeHeader (setAll D r.hdrs w1) r.code with ⟨w2, rs⟩
    have ew : D.record.writeHeader ⟨setAll D r.hdrs w1, Q ++ sets r.hdrs⟩ r.code =
        (⟨w2, Q ++ sets r.hdrs ++ [.status r.code]⟩, rs) := by simp [RW.record, hst]
    have es' : setAll D.record r.hdrs ⟨w1, Q⟩ = ⟨setAll D r.hdrs w1, Q ++ sets r.hdrs⟩ := es
    cases rs with
    | panic p =>
      exact nilcase r.body ⟨w2, Q ++ sets r.hdrs ++ [.status r.code]⟩ (.panic p) (by simp only [serve, h1, es', ew]) hQ (by simp)
    | hang =>
      exact nilcase r.body ⟨w2, Q ++ sets r.hdrs ++ [.status r.code]⟩ .hang (by simp only [serve, h1, es', ew]) hQ (by simp)
    | ret u =>
      obtain ⟨T, C', c1, c2, c3⟩ := ioCopy_source D hD B hB fuel r.body C hP w2 (Q ++ sets r.hdrs ++ [.status r.code])
      rcases hc : ioCopy D.record B fuel r.body ⟨w2, Q ++ sets r.hdrs ++ [.status r.code]⟩ with ⟨b3, s3, ans⟩
      rw [hc] at c1 c3
      dsimp only at c1 c3
      have hh : handed s3.log = handed T := by rw [c1, handed_append, hQ]; rfl
      have fin : ∀ (b : β) (o : Res (Option Err)), serve D.record B fuel r ⟨w, []⟩ = (b, s3, o) → (o = .ret none → C' = []) →
          handed (serve D.record B fuel r ⟨w, []⟩).2.1.log <+: C ∧
          ((serve D.record B fuel r ⟨w, []⟩).2.2 = .ret none → handed (serve D.record B fuel r ⟨w, []⟩).2.1.log = C) := by
        intro b o he hn
        rw [he]
        dsimp only
        rw [hh]
        refine ⟨⟨C', c2.symm⟩, fun h => ?_⟩
        have h0 := hn h
        rw [h0] at c2
        simpa using c2.symm
      cases ans with
      | panic p => exact fin b3 (.panic p) (by simp only [serve, h1, es', ew, hc]) (by simp)
      | hang => exact fin b3 .hang (by simp only [serve, h1, es', ew, hc]) (by simp)
      | ret a =>
        obtain ⟨n, err⟩ := a
        rcases hcl : B.close b3 with ⟨b4, q⟩
        cases q with
        | panic p => exact fin b4 (.panic p) (by simp only [serve, h1, es', ew, hc, hcl]) (by simp)
        | hang => exact fin b4 .hang (by simp only [serve, h1, es', ew, hc, hcl]) (by simp)
        | ret err2 =>
          refine fin b4 (.ret (if err = none then err2 else err)) (by simp only [serve, h1, es', ew, hc, hcl]) ?_
          intro h
          have : err = none := by
            by_cases he : err = none
            · exact he
            · simp [he] at h
          exact c3 n (by rw [this])
  · refine nilcase r.body ⟨w1, Q ++ [.push u q]⟩ q (by simp only [serve, h1]) ?_ h3
    rw [handed_append, (pushesOk_facts h2).1]; rfl

/-- **C34** for Bodies made by `FromBytes` from a non-empty string. -/
theorem C34_content_bytes (D : RW ω) (hD : HonestWriter D) (fuel : Nat) (data : List Byte) (hlen : data.length < 2 ^ 63)
    (hne : data ≠ []) (code : Int) (hdrs : List (GoStr × List GoStr)) (w : ω) :
    let x := serve D.record (BodyOps.ofFam MemFam.step true 0) fuel { code := code, hdrs := hdrs, body := fromBytes data } ⟨w, []⟩
    handed x.2.1.log <+: data ∧ (x.2.2 = .ret none → handed x.2.1.log = data) :=
  C34_content D hD _ (mem_source data hlen hne 0) fuel _ data (mem_source_init data) w

/-- **C34** for Bodies over a well-behaved `io.ReaderAt`. -/
theorem C34_content_readerAt {σ : Type} (D : RW ω) (hD : HonestWriter D) (fuel : Nat) {R : Rdr σ} {F : List Byte} {Inv : σ → Prop}
    (hR : IsReaderAt R F Inv) (st : σ) (hi : Inv st) (n : Nat) (hn : n ≤ F.length) (hn63 : n < 2 ^ 63) (code : Int)
    (hdrs : List (GoStr × List GoStr)) (w : ω) :
    let x := serve D.record (BodyOps.ofFam (ReaderAtBody.step R) false 0) fuel
      { code := code, hdrs := hdrs, body := ReaderAtBody.init st n } ⟨w, []⟩
    handed x.2.1.log <+: F.take n ∧ (x.2.2 = .ret none → handed x.2.1.log = F.take n) :=
  C34_content D hD _ (readerAt_source hR n hn hn63 0) fuel _ _ (readerAt_source_init hi n hn) w

/-- **C34** for Bodies over a well-behaved `io.ReadSeeker` that fills the buffer. -/
theorem C34_content_seeker {σ : Type} (D : RW ω) (hD : HonestWriter D) (fuel : Nat) {R : Rdr σ} {F : List Byte}
    {At : σ → Nat → Prop} (hR : IsFullSeeker R F At) (st : σ) (p : Nat) (hi : At st p) (n : Nat) (hn : n ≤ F.length)
    (hn63 : n < 2 ^ 63) (code : Int) (hdrs : List (GoStr × List GoStr)) (w : ω) :
    let x := serve D.record (BodyOps.ofFam (SeekerBody.step R) false 0) fuel
      { code := code, hdrs := hdrs, body := SeekerBody.init st n } ⟨w, []⟩
    handed x.2.1.log <+: F.take n ∧ (x.2.2 = .ret none → handed x.2.1.log = F.take n) :=
  C34_content D hD _ (seeker_source hR n hn hn63 0) fuel _ _ (readerAt_source_init (Inv := fun st => ∃ p, At st p) ⟨p, hi⟩ n hn) w

/-- **C34** for Bodies over a plain `io.Reader` which is a stream of the bytes `T`, with advertised length `L` (-1: none). -/
theorem C34_content_stream {σ : Type} (D : RW ω) (hD : HonestWriter D) (fuel : Nat) {R : Rdr σ} [R.CloseOk] {fin : Err}
    {Inv : σ → List Byte → Prop} (hS : IsStream R fin Inv) (st : σ) (T : List Byte) (hI : Inv st T) (L : Int)
    (hL : fin = .eof ∨ L ≠ T.length) (code : Int) (hdrs : List (GoStr × List GoStr)) (w : ω) :
    let x := serve D.record (BodyOps.ofFam (streamStep R fuel) false 0) fuel
      { code := code, hdrs := hdrs, body := streamInit st L } ⟨w, []⟩
    handed x.2.1.log <+: cut T L ∧ (x.2.2 = .ret none → handed x.2.1.log = cut T L) :=
  C34_content D hD _ (stream_source hS T L hL fuel 0) fuel _ _ (stream_source_init st T hI L) w

/-! A client for the examples: it takes everything, and has no optional interface. -/

def plainRW : RW Unit where
  setHeader w _ _ := w
  writeHeader w _ := (w, .ret ())
  write w d := (w, .ret (d.length, none))
  flush w := (w, .ret ())
  push w _ := (w, .ret none)
  readFrom w := .panic w .nilDeref
  isPusher := false
  isReaderFrom := false
  isFlusher := false
  isCloseNotifier := false
  isHijacker := false

/-- It can push, but the connection breaks then. -/
def pushBreaksRW : RW Unit := { plainRW with isPusher := true, push := fun w _ => (w, .ret (some (.ext 32))) }

theorem plainRW_honest : HonestWriter plainRW := by
  refine ⟨?_, fun _ => trivial⟩
  intro w d n h
  simp [plainRW] at h
  omega

/-- A Response for the examples: two headers and a push, body "hi". -/
def exResp : Resp MemFam :=
  { code := 404, hdrs := [(lit "A", [lit "x"]), (lit "Push", [lit "/p"]), (lit "B", [])], body := fromBytes [104, 105] }

example : served plainRW (BodyOps.ofFam MemFam.step true 0) 5 exResp () =
    ([.gave [104, 105] 2 none, .writeToDone 2 none, .close (.ret none)],
     [.set (lit "A") [lit "x"], .set (lit "B") [], .status 404, .write [104, 105] (.ret (2, none))], .ret none) := by decide +kernel
example : HonestWriter plainRW := plainRW_honest
example : ∀ w, NoDrain (plainRW.readFrom w) := fun _ => trivial
example : (serve plainRW.record (BodyOps.ofFam (ReaderAtBody.step { fileRdr [1, 2, 3, 4] with isCloser := false }) false 0) 5
      { code := 200, hdrs := [], body := ReaderAtBody.init 0 3 } ⟨(), []⟩).2.2 = .ret none := by decide +kernel
example : (served plainRW (BodyOps.ofFam (streamStep (scripted) 9) false 0) 5
      { code := 200, hdrs := [], body := streamInit [.got [1, 2] none, .got [3] (some .eof)] (-1) } ()).2 =
    ([.status 200, .write [1, 2, 3] (.ret (3, none))], .ret (some (.ext 7))) := by decide +kernel

/-- A client that violates the contract of `io.Writer`: it takes only one byte and reports no error. -/
def shortRW : RW Unit := { plainRW with write := fun w d => (w, .ret (min d.length 1, none)) }

/-- **C34**: the hypothesis that the writer keeps to its contract is needed.  If it does not, and takes fewer bytes without an
error, then the loss goes unnoticed for Bodies that have `WriteTo` (`Serve` returns nil), though `io.Copy` reports
`io.ErrShortWrite` for the others. -/
theorem C34_short_write_unnoticed :
    (served shortRW (BodyOps.ofFam MemFam.step true 0) 5 exResp ()).2.2 = .ret none ∧
    (served shortRW (BodyOps.ofFam MemFam.step false 0) 5 exResp ()).2.2 = .ret (some .shortWrite) := by decide +kernel

/-! ## C35 -/

/-- **C35.** Whatever happens, the Body is closed at most once. -/
theorem C35_at_most_once (D : RW ω) (B : BodyOps β) (fuel : Nat) (r : Resp β) (w : ω) :
    (bodyCloses (served D B fuel r w).1).length ≤ 1 := by
  rcases served_cases D B fuel r w with ⟨-, h, -⟩ | ⟨-, P, T, h1, h2, h3, h4, h5⟩
  · rw [h]; simp [bodyCloses]
  · rcases h5 with ⟨-, h⟩ | ⟨p, -, h⟩ | ⟨bm', q, h5, h6, -⟩
    · simp [h]
    · simp [h]
    · rw [h5, bodyCloses_append, h6]; simp [bodyCloses]

/-- **C35, partial.** Full statement: whenever `Serve` returns, the Body has been closed exactly once.  Proved: unless a push
failed; the closing is the last thing done with the Body.  Missing: it is not closed when a push fails (`C35_false`). -/
theorem C35_closed_once_partial (D : RW ω) (B : BodyOps β) (fuel : Nat) (r : Resp β) (w : ω)
    (hp : ¬ PushFailed (served D B fuel r w).2.1) (e : Option Err) (hr : (served D B fuel r w).2.2 = .ret e) :
    ∃ before err, (served D B fuel r w).1 = before ++ [.close (.ret err)] ∧ bodyCloses before = [] := by
  rcases served_cases D B fuel r w with ⟨h, -⟩ | ⟨-, P, T, h1, h2, h3, h4, h5⟩
  · exact absurd h hp
  · rcases h5 with ⟨h, -⟩ | ⟨p, h, -⟩ | ⟨bm', q, h5, h6, ⟨h7, h7', h7''⟩, -⟩
    · rw [hr] at h; simp at h
    · rw [hr] at h; simp at h
    · cases q with
      | panic p => have := h7' p rfl; rw [hr] at this; simp at this
      | hang => have := h7'' rfl; rw [hr] at this; simp at this
      | ret err => exact ⟨bm', err, h5, h6⟩

/-- **C35.** If a push fails, `Serve` never touches the Body: it is not closed. -/
theorem C35_not_closed_after_push_failure (D : RW ω) (B : BodyOps β) (fuel : Nat) (r : Resp β) (w : ω)
    (hp : PushFailed (served D B fuel r w).2.1) : (served D B fuel r w).1 = [] := by
  rcases served_cases D B fuel r w with ⟨-, h, -⟩ | ⟨h, -⟩
  · exact h
  · exact absurd hp h

/-- **C35 is false of the code**: here `Serve` returns, and the Body was never closed. -/
theorem C35_false : ∃ (D : RW Unit) (r : Resp MemFam) (e : Option Err),
    (served D (BodyOps.ofFam MemFam.step true 0) 5 r ()).2.2 = .ret e ∧
    bodyCloses (served D (BodyOps.ofFam MemFam.step true 0) 5 r ()).1 = [] :=
  ⟨pushBreaksRW, exResp, some (.ext 32), by decide +kernel⟩

example : ¬ PushFailed (served plainRW (BodyOps.ofFam MemFam.step true 0) 5 exResp ()).2.1 := by
  rw [show (served plainRW (BodyOps.ofFam MemFam.step true 0) 5 exResp ()).2.1 =
    [.set (lit "A") [lit "x"], .set (lit "B") [], .status 404, .write [104, 105] (.ret (2, none))] from by decide +kernel]
  rintro ⟨u, q, h, -⟩
  simp at h

/-! ## C36 -/

/-- **C36.** If the ResponseWriter can push and no push fails, exactly the URLs under Push are pushed, in order, before
everything else. -/
theorem C36_all_pushed (D : RW ω) (hD : D.isPusher = true) (B : BodyOps β) (fuel : Nat) (r : Resp β) (w : ω)
    (hp : ¬ PushFailed (served D B fuel r w).2.1) :
    ∃ P rest, (served D B fuel r w).2.1 = P ++ rest ∧ PushesOk P ∧ pushes P = hdrGet r.hdrs (lit "Push") ∧ pushes rest = [] := by
  rcases served_cases D B fuel r w with ⟨h, -⟩ | ⟨-, P, T, h1, h2, h3, h4, -⟩
  · exact absurd h hp
  · refine ⟨P, sets r.hdrs ++ .status r.code :: T, by simp [h1], h2, (by simpa [hD, headerPush_eq] using h3), ?_⟩
    simp only [pushes, List.filterMap_eq_nil_iff, List.mem_append, List.mem_cons]
    rintro e (h | rfl | h)
    · obtain ⟨k, v, rfl, -⟩ := sets_facts _ _ h; rfl
    · rfl
    · have := h4 e h
      revert this; cases e <;> simp [passesBody]

/-- **C36.** If a push fails, the URLs before it have been pushed, nothing else happens, and the outcome is that of the push. -/
theorem C36_stops_at_failure (D : RW ω) (B : BodyOps β) (fuel : Nat) (r : Resp β) (w : ω)
    (hp : PushFailed (served D B fuel r w).2.1) :
    D.isPusher = true ∧ ∃ P u q rest, (served D B fuel r w).2.1 = P ++ [.push u q] ∧ PushesOk P ∧
      hdrGet r.hdrs (lit "Push") = pushes P ++ u :: rest ∧ (served D B fuel r w).2.2 = q := by
  rcases served_cases D B fuel r w with ⟨-, -, h0, P, u, q, rest, h1, h2, h3, h4⟩ | ⟨h, -⟩
  · exact ⟨h0, P, u, q, rest, h1, h3, h2, h4⟩
  · exact absurd hp h

/-- **C36.** Nothing is pushed to a ResponseWriter that cannot push. -/
theorem C36_no_pusher (D : RW ω) (hD : D.isPusher = false) (B : BodyOps β) (fuel : Nat) (r : Resp β) (w : ω) :
    pushes (served D B fuel r w).2.1 = [] := by
  rcases served_cases D B fuel r w with ⟨-, -, h0, -⟩ | ⟨-, P, T, h1, h2, h3, h4, -⟩
  · rw [hD] at h0; simp at h0
  · rw [h1]
    simp only [hD, Bool.false_eq_true, if_false] at h3
    have e1 : pushes (sets r.hdrs) = [] := by
      simp only [pushes, List.filterMap_eq_nil_iff]
      intro e he
      obtain ⟨k, v, rfl, -⟩ := sets_facts _ _ he; rfl
    have e2 : pushes (.status r.code :: T) = [] := by
      simp only [pushes, List.filterMap_eq_nil_iff, List.mem_cons]
      rintro e (rfl | h)
      · rfl
      · have := h4 e h
        revert this; cases e <;> simp [passesBody]
    simp only [pushes, List.filterMap_append, List.append_eq_nil_iff] at h3 e1 e2 ⊢
    exact ⟨⟨h3, e1⟩, e2⟩

/-- **C36.** The Push header is never sent to the client. -/
theorem C36_push_not_sent (D : RW ω) (B : BodyOps β) (fuel : Nat) (r : Resp β) (w : ω) (v : List GoStr) :
    WEv.set (lit "Push") v ∉ (served D B fuel r w).2.1 := by
  rcases served_cases D B fuel r w with ⟨-, -, h0, P, u, q, rest, h1, h2, h3, h4⟩ | ⟨-, P, T, h1, h2, h3, h4, -⟩
  · rw [h1]
    intro hm
    rcases List.mem_append.1 hm with hm | hm
    · exact (pushesOk_facts h3).2.2.1 _ _ hm
    · simp at hm
  · rw [h1]
    intro hm
    rcases List.mem_append.1 hm with hm | hm
    · rcases List.mem_append.1 hm with hm | hm
      · exact (pushesOk_facts h2).2.2.1 _ _ hm
      · obtain ⟨k, v, h, hk⟩ := sets_facts _ _ hm
        simp at h
        exact hk (h.1.symm.trans headerPush_eq.symm)
    · rcases List.mem_cons.1 hm with hm | hm
      · simp at hm
      · have := h4 _ hm; simp [passesBody] at this

example : (served { pushBreaksRW with push := fun w _ => (w, .ret (some .notSupported)) } (BodyOps.ofFam MemFam.step true 0) 5 exResp ()).2 =
    ([.push (lit "/p") (.ret (some .notSupported)), .set (lit "A") [lit "x"], .set (lit "B") [], .status 404,
      .write [104, 105] (.ret (2, none))], .ret none) := by decide +kernel
example : PushFailed (served pushBreaksRW (BodyOps.ofFam MemFam.step true 0) 5 exResp ()).2.1 :=
  ⟨lit "/p", .ret (some (.ext 32)), by decide +kernel⟩

/-! ## C08 -/

/-- **C08, partial.** Full statement: `io.Copy` from an open empty Body writes nothing and returns `(0, nil)`.  Proved: it writes
nothing and the count is 0, whatever the writer.  Missing: the error (`C08_copy_empty_fails`). -/
theorem C08_copy_empty_partial (D : RW ω) (fuel : Nat) (w : ω) :
    ∃ e, ioCopy D (BodyOps.ofFam MemFam.step true 0) fuel (fromBytes []) w = (fromBytes [], w, .ret (0, e)) := by
  refine ⟨some .eof, ?_⟩
  simp [ioCopy, BodyOps.ofFam, fromBytes, emptyFam, MemFam.step, EmptyBody.step, EmptyBody.writeTo, Op.h, runWT]

/-- **C08 is false of the code**: `io.Copy` from an open empty Body returns `io.EOF` as an error, for every writer. -/
theorem C08_copy_empty_fails (D : RW ω) (fuel : Nat) (w : ω) :
    ioCopy D (BodyOps.ofFam MemFam.step true 0) fuel (fromBytes []) w = (fromBytes [], w, .ret (0, some .eof)) := by
  simp [ioCopy, BodyOps.ofFam, fromBytes, emptyFam, MemFam.step, EmptyBody.step, EmptyBody.writeTo, Op.h, runWT]

/-- **C08**, consequence: `Serve` of a Response with an empty Body and no Push header returns the error `io.EOF`, for every
ResponseWriter whose `WriteHeader` returns. -/
theorem C08_serve_empty_fails (D : RW ω) (fuel : Nat) (code : Int) (hdrs : List (GoStr × List GoStr))
    (hp : hdrGet hdrs headerPush = []) (w : ω) (hw : ∀ w, (D.writeHeader w code).2 = .ret ()) :
    (serve D (BodyOps.ofFam MemFam.step true 0) fuel { code := code, hdrs := hdrs, body := fromBytes [] } w).2.2 =
      .ret (some .eof) := by
  have e : (if D.isPusher then pushAll D (hdrGet hdrs headerPush) w else (w, none)) = (w, none) := by
    rw [hp]; simp [pushAll]
  simp only [serve, e]
  rcases hq : D.writeHeader (setAll D hdrs w) code with ⟨w1, r⟩
  have := hw (setAll D hdrs w)
  rw [hq] at this
  dsimp only at this
  subst this
  simp only [C08_copy_empty_fails]
  simp [BodyOps.ofFam, fromBytes, emptyFam, MemFam.step, EmptyBody.step, EmptyBody.close, Op.h]

example : hdrGet [(lit "A", [lit "x"])] headerPush = [] := by decide
example : ∀ w, (plainRW.writeHeader w 200).2 = .ret () := fun _ => rfl

/-! ## C46, the header part -/

/-- Assignments to different headers can be exchanged. -/
def SetCommutes (D : RW ω) : Prop :=
  ∀ w k v k' v', k ≠ k' → D.setHeader (D.setHeader w k v) k' v' = D.setHeader (D.setHeader w k' v') k v

theorem setAll_perm (D : RW ω) (hD : SetCommutes D) {a b : List (GoStr × List GoStr)} (h : a.Perm b)
    (hn : (a.map (·.1)).Nodup) (w : ω) : setAll D a w = setAll D b w := by
  induction h generalizing w with
  | nil => rfl
  | cons x h ih =>
    simp only [List.map_cons, List.nodup_cons] at hn
    simp only [setAll, List.foldl_cons]
    exact ih hn.2 _
  | swap x y l =>
    simp only [setAll, List.foldl_cons]
    congr 1
    have : y.1 ≠ x.1 := by
      intro h; simp [h] at hn
    by_cases h1 : x.1 = headerPush
    · simp [h1]
    · by_cases h2 : y.1 = headerPush
      · simp [h2]
      · simp only [ne_eq, h1, not_false_eq_true, if_true, h2]
        exact hD _ _ _ _ _ this
  | trans h1 h2 ih1 ih2 =>
    rw [ih1 hn, ih2 ((h1.map _).nodup_iff.1 hn)]

theorem hdrGet_perm {a b : List (GoStr × List GoStr)} (h : a.Perm b) (hn : (a.map (·.1)).Nodup) (k : GoStr) :
    hdrGet a k = hdrGet b k := by
  have key : ∀ l : List (GoStr × List GoStr), (l.map (·.1)).Nodup → ∀ v, (k, v) ∈ l → hdrGet l k = v := by
    intro l hl v hv
    induction l with
    | nil => simp at hv
    | cons x l ih =>
      simp only [List.map_cons, List.nodup_cons] at hl
      rcases List.mem_cons.1 hv with rfl | hv
      · simp [hdrGet]
      · have : x.1 ≠ k := by
          rintro rfl
          exact hl.1 (List.mem_map.2 ⟨_, hv, rfl⟩)
        have e := ih hl.2 hv
        simpa [hdrGet, this] using e
  have hnil : ∀ l : List (GoStr × List GoStr), (∀ v, (k, v) ∉ l) → hdrGet l k = [] := by
    intro l hl
    unfold hdrGet
    have : l.find? (fun e => decide (e.1 = k)) = none := by
      rw [List.find?_eq_none]
      intro x hx he
      simp at he
      subst he
      exact hl x.2 hx
    rw [this]
  by_cases hx : ∃ v, (k, v) ∈ a
  · obtain ⟨v, hv⟩ := hx
    rw [key a hn v hv, key b ((h.map _).nodup_iff.1 hn) v (h.mem_iff.1 hv)]
  · rw [hnil a (fun v hv => hx ⟨v, hv⟩), hnil b (fun v hv => hx ⟨v, h.mem_iff.2 hv⟩)]

/-- **C46.** The order in which Go iterates over the header map does not matter to `Serve`: for two orders of the same entries
(with distinct keys) everything is the same — the state of the Body, of the ResponseWriter, and the outcome. -/
theorem C46_iteration_order_serve (D : RW ω) (hD : SetCommutes D) (B : BodyOps β) (fuel : Nat) (r : Resp β)
    (hdrs : List (GoStr × List GoStr)) (h : r.hdrs.Perm hdrs) (hn : (r.hdrs.map (·.1)).Nodup) (w : ω) :
    serve D B fuel { r with hdrs := hdrs } w = serve D B fuel r w := by
  unfold serve
  simp only [hdrGet_perm h hn headerPush, ← setAll_perm D hD h hn]

example : SetCommutes plainRW := fun _ _ _ _ _ _ => rfl
example : (exResp.hdrs.map (·.1)).Nodup := by decide

end Verif
