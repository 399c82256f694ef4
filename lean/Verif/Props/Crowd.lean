import Verif.Proofs.Crowd
import Verif.Proofs.Shareable
import Verif.Props.Copies

/-!
# C65: copies can be served at the same time

`C65_serve`, `C65_through`: a goroutine whose client takes everything serves it the whole Body, in every interleaving with goroutines that serve other
Bodies of the same family, and whatever their clients do; it needs a bounded number of turns.  `C65_bytes`, `C65_readerAt`, `C65_seeker`, `C65_stream`:
a Body of this repository and its copies.  `C65_alone`: in-memory Bodies; here the client may do anything, and `Serve` does what it would do alone.
-/

set_option autoImplicit false

namespace Verif
open Spec
variable {S ω : Type} {step : S → Op → S × Out} {drains : Bool}

/-- All goroutines are about to begin. -/
def Spec.Fresh (x : Crowd S ω) : Prop := ∀ p ∈ x.phases, ∃ w, p = .start w

theorem completes_of {Q : Nat → S → List Byte → Prop} {Ok : Op → Prop} {K : Nat} (hF : Shareable step drains Q K Ok) (hK : 32768 ≤ K)
    {jobs : List (Job ω)} {i : Nat} {j : Job ω} (hj : jobs[i]? = some j) (ho : Others jobs K i j.handle) {x : Crowd S ω} (hx : Fresh x)
    {w w₁ w₂ : ω} (hi : x.phases[i]? = some (.start w)) {C : List Byte} (hP : Q j.handle x.fam C) {ok : ω → List Byte → Prop}
    (h1 : (if j.client.isPusher then pushAll j.client (hdrGet j.hdrs headerPush) w else (w, none)) = (w₁, none))
    (h2 : j.client.writeHeader (setAll j.client j.hdrs w₁) j.code = (w₂, .ret ())) (h3 : ok w₂ []) (hD : Takes j.client K ok C)
    (ms : List CMove) (hms : ∀ op, .other op ∈ ms → op.h ≠ j.handle ∧ Ok op) {good : ω → Prop} (hg : ∀ w, ok w C → good w) :
    Completes ((Crowd.run step drains jobs x ms).phases[i]?) (C.length + 5 ≤ turns i ms) good := by
  obtain ⟨p', m', a1, a2, a3⟩ := crowd_going hF hK hj ho hD ms x (.start w) (C.length + 5) hi (.start w w₁ w₂ h1 h2 h3 hP)
    (by
      intro i' p' h' _
      obtain ⟨w', rfl⟩ := hx p' (List.mem_of_getElem? h')
      trivial) hms
  refine ⟨fun he => ?_, fun w' o e => ?_⟩
  · have : m' = 0 := by omega
    subst this
    rw [a1]
    generalize hm : 0 = m at a3
    cases a3 with
    | done w h => exact ⟨w, rfl⟩
    | _ => omega
  · rw [a1] at e
    have e := Option.some.inj e
    subst e
    cases a3 with
    | done _ h => exact ⟨rfl, hg _ h⟩

/-- **C65.** One of several goroutines that serve Bodies of one family, with a client that takes everything. -/
theorem C65_serve {P : Nat → S → List Byte → Prop} {Ok : Op → Prop} {K : Nat} (hF : Shareable step drains P K Ok) (hK : 32768 ≤ K)
    {jobs : List (Job (Logged WEv ω))} {i : Nat} {j : Job (Logged WEv ω)} (hj : jobs[i]? = some j) (ho : Others jobs K i j.handle)
    {x : Crowd S (Logged WEv ω)} (hx : Fresh x) {w : ω} (hi : x.phases[i]? = some (.start ⟨w, []⟩)) {C : List Byte} (hP : P j.handle x.fam C)
    {N : RW ω} (hc : j.client = N.record) (hN : Obliging N C K) (h1 : 100 ≤ j.code) (h2 : j.code ≤ 999) (ms : List CMove)
    (hms : ∀ op, .other op ∈ ms → op.h ≠ j.handle ∧ Ok op) :
    Completes ((Crowd.run step drains jobs x ms).phases[i]?) (C.length + 5 ≤ turns i ms)
      fun w => Conversation w.log (if N.isPusher then hdrGet j.hdrs (lit "Push") else []) j.hdrs j.code C := by
  obtain ⟨w₁, Q, a1, a2, a3, a4⟩ := oblige_head hN j.hdrs ⟨w, []⟩
  have hwh : N.record.writeHeader (setAll N.record j.hdrs w₁) j.code =
      (⟨(N.writeHeader (setAll N.record j.hdrs w₁).inner j.code).1, (setAll N.record j.hdrs w₁).log ++ [.status j.code]⟩, .ret ()) := by
    simp only [RW.record, hN.writeHeader _ _ h1 h2]
  refine completes_of (ok := Took (Q ++ headerEvents j.hdrs ++ [.status j.code])) hF hK hj ho hx hi hP (by rw [hc]; exact a1) (by rw [hc]; exact hwh)
    ⟨[], by simp [a2], by simp, rfl, rfl⟩ (by rw [hc]; exact takes_record hN _) ms hms ?_
  intro w' hw'
  exact conversation_of a3 a4 hw' rfl

/-- **C65**, with the Writer of the Adaptor in between: the same, and the Writer's counts are right; nothing is sent for HEAD requests and status 204. -/
theorem C65_through {P : Nat → S → List Byte → Prop} {Ok : Op → Prop} {K : Nat} (hF : Shareable step drains P K Ok) (hK : 32768 ≤ K)
    {jobs : List (Job (WState (Logged WEv ω)))} {i : Nat} {j : Job (WState (Logged WEv ω))} (hj : jobs[i]? = some j) (ho : Others jobs K i j.handle)
    {x : Crowd S (WState (Logged WEv ω))} (hx : Fresh x) {w : ω} {isHEAD : Bool} (hi : x.phases[i]? = some (.start (Writer.init ⟨w, []⟩ isHEAD)))
    {C : List Byte} (hP : P j.handle x.fam C) {N : RW ω} {raises : Bool} (hc : j.client = Writer.ops N.record raises (Writer.kindFor N.record))
    (hN : Obliging N C K) (h1 : 100 ≤ j.code) (h2 : j.code ≤ 999) (ms : List CMove) (hms : ∀ op, .other op ∈ ms → op.h ≠ j.handle ∧ Ok op) :
    Completes ((Crowd.run step drains jobs x ms).phases[i]?) (C.length + 5 ≤ turns i ms)
      fun s => s.status = j.code ∧ s.bytes = (sentBody isHEAD j.code C).length ∧
        Conversation s.next.log (if N.isPusher then hdrGet j.hdrs (lit "Push") else []) j.hdrs j.code (sentBody isHEAD j.code C) := by
  have hk : Writer.kindFor N.record = .fancy → N.isReaderFrom = true := by
    unfold Writer.kindFor
    split
    · rename_i h; simp only [Bool.and_eq_true] at h; exact fun _ => h.2
    · split <;> simp
  generalize Writer.kindFor N.record = kind at hc hk
  obtain ⟨w₁, Q, a1, a2, a3, a4⟩ := oblige_head hN j.hdrs ⟨w, []⟩
  have a1' : (if (Writer.ops N.record raises kind).isPusher then pushAll (Writer.ops N.record raises kind) (hdrGet j.hdrs headerPush)
      (Writer.init ⟨w, []⟩ isHEAD) else (Writer.init ⟨w, []⟩ isHEAD, none)) = (({ Writer.init (⟨w, []⟩ : Logged WEv ω) isHEAD with next := w₁ } : WState (Logged WEv ω)), none) := by
    have : (Writer.ops N.record raises kind).isPusher = true := rfl
    rw [if_pos this, through_pushAll]
    have e : (Writer.init (⟨w, []⟩ : Logged WEv ω) isHEAD).next = ⟨w, []⟩ := rfl
    simp only [e, a1]
  let w₂ : Logged WEv ω :=
    ⟨(N.writeHeader (setAll N.record j.hdrs w₁).inner j.code).1, (setAll N.record j.hdrs w₁).log ++ [.status j.code]⟩
  let s₂ : WState (Logged WEv ω) := { Writer.init (⟨w, []⟩ : Logged WEv ω) isHEAD with next := w₂, status := j.code }
  have hwh : (Writer.ops N.record raises kind).writeHeader (setAll (Writer.ops N.record raises kind) j.hdrs
      ({ Writer.init (⟨w, []⟩ : Logged WEv ω) isHEAD with next := w₁ } : WState (Logged WEv ω))) j.code = (s₂, .ret ()) := by
    rw [through_setAll]
    show Writer.writeHeader N.record raises _ j.code = _
    simp only [Writer.writeHeader, Writer.writeHeaderImpl]
    rw [if_neg (by omega), if_neg (by omega), if_neg (by simp [Writer.init])]
    simp only [RW.record, hN.writeHeader _ _ h1 h2]
    rfl
  have hlog : w₂.log = Q ++ headerEvents j.hdrs ++ [.status j.code] := by simp [w₂, a2]
  have hs0 : s₂.status ≠ 0 := by show j.code ≠ 0; omega
  by_cases hm : isHEAD = true ∨ j.code = 204
  · refine completes_of (ok := fun s _ => s = s₂) hF hK hj ho hx hi hP (by rw [hc]; exact a1') (by rw [hc]; exact hwh) rfl
      (by rw [hc]; exact takes_mute N.record C K raises kind s₂ ⟨hm, hs0⟩) ms hms ?_
    rintro s rfl
    simp only [sentBody, if_pos hm]
    exact ⟨rfl, rfl, conversation_of a3 a4 (s := w₂) ⟨[], by rw [hlog]; simp, by simp, rfl, rfl⟩ rfl⟩
  · have hp : Passing s₂ := ⟨by show isHEAD = false; cases isHEAD <;> simp at hm ⊢, hs0, fun h => hm (.inr h)⟩
    refine completes_of (ok := WTook (Took (Q ++ headerEvents j.hdrs ++ [.status j.code])) s₂) hF hK hj ho hx hi hP (by rw [hc]; exact a1')
      (by rw [hc]; exact hwh) ⟨rfl, ⟨[], by simp [s₂, hlog], by simp, rfl, rfl⟩⟩ (by rw [hc]; exact takes_writer (takes_record hN _) raises kind hk s₂ hp)
      ms hms ?_
    rintro s ⟨b2, b3⟩
    simp only [sentBody, if_neg hm]
    refine ⟨?_, ?_, conversation_of a3 a4 b3 rfl⟩
    · rw [b2]
    · rw [b2]

/-! ## A Body and its copies -/

theorem copies_good {P : Nat → S → List Byte → Prop} {Ok : Op → Prop} {K : Nat} (hF : Shareable step drains P K Ok) (h : Nat) {C : List Byte} (n : Nat) :
    ∀ s, P h s C → (copies step h n s).2.length = n ∧ (copies step h n s).2.Nodup ∧ (∀ h' ∈ (copies step h n s).2, P h' (copies step h n s).1 C) ∧
      ∀ i C', P i s C' → P i (copies step h n s).1 C' ∧ i ∉ (copies step h n s).2 := by
  induction n with
  | zero => intro s _; exact ⟨rfl, List.nodup_nil, by simp [copies], fun i C' h => ⟨h, by simp [copies]⟩⟩
  | succ n ih =>
    intro s hP
    obtain ⟨s', h', e, g1, g2⟩ := hF.copy h s C hP
    obtain ⟨i1, i2, i3, i4⟩ := ih s' (g2 h C hP).1
    have ec : copies step h (n + 1) s = ((copies step h n s').1, h' :: (copies step h n s').2) := by simp only [copies, e]
    rw [ec]
    refine ⟨by simp [i1], List.nodup_cons.2 ⟨(i4 h' C g1).2, i2⟩, ?_, ?_⟩
    · intro k hk
      rcases List.mem_cons.1 hk with rfl | hk
      · exact (i4 k C g1).1
      · exact i3 k hk
    · intro i C' hi
      obtain ⟨k1, k2⟩ := g2 i C' hi
      obtain ⟨k3, k4⟩ := i4 i C' k1
      exact ⟨k3, by simp only [List.mem_cons, not_or]; exact ⟨k2, k4⟩⟩

/-- **C65.** A Body that can be shared, and its copies. -/
theorem C65_copies {P : Nat → S → List Byte → Prop} {Ok : Op → Prop} {K : Nat} (hF : Shareable step drains P K Ok) (hK : 32768 ≤ K) {h : Nat} {s : S}
    {C : List Byte} (hs : P h s C) : AllServed step drains Ok h s C K := by
  intro n ω jobs ws hh hl hmod ms hms i j N hj hc hN h1 h2
  obtain ⟨c1, c2, c3, c4⟩ := copies_good hF h n s hs
  have hnd : (jobs.map (·.handle)).Nodup := by
    rw [hh]; exact List.nodup_cons.2 ⟨(c4 h C hs).2, c2⟩
  have hall : ∀ k ∈ jobs.map (·.handle), P k (copies step h n s).1 C := by
    intro k hk
    rw [hh] at hk
    rcases List.mem_cons.1 hk with rfl | hk
    · exact (c4 k C hs).1
    · exact c3 k hk
  have hjl : i < jobs.length := (List.getElem?_eq_some_iff.1 hj).1
  have hmem : j.handle ∈ jobs.map (·.handle) := List.mem_map_of_mem (List.mem_of_getElem? hj)
  have hji : (jobs.map (·.handle))[i]? = some j.handle := by rw [List.getElem?_map, hj]; rfl
  refine C65_serve hF hK hj ?_ (x := { fam := (copies step h n s).1, phases := ws.map fun w => .start ⟨w, []⟩ }) ?_ (w := ws[i]'(by omega)) ?_
    (hall _ hmem) hc hN h1 h2 ms ?_
  · intro i' j' hj' hne
    refine ⟨?_, hmod j' (List.mem_of_getElem? hj')⟩
    intro heq
    have hji' : (jobs.map (·.handle))[i']? = some j.handle := by rw [List.getElem?_map, hj', ← heq]; rfl
    have l1 : i < (jobs.map (·.handle)).length := (List.getElem?_eq_some_iff.1 hji).1
    exact hne ((List.getElem?_inj l1 hnd).1 (by rw [hji, hji'])).symm
  · intro p hp
    obtain ⟨w, -, rfl⟩ := List.mem_map.1 hp
    exact ⟨_, rfl⟩
  · show (ws.map _)[i]? = _
    rw [List.getElem?_map, List.getElem?_eq_getElem (by omega)]
    rfl
  · intro op hop
    obtain ⟨o1, o2⟩ := hms op hop
    exact ⟨fun e => o2 (e ▸ hmem), o1⟩

/-- **C65**, for the Bodies made by `FromBytes`. -/
theorem C65_bytes {data : List Byte} (hlen : data.length < 2 ^ 63) (hne : data ≠ []) {K : Nat} (hK : 32768 ≤ K) (hK' : K < 2 ^ 62) {s : MemFam}
    {h : Nat} {C : List Byte} (hs : SrcRel (MemRel data) h s C) : AllServed MemFam.step true Op.Valid h s C K :=
  C65_copies (mem_shareable data hlen hne K hK') hK hs

variable {σ : Type}

/-- **C65**, for the Bodies over a well-behaved `io.ReaderAt`. -/
theorem C65_readerAt {R : Rdr σ} {F : List Byte} {Inv : σ → Prop} (hR : IsReaderAt R F Inv) (hq : CloseNil R) (n : Nat)
    (hn : n ≤ F.length) (hn63 : n < 2 ^ 63) {K : Nat} (hK : 32768 ≤ K) (hK' : K < 2 ^ 62) {s : PosSys σ} {h : Nat} {C : List Byte}
    (hs : SrcRel (PSim (F.take n) Inv) h s C) : AllServed (ReaderAtBody.step R) false Op.Valid h s C K :=
  C65_copies (readerAt_shareable hR hq n hn hn63 K hK') hK hs

/-- **C65**, for the Bodies over a well-behaved `io.ReadSeeker` that fills the buffer: its one position is shared, and the copies do not notice. -/
theorem C65_seeker {R : Rdr σ} {F : List Byte} {At : σ → Nat → Prop} (hR : IsFullSeeker R F At) (hq : CloseNil R) (n : Nat)
    (hn : n ≤ F.length) (hn63 : n < 2 ^ 63) {K : Nat} (hK : 32768 ≤ K) (hK' : K < 2 ^ 62) {s : PosSys σ} {h : Nat} {C : List Byte}
    (hs : SrcRel (PSim (F.take n) fun st => ∃ p, At st p) h s C) : AllServed (SeekerBody.step R) false Op.Valid h s C K :=
  C65_copies (seeker_shareable hR hq n hn hn63 K hK') hK hs

/-- **C65**, for the Bodies over a stream: the stream can be read only once, but every copy delivers all of it, whichever reads first. -/
theorem C65_stream {R : Rdr σ} (hq : CloseNil R) {Inv : σ → List Byte → Prop} (hS : IsStream R .eof Inv) {b : Nat} {idle : σ → Nat}
    (hE : Eager R b idle) (T : List Byte) (L : Int) {K : Nat} (hK : 32768 ≤ K) (hK' : K < 2 ^ 62) (loops : Nat)
    (hl : (K + 65536) * (b + 1) + b < loops) {s : BufSys (Rec σ)} {h : Nat} {C : List Byte} (hs : SrcRel (StreamRel R .eof Inv T L) h s C) :
    AllServed (streamStep R loops) false (ReadsUpTo K) h s C K :=
  C65_copies (stream_shareable hq hS hE T L K hK' loops hl) hK hs

/-! ## In-memory Bodies: any client -/

/-- **C65.** A goroutine that serves an in-memory Body to any client, which may fail or panic: among others it does exactly what it does alone. -/
theorem C65_alone {jobs : List (Job ω)} {i : Nat} {j : Job ω} (hj : jobs[i]? = some j)
    (ho : ∀ (i' : Nat) j', jobs[i']? = some j' → i' ≠ i → j'.handle ≠ j.handle) {x : Crowd MemFam ω} {w : ω} (hx : x.phases[i]? = some (.start w))
    (he : (x.fam.step (.remaining j.handle)).2 ≠ .unsupported) {fuel : Nat} {err : Option Err} {b' : MemFam} {w' : ω} {o : Res (Option Err)}
    (hs : serve j.client (BodyOps.ofFam MemFam.step true j.handle) fuel { code := j.code, hdrs := j.hdrs, body := x.fam, err } w = (b', w', o))
    (hh : o ≠ .hang) :
    ∃ k, ∀ ms : List CMove, (∀ op, .other op ∈ ms → op.h ≠ j.handle) →
      (k ≤ turns i ms → ∃ p, (Crowd.run MemFam.step true jobs x ms).phases[i]? = some p ∧ p = .done w' o) ∧
      ∀ w₂ o₂, (Crowd.run MemFam.step true jobs x ms).phases[i]? = some (.done w₂ o₂) → w₂ = w' ∧ o₂ = o := by
  have hex : ExistsAt j.handle x.fam := by
    cases hf : x.fam with
    | empty s =>
      intro h0
      rw [hf] at he
      exact he (by simp [MemFam.step, EmptyBody.step, Op.h, h0])
    | bytes s =>
      intro h0
      rw [hf] at he
      exact he (by simp [MemFam.step, BytesBody.step, Op.h, h0])
  obtain ⟨k, hk⟩ := serve_leads fuel { code := j.code, hdrs := j.hdrs, body := x.fam, err } w b' w' o hs hh
  dsimp only at hk
  refine ⟨k, fun ms hms => ?_⟩
  have hrun := mem_alone hj ho ms x (.start w) x.fam hx (sameAt_refl _ _) hex hms
  refine ⟨fun hle => ?_, fun w₂ o₂ h2 => ?_⟩
  · obtain ⟨l, hl⟩ := Nat.exists_eq_add_of_le hle
    refine ⟨_, hrun, ?_⟩
    rw [hl, serveSteps_add, hk, serveSteps_done]
  · rw [hrun] at h2
    have h2 := Option.some.inj h2
    have hbig : (serveSteps j.client (BodyOps.ofFam MemFam.step true j.handle) j.code j.hdrs (turns i ms + k) (.start w, x.fam)).1 = .done w₂ o₂ := by
      rw [serveSteps_add]
      generalize serveSteps j.client (BodyOps.ofFam MemFam.step true j.handle) j.code j.hdrs (turns i ms) (.start w, x.fam) = y at h2 ⊢
      obtain ⟨y1, y2⟩ := y
      dsimp only at h2
      subst h2
      rw [serveSteps_done]
    rw [Nat.add_comm, serveSteps_add, hk, serveSteps_done] at hbig
    simp only [SPhase.done.injEq] at hbig
    exact ⟨hbig.1.symm, hbig.2.symm⟩

/-! ## Examples -/

/-- How a goroutine ended: what its client was handed, and the outcome. -/
def ending : Option (SPhase (Logged WEv ω)) → Option (List Byte × Res (Option Err))
  | some (.done w o) => some (handed w.log, o)
  | _ => none

/-- Two goroutines serve a Body and its copy.  The client of the second panics after two bytes. -/
def exJobs : List (Job (Logged WEv Nat)) :=
  [{ client := { crashRW with isReaderFrom := false, write := fun w d => (w, .ret (d.length, none)) }.record, handle := 0, code := 200, hdrs := [] },
   { client := crashRW.record, handle := 1, code := 404, hdrs := [] }]

-- The hypotheses can be met.
example : ∀ j ∈ exJobs, Modest j.client 32768 := by
  intro j hj w
  simp only [exJobs, List.mem_cons, List.not_mem_nil, or_false] at hj
  rcases hj with rfl | rfl <;> exact ⟨by omega, fun _ _ => trivial⟩

example : Obliging { crashRW with isReaderFrom := false, write := fun w d => (w, .ret (d.length, none)) } [1, 2, 3] 32768 where
  writeHeader _ _ _ _ := rfl
  write _ _ := rfl
  push h := by cases h
  readFrom h := by cases h

-- A file: the two goroutines take turns, and a third Body of the family is made and closed.
example :
    let R := fileRdr [1, 2, 3, 4, 5, 6, 7]
    let s := ReaderAtBody.init (σ := Nat) 0 6
    let x := Crowd.run (ReaderAtBody.step R) false exJobs
      { fam := (copies (ReaderAtBody.step R) 0 1 s).1, phases := [.start ⟨0, []⟩, .start ⟨0, []⟩] }
      [.serve 1, .serve 0, .serve 1, .other (.copy 0), .serve 0, .serve 1, .other (.close 2), .serve 0, .serve 1, .serve 0, .serve 0]
    (copies (ReaderAtBody.step R) 0 1 s).2 = [1] ∧
    ending x.phases[0]? = some ([1, 2, 3, 4, 5, 6], .ret none) ∧ ending x.phases[1]? = some ([1, 2], .panic (.value 3)) := by
  decide +kernel

-- Bytes in memory; the goroutine with the client that panics ends as it does alone.
example :
    let x := Crowd.run MemFam.step true exJobs { fam := (copies MemFam.step 0 1 (fromBytes [1, 2, 3])).1, phases := [.start ⟨0, []⟩, .start ⟨0, []⟩] }
      [.serve 1, .serve 0, .serve 0, .serve 1, .serve 0]
    let y := serve crashRW.record (BodyOps.ofFam MemFam.step true 1) 9
      { code := 404, hdrs := [], body := (copies MemFam.step 0 1 (fromBytes [1, 2, 3])).1 } ⟨0, []⟩
    ending x.phases[0]? = some ([1, 2, 3], .ret none) ∧ ending x.phases[1]? = some (handed y.2.1.log, y.2.2) ∧ y.2.2 = .panic (.value 3) := by
  decide +kernel

end Verif
