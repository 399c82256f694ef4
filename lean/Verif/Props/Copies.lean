import Verif.Proofs.Untouched
import Verif.Props.EndToEnd

/-!
# C56: copies are served independently

Whatever happens when a Body is served (the client may fail, panic or stop reading), its copies are not affected: they can be served afterwards, and
deliver what the Body would have delivered.
-/

set_option autoImplicit false

namespace Verif
open Spec
variable {β γ σ : Type}

/-- First `B` is served, to any client (`Serve` returns an error, or nil, or panics); then `B'` is served to a client that takes everything,
and that client gets `C`. -/
def Spec.ServedAfter (B B' : BodyOps β) (s : β) (C : List Byte) (K : Nat) : Prop :=
  ∀ (ω' : Type) (D : RW ω'), (D.isReaderFrom = true → ∀ w, SmallReads (D.readFrom w)) →
  ∀ (fuel' : Nat) (code' : Int) (hdrs' : List (GoStr × List GoStr)) (err' : Option Err) (w' : ω') (s' : β),
    (serve D B fuel' { code := code', hdrs := hdrs', body := s, err := err' } w').1 = s' →
    (serve D B fuel' { code := code', hdrs := hdrs', body := s, err := err' } w').2.2 ≠ .hang →
  ∀ (ω : Type) (N : RW ω), Obliging N C K →
  ∀ (raises isHEAD : Bool) (fuel : Nat), C.length < fuel →
  ∀ (assertErr : Bool) (onPanic : PanicArg → Res Unit) (code : Int), 100 ≤ code → code ≤ 999 →
  ∀ (hdrs : List (GoStr × List GoStr)) (err : Option Err) (w : ω),
    Answered (request N raises isHEAD B' fuel assertErr onPanic (.resp { code, hdrs, body := s', err }) w)
      (if N.isPusher then hdrGet hdrs (lit "Push") else []) hdrs code (sentBody isHEAD code C)

theorem servedAfter {B B' : BodyOps β} {P : β → List Byte → Prop} {K : Nat} (hK : 32768 ≤ K) (hB : Lively B' P K) {C : List Byte}
    (hk : Keeps B fun s => P s C) {s : β} (hs : P s C) : ServedAfter B B' s C K := by
  intro ω' D hD fuel' code' hdrs' err' w' s' e hn ω N hN raises isHEAD fuel hf assertErr onPanic code h1 h2 hdrs err w
  subst e
  have := (keeps_serve hD hk fuel' { code := code', hdrs := hdrs', body := s, err := err' } w' hs).resolve_left hn
  exact C55_request hN hK hB raises isHEAD fuel hf assertErr onPanic { code, hdrs, body := _, err } this h1 h2 w

/-- The copy is as good as the original, and neither is affected when the other is served. -/
structure Spec.Independent {S : Type} (step : S → Op → S × Out) (drains : Bool) (h : Nat) (s : S) (C : List Byte) (K : Nat) : Prop where
  ex : ∃ s' h', step s (.copy h) = (s', .copied h') ∧
    ServedAfter (BodyOps.ofFam step drains h) (BodyOps.ofFam step drains h') s' C K ∧
    ServedAfter (BodyOps.ofFam step drains h') (BodyOps.ofFam step drains h) s' C K

/-- **C56**, for the Bodies made by `FromBytes`. -/
theorem C56_bytes {data : List Byte} (hlen : data.length < 2 ^ 63) (hne : data ≠ []) {K : Nat} (hK : 32768 ≤ K) (hK' : K < 2 ^ 62) {s : MemFam}
    {h : Nat} {C : List Byte} (hs : SrcRel (MemRel data) h s C) : Independent MemFam.step true h s C K := by
  have hok : ∀ op : Op, op.Valid → op.Valid ∧ (data = [] → op.EmptyOk) := fun op hv => ⟨hv, fun h => absurd h hne⟩
  have keeps : ∀ h h', h ≠ h' → Keeps (BodyOps.ofFam MemFam.step true h) (fun s => SrcRel (MemRel data) h' s C) := fun h h' hn =>
    keeps_of_sim (cfg := memCfg data) (Allowed := (· = {})) (MemRel data) (mem_step_sim' hlen) h (fun k _ => hok _ trivial) (hok _ trivial)
      (fun _ w => hok _ trivial) (fun s w => goOut_ne_hang s _) hn C
  obtain ⟨s', h', e, hn, c1, c2⟩ := copy_of_sim (cfg := memCfg data) (Allowed := (· = {})) (MemRel data) (mem_step_sim' hlen) h (hok _ trivial) s
    (goOut_ne_hang s _) hs
  exact ⟨s', h', e, servedAfter hK (mem_lively data hlen hne h' K hK') (keeps h h' hn) c2,
    servedAfter hK (mem_lively data hlen hne h K hK') (keeps h' h (Ne.symm hn)) c1⟩

/-- **C56**, for the Bodies over a well-behaved `io.ReaderAt`. -/
theorem C56_readerAt {R : Rdr σ} {F : List Byte} {Inv : σ → Prop} (hR : IsReaderAt R F Inv) (hq : CloseNil R) (n : Nat)
    (hn : n ≤ F.length) (hn63 : n < 2 ^ 63) {K : Nat} (hK : 32768 ≤ K) (hK' : K < 2 ^ 62) {s : PosSys σ} {h : Nat} {C : List Byte}
    (hs : SrcRel (PSim (F.take n) Inv) h s C) : Independent (ReaderAtBody.step R) false h s C K := by
  haveI := hR.closeOk
  have hN : ∀ s op, (Pos.step (atKind R) s op).2 ≠ .hang := fun s op => by rw [← at_step]; exact at_noHang R s op
  have live := fun h => readerAt_lively hR hq n hn hn63 h K hK'
  rw [at_step] at live ⊢
  have keeps : ∀ h h', h ≠ h' → Keeps (BodyOps.ofFam (Pos.step (atKind R)) false h) (fun s => SrcRel (PSim (F.take n) Inv) h' s C) := fun h h' hne =>
    keeps_of_sim (cfg := posCfg n) (Allowed := PosAllowed) (PSim (F.take n) Inv) (psim_step' (goodGet_at hR) hn hn63) h (fun k _ => trivial) trivial
      (fun _ w => trivial) (fun s w => hN s _) hne C
  obtain ⟨s', h', e, hne, c1, c2⟩ := copy_of_sim (cfg := posCfg n) (Allowed := PosAllowed) (PSim (F.take n) Inv)
    (psim_step' (goodGet_at hR) hn hn63) h trivial s (hN _ _) hs
  exact ⟨s', h', e, servedAfter hK (live h') (keeps h h' hne) c2, servedAfter hK (live h) (keeps h' h (Ne.symm hne)) c1⟩

/-- **C56**, for the Bodies over a well-behaved `io.ReadSeeker` that fills the buffer. -/
theorem C56_seeker {R : Rdr σ} {F : List Byte} {At : σ → Nat → Prop} (hR : IsFullSeeker R F At) (hq : CloseNil R) (n : Nat)
    (hn : n ≤ F.length) (hn63 : n < 2 ^ 63) {K : Nat} (hK : 32768 ≤ K) (hK' : K < 2 ^ 62) {s : PosSys σ} {h : Nat} {C : List Byte}
    (hs : SrcRel (PSim (F.take n) fun st => ∃ p, At st p) h s C) : Independent (SeekerBody.step R) false h s C K := by
  haveI := hR.closeOk
  have hN : ∀ s op, (Pos.step (seekKind R) s op).2 ≠ .hang := fun s op => by rw [← seek_step]; exact seek_noHang R s op
  have live := fun h => seeker_lively hR hq n hn hn63 h K hK'
  rw [seek_step] at live ⊢
  have keeps : ∀ h h', h ≠ h' →
      Keeps (BodyOps.ofFam (Pos.step (seekKind R)) false h) (fun s => SrcRel (PSim (F.take n) fun st => ∃ p, At st p) h' s C) := fun h h' hne =>
    keeps_of_sim (cfg := posCfg n) (Allowed := PosAllowed) (PSim (F.take n) fun st => ∃ p, At st p) (psim_step' (goodGet_seek hR) hn hn63) h
      (fun k _ => trivial) trivial (fun _ w => trivial) (fun s w => hN s _) hne C
  obtain ⟨s', h', e, hne, c1, c2⟩ := copy_of_sim (cfg := posCfg n) (Allowed := PosAllowed) (PSim (F.take n) fun st => ∃ p, At st p)
    (psim_step' (goodGet_seek hR) hn hn63) h trivial s (hN _ _) hs
  exact ⟨s', h', e, servedAfter hK (live h') (keeps h h' hne) c2, servedAfter hK (live h) (keeps h' h (Ne.symm hne)) c1⟩

/-- **C56**, for the Bodies over a stream: each copy delivers what comes from the stream, though the stream can be read only once. -/
theorem C56_stream {R : Rdr σ} (hq : CloseNil R) {Inv : σ → List Byte → Prop} (hS : IsStream R .eof Inv) {b : Nat} {idle : σ → Nat}
    (hE : Eager R b idle) (T : List Byte) (L : Int) {K : Nat} (hK : 32768 ≤ K) (hK' : K < 2 ^ 62) (loops : Nat)
    (hl : (K + 65536) * (b + 1) + b < loops) {s : BufSys (Rec σ)} {h : Nat} {C : List Byte} (hs : SrcRel (StreamRel R .eof Inv T L) h s C) :
    Independent (streamStep R loops) false h s C K := by
  haveI : R.CloseOk := ⟨fun hc st => ⟨none, hq hc st⟩⟩
  have hst := streamRel_step hS T L (.inl rfl) loops
  have live := fun h => stream_lively hq hS hE T L K hK' loops hl h
  have keeps : ∀ h h', h ≠ h' → Keeps (BodyOps.ofFam (streamStep R loops) false h) (fun s => SrcRel (StreamRel R .eof Inv T L) h' s C) := fun h h' hne =>
    keeps_of_sim (cfg := streamCfg L (if 0 ≤ L ∧ L < T.length then .eof else .eof)) (Allowed := fun _ => True) (Ok := Op.Small)
      (StreamRel R .eof Inv T L) hst h (fun k hk => hk) trivial (fun _ w => trivial) (fun s w => by
        unfold streamStep BufSys.step
        split
        · simp
        · simp) hne C
  have hnh : (streamStep R loops s (.copy h)).2 ≠ .hang := by
    obtain ⟨f, c, hr, -⟩ := hs
    obtain ⟨ext, S⟩ := buf_step R loops L s hr.winv (.copy h) trivial
    intro hh
    obtain ⟨_, _, h'⟩ := S.hang hh
    cases h'
  obtain ⟨s', h', e, hne, c1, c2⟩ := copy_of_sim (cfg := streamCfg L (if 0 ≤ L ∧ L < T.length then .eof else .eof)) (Allowed := fun _ => True)
    (Ok := Op.Small) (StreamRel R .eof Inv T L) hst h trivial s hnh hs
  exact ⟨s', h', e, servedAfter hK (live h') (keeps h h' hne) c2, servedAfter hK (live h) (keeps h' h (Ne.symm hne)) c1⟩

/-! ## Copies of Responses and Builders -/

theorem wtAll_map {I : γ → Prop} {J : β → Prop} {f : β → γ} (h : ∀ b, J b → I (f b)) {t : WT β} (ht : WTAll J t) : WTAll I (t.map f) := by
  induction t with
  | done b n err => exact h _ ht
  | write b d cont ih => exact ⟨h _ ht.1, fun n e => ih _ _ (ht.2 n e)⟩
  | panic b p => exact h _ ht
  | hang b => trivial

theorem keeps_focus {B : BodyOps β} {J : β → Prop} (h : Keeps B J) {get : γ → β} {put : γ → β → γ} {Ok : γ → Prop}
    (hok : ∀ X b, Ok X → get (put X b) = b ∧ Ok (put X b)) : Keeps (B.focus get put) (fun X => Ok X ∧ J (get X)) where
  read X k hk hX := by
    rcases h.read (get X) k hk hX.2 with h' | h'
    · exact .inl h'
    · exact .inr ⟨(hok _ _ hX.1).2, by show J (get (put X _)); rw [(hok _ _ hX.1).1]; exact h'⟩
  close X hX := by
    rcases h.close (get X) hX.2 with h' | h'
    · exact .inl h'
    · exact .inr ⟨(hok _ _ hX.1).2, by show J (get (put X _)); rw [(hok _ _ hX.1).1]; exact h'⟩
  writeTo hw X hX := wtAll_map (fun b hb => ⟨(hok _ _ hX.1).2, by show J (get (put X _)); rw [(hok _ _ hX.1).1]; exact hb⟩) (h.writeTo hw (get X) hX.2)

theorem world_keeps {data : List Byte} (hlen : data.length < 2 ^ 63) (hne : data ≠ []) (f : Nat) {h h' : Nat} (hn : h ≠ h') (C : List Byte) :
    Keeps (World.ops f h) (fun X => World.Has data f h' X C) :=
  keeps_focus (keeps_of_sim (cfg := memCfg data) (Allowed := (· = {})) (MemRel data) (mem_step_sim' hlen) h (fun k _ => ⟨trivial, fun h => absurd h hne⟩)
    ⟨trivial, fun h => absurd h hne⟩ (fun _ w => ⟨trivial, fun h => absurd h hne⟩) (fun s w => goOut_ne_hang s _) hn C)
    (get := fun X : World => X.fam f) (put := fun X m => X.setFam f m) (Ok := fun X => f < X.fams.length) fun _ m hX => World.fam_setFam hX m

/-- Copying a Body of the store. -/
theorem world_copy {data : List Byte} (hlen : data.length < 2 ^ 63) (hne : data ≠ []) {X : World} {i f h : Nat} (hi : X.bodies[i]? = some (f, h))
    {C : List Byte} (hX : World.Has data f h X C) :
    ∃ Y h', World.store.copy X i = (Y, .ret (.ok X.bodies.length)) ∧ Y.bodies[i]? = some (f, h) ∧ Y.bodies[X.bodies.length]? = some (f, h') ∧ h ≠ h' ∧
      World.Has data f h Y C ∧ World.Has data f h' Y C := by
  obtain ⟨m, h', e, hn, c1, c2⟩ := copy_of_sim (cfg := memCfg data) (Allowed := (· = {})) (Ok := fun op => op.Valid ∧ (data = [] → op.EmptyOk))
    (MemRel data) (mem_step_sim' hlen) h ⟨trivial, fun h => absurd h hne⟩ (X.fam f) (goOut_ne_hang _ _) hX.2
  have hlt : i < X.bodies.length := (List.getElem?_eq_some_iff.1 hi).1
  obtain ⟨g1, g2⟩ := World.fam_setFam hX.1 m
  refine ⟨{ X.setFam f m with bodies := X.bodies ++ [(f, h')] }, h', ?_, ?_, by simp, hn, ⟨g2, ?_⟩, ⟨g2, ?_⟩⟩
  · simp only [World.store, hi, e]
  · rw [List.getElem?_append_left hlt]; exact hi
  · show SrcRel _ _ ((X.setFam f m).fam f) _
    rw [g1]; exact c1
  · show SrcRel _ _ ((X.setFam f m).fam f) _
    rw [g1]; exact c2

/-- **C56**, for `Response.Copy`: the copy has the same status, headers and error, and neither of the two is affected when the other is served. -/
theorem C56_response {E : BEnv World} (hst : E.store = World.store) {data : List Byte} (hlen : data.length < 2 ^ 63) (hne : data ≠ []) {K : Nat}
    (hK : 32768 ≤ K) (hK' : K < 2 ^ 62) {s : BState World} {j : Nat} {r : Rsp} (hr : s.rsps[j]? = some r) {i f h : Nat} (hb : r.body = some i)
    (hi : s.bodies.bodies[i]? = some (f, h)) {C : List Byte} (hC : World.Has data f h s.bodies C) :
    ∃ s' r' i' h', s.step E (.respCopy j) = (s', .made s.rsps.length) ∧ s'.rsps[j]? = some r ∧ s'.rsps[s.rsps.length]? = some r' ∧
      r' = { r with body := some i' } ∧ s'.heap = s.heap ∧ s'.bodies.bodies[i]? = some (f, h) ∧ s'.bodies.bodies[i']? = some (f, h') ∧
      ServedAfter (World.ops f h) (World.ops f h') s'.bodies C K ∧ ServedAfter (World.ops f h') (World.ops f h) s'.bodies C K := by
  obtain ⟨Y, h', e, y1, y2, hn, c1, c2⟩ := world_copy hlen hne hi hC
  have hlt : j < s.rsps.length := (List.getElem?_eq_some_iff.1 hr).1
  refine ⟨{ s with bodies := Y, rsps := s.rsps ++ [{ r with body := some s.bodies.bodies.length }] }, _, s.bodies.bodies.length, h', ?_, ?_, ?_, rfl, rfl,
    y1, y2, ?_, ?_⟩
  · simp only [BState.step, hr, copyBody, hb, hst, e]
  · rw [List.getElem?_append_left hlt]; exact hr
  · simp
  · exact servedAfter hK (world_lively data hlen hne f h' K hK') (world_keeps hlen hne f hn C) c2
  · exact servedAfter hK (world_lively data hlen hne f h K hK') (world_keeps hlen hne f (Ne.symm hn) C) c1

/-- **C56**, for `Builder.Copy`: the Body of the copy is independent of that of the Builder in the same way. -/
theorem C56_builder {E : BEnv World} (hst : E.store = World.store) {data : List Byte} (hlen : data.length < 2 ^ 63) (hne : data ≠ []) {K : Nat}
    (hK : 32768 ≤ K) (hK' : K < 2 ^ 62) {s : BState World} {j : Nat} {b : Bld} (hr : s.blds[j]? = some b) {i f h : Nat} (hb : b.body = some i)
    (hi : s.bodies.bodies[i]? = some (f, h)) {C : List Byte} (hC : World.Has data f h s.bodies C) :
    ∃ s' b' i' h', s.step E (.copy j) = (s', .made s.blds.length) ∧ s'.blds[j]? = some b ∧ s'.blds[s.blds.length]? = some b' ∧
      b'.code = b.code ∧ b'.err = b.err ∧ b'.gen = b.gen ∧ b'.body = some i' ∧ s'.bodies.bodies[i]? = some (f, h) ∧ s'.bodies.bodies[i']? = some (f, h') ∧
      ServedAfter (World.ops f h) (World.ops f h') s'.bodies C K ∧ ServedAfter (World.ops f h') (World.ops f h) s'.bodies C K := by
  obtain ⟨Y, h', e, y1, y2, hn, c1, c2⟩ := world_copy hlen hne hi hC
  have hlt : j < s.blds.length := (List.getElem?_eq_some_iff.1 hr).1
  refine ⟨{ s with heap := (s.heap.copyHeaders b.hdrs).1, bodies := Y, blds :=
         s.blds ++ [{ b with hdrs := (s.heap.copyHeaders b.hdrs).2, body := some s.bodies.bodies.length }] },
    { b with hdrs := (s.heap.copyHeaders b.hdrs).2, body := some s.bodies.bodies.length }, s.bodies.bodies.length, h',
    by simp only [BState.step, hr, copyBody, hb, hst, e], ?_, by simp, rfl, rfl, rfl, rfl, y1, y2, ?_, ?_⟩
  · dsimp only
    rw [List.getElem?_append_left hlt]; exact hr
  · exact servedAfter hK (world_lively data hlen hne f h' K hK') (world_keeps hlen hne f hn C) c2
  · exact servedAfter hK (world_lively data hlen hne f h K hK') (world_keeps hlen hne f (Ne.symm hn) C) c1

/-- A Body to which `Close` answers that it is closed is copied as the Body that is closed from the start. -/
theorem memFam_copy_closed (m : MemFam) (h : Nat) (hc : (m.step (.close h)).2 = .closed (some .closed)) : m.step (.copy h) = (m, .copiedClosed) := by
  cases m with
  | empty s =>
    simp only [MemFam.step, EmptyBody.step, Op.h] at hc ⊢
    cases hb : s[h]? with
    | none => simp [hb] at hc
    | some b =>
      cases hcl : b.closed with
      | false => simp [hb, EmptyBody.close, hcl] at hc
      | true => simp [hcl]
  | bytes s =>
    simp only [MemFam.step, BytesBody.step, Op.h] at hc ⊢
    cases hb : s[h]? with
    | none => simp [hb] at hc
    | some b =>
      cases hcl : b.closed with
      | false => simp [hb, BytesBody.close, hcl] at hc
      | true => simp [hcl]

theorem world_copy_closed {X : World} {i f h : Nat} (hi : X.bodies[i]? = some (f, h)) (hf : f < X.fams.length)
    (hcl : ((X.fam f).step (.close h)).2 = .closed (some .closed)) :
    ∃ Y f', World.store.copy X i = (Y, .ret (.ok X.bodies.length)) ∧ Y.bodies[i]? = some (f, h) ∧ Y.fam f = X.fam f ∧
      Y.bodies[X.bodies.length]? = some (f', 0) ∧ f' ≠ f ∧ Y.fam f' = closedFam := by
  have e := memFam_copy_closed _ _ hcl
  have hlt : i < X.bodies.length := (List.getElem?_eq_some_iff.1 hi).1
  obtain ⟨g1, g2⟩ := World.fam_setFam hf (X.fam f)
  refine ⟨{ fams := (X.setFam f (X.fam f)).fams ++ [closedFam], bodies := X.bodies ++ [(X.fams.length, 0)] }, X.fams.length,
    by simp only [World.store, hi, e], ?_, ?_, by simp, by omega, by simp [World.fam, World.setFam]⟩
  · rw [List.getElem?_append_left hlt]; exact hi
  · refine Eq.trans ?_ g1
    show Option.getD _ _ = Option.getD _ _
    rw [List.getElem?_append_left g2]

/-- **C56**, for `Response.Copy` of a Response whose Body is closed: the copy has the Body that is closed from the start, and the original is as it
was. -/
theorem C56_response_closed {E : BEnv World} (hst : E.store = World.store) {s : BState World} {j : Nat} {r : Rsp}
    (hr : s.rsps[j]? = some r) {i f h : Nat} (hb : r.body = some i) (hi : s.bodies.bodies[i]? = some (f, h)) (hf : f < s.bodies.fams.length)
    (hcl : ((s.bodies.fam f).step (.close h)).2 = .closed (some .closed)) :
    ∃ s' i' f', s.step E (.respCopy j) = (s', .made s.rsps.length) ∧ s'.rsps[j]? = some r ∧ s'.rsps[s.rsps.length]? = some { r with body := some i' } ∧
      s'.heap = s.heap ∧ s'.bodies.bodies[i]? = some (f, h) ∧ s'.bodies.fam f = s.bodies.fam f ∧
      s'.bodies.bodies[i']? = some (f', 0) ∧ f' ≠ f ∧ s'.bodies.fam f' = closedFam := by
  obtain ⟨Y, f', e, y1, y2, y3, y4, y5⟩ := world_copy_closed hi hf hcl
  have hlt : j < s.rsps.length := (List.getElem?_eq_some_iff.1 hr).1
  refine ⟨{ s with bodies := Y, rsps := s.rsps ++ [{ r with body := some s.bodies.bodies.length }] }, s.bodies.bodies.length, f', ?_, ?_, by simp, rfl,
    y1, y2, y3, y4, y5⟩
  · simp only [BState.step, hr, copyBody, hb, hst, e]
  · rw [List.getElem?_append_left hlt]; exact hr

/-- **C56**, for `Builder.Copy` of a Builder whose Body is closed. -/
theorem C56_builder_closed {E : BEnv World} (hst : E.store = World.store) {s : BState World} {j : Nat} {b : Bld}
    (hr : s.blds[j]? = some b) {i f h : Nat} (hb : b.body = some i) (hi : s.bodies.bodies[i]? = some (f, h)) (hf : f < s.bodies.fams.length)
    (hcl : ((s.bodies.fam f).step (.close h)).2 = .closed (some .closed)) :
    ∃ s' b' i' f', s.step E (.copy j) = (s', .made s.blds.length) ∧ s'.blds[j]? = some b ∧ s'.blds[s.blds.length]? = some b' ∧
      b'.code = b.code ∧ b'.err = b.err ∧ b'.gen = b.gen ∧ b'.body = some i' ∧ s'.bodies.bodies[i]? = some (f, h) ∧ s'.bodies.fam f = s.bodies.fam f ∧
      s'.bodies.bodies[i']? = some (f', 0) ∧ f' ≠ f ∧ s'.bodies.fam f' = closedFam := by
  obtain ⟨Y, f', e, y1, y2, y3, y4, y5⟩ := world_copy_closed hi hf hcl
  have hlt : j < s.blds.length := (List.getElem?_eq_some_iff.1 hr).1
  refine ⟨{ s with heap := (s.heap.copyHeaders b.hdrs).1, bodies := Y, blds :=
         s.blds ++ [{ b with hdrs := (s.heap.copyHeaders b.hdrs).2, body := some s.bodies.bodies.length }] },
    { b with hdrs := (s.heap.copyHeaders b.hdrs).2, body := some s.bodies.bodies.length }, s.bodies.bodies.length, f',
    by simp only [BState.step, hr, copyBody, hb, hst, e], ?_, by simp, rfl, rfl, rfl, rfl, y1, y2, y3, y4, y5⟩
  dsimp only
  rw [List.getElem?_append_left hlt]; exact hr

/-! ## Examples -/

/-- A client that takes two bytes and then panics. -/
def crashRW : RW Nat where
  setHeader w _ _ := w
  writeHeader w _ := (w, .ret ())
  write w d := (w + d.length, .panic (.value 3))
  flush w := (w, .ret ())
  push w _ := (w, .ret none)
  readFrom w := .read w 2 fun d _ => .panic (w + d.length) (.value 3)
  isPusher := false
  isReaderFrom := true
  isFlusher := true
  isCloseNotifier := true
  isHijacker := true

example : crashRW.isReaderFrom = true → ∀ w, SmallReads (crashRW.readFrom w) := fun _ _ => ⟨by omega, fun _ _ => trivial⟩

-- The hypotheses can be met: Bodies that have just been made.
example : SrcRel (MemRel [1, 2, 3]) 0 (fromBytes [1, 2, 3]) [1, 2, 3] := mem_source_init _
example : World.Has [1, 2, 3] 0 0 (World.store.fromBytes {} [1, 2, 3]).1 [1, 2, 3] := (world_fromBytes {} [1, 2, 3]).2.1

-- A file is served to that client; then its copy is served to another one.
example :
    let R := fileRdr [1, 2, 3, 4, 5, 6, 7]
    let c := ReaderAtBody.step R (ReaderAtBody.init 0 6) (.copy 0)
    let x := serve crashRW (BodyOps.ofFam (ReaderAtBody.step R) false 0) 9 { code := 200, hdrs := [], body := c.1 } 0
    c.2 = .copied 1 ∧ x.2 = (2, .panic (.value 3)) ∧
    handed (request eager true false (BodyOps.ofFam (ReaderAtBody.step R) false 1) 9 false (fun _ => .ret ())
      (.resp { code := 200, hdrs := [], body := x.1 }) ()).1 = [1, 2, 3, 4, 5, 6] := by decide +kernel

-- The same with the Body of a Response and `Response.Copy`.
example :
    let s := BState.after worldEnv { bodies := (World.store.fromBytes {} [1, 2, 3]).1 } [.new, .on 0 (.withBody (some 0)), .build 0, .respCopy 0]
    let x := serve crashRW (World.ops 0 0) 9 { code := 200, hdrs := [], body := s.bodies } 0
    s.bodies.bodies = [(0, 0), (0, 1)] ∧ x.2 = (3, .panic (.value 3)) ∧
    handed (request plainRW true false (World.ops 0 1) 9 false (fun _ => .ret ()) (.resp { code := 200, hdrs := [], body := x.1 }) ()).1 = [1, 2, 3] := by
  decide +kernel

-- A Response is served, which closes its Body; the copy that is made of it afterwards has a closed Body.
example :
    let s := BState.after worldEnv { bodies := (World.store.fromBytes {} [1, 2, 3]).1 } [.new, .on 0 (.withBody (some 0)), .build 0]
    let x := serve plainRW (World.ops 0 0) 9 { code := 200, hdrs := [], body := s.bodies } ()
    ((x.1.fam 0).step (.close 0)).2 = .closed (some .closed) ∧ ((s.bodies.fam 0).step (.close 0)).2 = .closed none ∧
    (BState.after worldEnv { s with bodies := x.1 } [.respCopy 0]).bodies.bodies = [(0, 0), (1, 0)] ∧
    ((BState.after worldEnv { s with bodies := x.1 } [.respCopy 0]).bodies.fam 1).step (.read 0 4) = (closedFam, .read [] (some .closed)) := by
  decide +kernel

end Verif
