import Verif.Spec.Exactly
import Verif.Props.Mem
import Verif.Props.Serve
import Verif.Props.Writer
import Verif.Props.Adaptor
import Verif.Props.Sharing

/-!
# Exactly when: C06, C35, C39, C43 and C48

These properties are false of the code in general.  Here they are shown to hold in exactly the cases that are named.
-/

set_option autoImplicit false

namespace Verif
open Spec

/-! ## C06 -/

/-- The end of the content has been reported though it has not been reached. -/
def stuckAt (f : List Cursor) (i : Nat) : Bool :=
  match f[i]? with
  | some c => c.isOpen && c.done && decide (c.pos < c.content.length)
  | none => false

theorem stuckAt_set (f : List Cursor) (h i : Nat) {c c' : Cursor} (hc : f[h]? = some c) :
    stuckAt (f.set h c') i = if i = h then (c'.isOpen && c'.done && decide (c'.pos < c'.content.length)) else stuckAt f i := by
  unfold stuckAt
  by_cases e : i = h
  · subst e; rw [set_get hc]; simp
  · rw [List.getElem?_set_ne (Ne.symm e), if_neg e]

theorem noteStop_step {data : List Byte} {f : List Cursor} (hf : FamOk data f) (op : Op) :
    noteStop (stuckAt f) (op, (Spec.step (memCfg data) {} f op).2) = stuckAt (Spec.step (memCfg data) {} f op).1 := by
  funext i
  unfold Spec.step
  cases hc : f[op.h]? with
  | none => cases op <;> rfl
  | some c =>
    obtain ⟨hct, hp⟩ := hf c (List.mem_of_getElem? hc)
    have self : stuckAt f op.h = (c.isOpen && c.done && decide (c.pos < c.content.length)) := by simp [stuckAt, hc]
    cases op with
    | read h k =>
      simp only [Op.h] at hc self
      simp only [stuckAt_set f h i hc, noteStop]
      by_cases e : i = h
      · subst e
        rw [if_pos rfl, self]
        by_cases ho : c.isOpen = true
        · by_cases hd : c.done = true
          · simp [Cursor.read, ho, hd]
          · simp [Cursor.read, ho, hd]
            omega
        · simp [Cursor.read, ho]
      · rw [if_neg e]
    | readAt h k off => simp [memCfg, noteStop]
    | seek h off wh =>
      simp only [Op.h] at hc self
      simp only [memCfg, if_true, stuckAt_set f h i hc]
      by_cases e : i = h
      · subst e
        rw [if_pos rfl]
        unfold Cursor.seek
        split
        · rename_i ho; simp at ho; simp [noteStop, self, ho]
        · split
          · simp [noteStop, self]
          · split
            · simp [noteStop, self]
            · split
              · simp [noteStop, self]
              · split <;> simp [noteStop, self]
      · rw [if_neg e]
        generalize hq : (c.seek off wh).2 = o
        unfold noteStop
        split <;> simp_all
    | remaining h => rfl
    | unwrap h => rfl
    | copy h =>
      simp only [Op.h] at hc self
      by_cases ho : c.isOpen = true
      · simp only [ho, if_true, noteStop]
        by_cases e : i = f.length
        · subst e
          rw [if_pos rfl, self]
          simp [stuckAt, ho]
        · rw [if_neg e]
          unfold stuckAt
          by_cases hl : i < f.length
          · rw [List.getElem?_append_left hl]
          · rw [List.getElem?_eq_none (by omega), List.getElem?_eq_none (by simp; omega)]
      · simp [ho, noteStop]
    | close h =>
      simp only [Op.h] at hc self
      by_cases ho : c.isOpen = true
      · simp only [ho, if_true, memCfg, Bool.false_and, Bool.false_eq_true, if_false, noteStop, stuckAt_set f h i hc]
      · simp [ho, noteStop]
    | writeTo h w =>
      simp only [Op.h] at hc self
      simp only [memCfg, if_true, stuckAt_set f h i hc]
      by_cases e : i = h
      · subst e
        rw [if_pos rfl]
        by_cases ho : c.isOpen = true
        · by_cases hd : c.done = true
          · have er : c.writeTo w = (c, .wrote none 0 none) := by simp [Cursor.writeTo, ho, hd]
            simp [er, noteStop, self]
          · cases hw : w (c.content.drop c.pos) with
            | panics p =>
              have er : c.writeTo w = (c, .panic p) := by simp [Cursor.writeTo, ho, hd, hw]
              simp [er, noteStop, self]
            | ok x =>
              obtain ⟨n, err⟩ := x
              by_cases hn : 0 ≤ n ∧ n ≤ ((c.content.drop c.pos).length : Int)
              · have er : c.writeTo w = ({ c with pos := c.pos + n.toNat, done := true }, .wrote (some (c.content.drop c.pos)) n err) := by
                  simp only [Cursor.writeTo, ho, hd, hw]
                  simp only [Bool.not_true, Bool.false_eq_true, if_false]
                  rw [if_pos hn]
                simp only [List.length_drop] at hn
                simp [er, noteStop, ho]
                omega
              · have er : c.writeTo w = (c, .panic .badWriter) := by
                  simp only [Cursor.writeTo, ho, hd, hw]
                  simp only [Bool.not_true, Bool.false_eq_true, if_false]
                  rw [if_neg hn]
                simp [er, noteStop, self]
        · have er : c.writeTo w = (c, .wrote none 0 (some .closed)) := by simp [Cursor.writeTo, ho]
          simp [er, noteStop, self]
      · rw [if_neg e]
        generalize hq : (c.writeTo w).2 = o
        unfold noteStop
        split <;> simp_all

theorem noteStop_run {data : List Byte} (hlen : data.length < 2 ^ 63) (ops : List Op) : ∀ {s : MemFam} {f : List Cursor}, MemRel data s f → FamOk data f →
    (∀ op ∈ ops, op.Valid ∧ (data = [] → op.EmptyOk)) →
    ∃ f', MemRel data (run MemFam.step s ops).1 f' ∧ FamOk data f' ∧ (ops.zip (run MemFam.step s ops).2).foldl noteStop (stuckAt f) = stuckAt f' := by
  induction ops with
  | nil => intro s f h1 h2 _; exact ⟨f, h1, h2, rfl⟩
  | cons op ops ih =>
    intro s f h1 h2 hv
    obtain ⟨e1, e2⟩ := mem_step_sim hlen s f op h1 (hv op (by simp))
    simp only [run, List.zip_cons_cons, List.foldl_cons]
    rw [e1, noteStop_step h2]
    exact ih e2 (famOk_step op h2) fun op hm => hv op (by simp [hm])

/-- **C06, exactly.** After any history, `BytesRemaining` of a Body made by `FromBytes` or `FromString`, or a copy, is the number of bytes that reading would
deliver, unless the last `WriteTo` of the Body (or of the one that it was copied from after that) was stopped part-way by the writer, with no successful `Seek`
since. -/
theorem C06_iff (data : List Byte) (hlen : data.length < 2 ^ 63) (ops : List Op) (hv : ∀ op ∈ ops, op.Valid ∧ (data = [] → op.EmptyOk)) (h : Nat)
    (he : Spec.Exists MemFam.step (run MemFam.step (fromBytes data) ops).1 h) :
    RemainingExact MemFam.step (run MemFam.step (fromBytes data) ops).1 h ↔
      stoppedPartWay (ops.zip (run MemFam.step (fromBytes data) ops).2) h = false := by
  obtain ⟨f, h1, h2, h3⟩ := noteStop_run hlen ops (mem_init data) (famTight_init data).1 hv
  have h0 : stuckAt [{ content := data }] = fun _ => false := by
    funext i
    unfold stuckAt
    cases i with
    | zero => rfl
    | succ i => rfl
  rw [h0] at h3
  have hR := refines_of_sim (Ok := fun op => op.Valid ∧ (data = [] → op.EmptyOk)) (Allowed := (· = {})) (MemRel data) (mem_step_sim' hlen) h1
  unfold stoppedPartWay
  rw [h3]
  refine ⟨fun hex => ?_, fun hst => ?_⟩
  · obtain ⟨n, g1, g2⟩ := hex
    obtain ⟨ch, rfl, e⟩ := hR.one (.remaining h) (by simp [Op.Valid, Op.EmptyOk]) (goOut_ne_hang _ _)
    rw [g1] at e
    unfold stuckAt
    cases hc : f[h]? with
    | none => rfl
    | some c =>
      dsimp only
      obtain ⟨hct, hp⟩ := h2 c (List.mem_of_getElem? hc)
      cases ho : c.isOpen with
      | false => rfl
      | true =>
        cases hd : c.done with
        | false => rfl
        | true =>
          simp [Spec.step, Op.h, hc, Cursor.remaining, ho] at e
          obtain ⟨chs, hl, -, e2⟩ := hR ([n].map (Op.read h)) (by simp [Op.Valid, Op.EmptyOk]) (noHang_run goOut_ne_hang _ _)
          have := g2 [n]
          rw [e2, reads_done hc hd [n] chs (by simpa using hl)] at this
          simp at this
          simp
          omega
  · refine remainingExact_of_cursor hR goOut_ne_hang (data := data) (fun c hc => ?_) (by intro ch h; subst h; exact ⟨rfl, rfl⟩)
      (by simp [Op.Valid, Op.EmptyOk]) (by simp [Op.Valid, Op.EmptyOk]) he
    obtain ⟨hct, hp⟩ := h2 c (List.mem_of_getElem? hc)
    refine ⟨hct, hp, fun ho hd => ?_⟩
    simp [stuckAt, hc, ho, hd, hct] at hst
    omega

theorem empty_reads (h : Nat) (ks : List Nat) (s : List EmptyBody) :
    delivered (run MemFam.step (.empty s) (ks.map (Op.read h))).2 = [] := by
  induction ks generalizing s with
  | nil => rfl
  | cons k ks ih =>
    rw [List.map_cons, run_cons]
    have : ∃ s', (MemFam.step (.empty s) (.read h k)).1 = .empty s' ∧ ∀ os, delivered ((MemFam.step (.empty s) (.read h k)).2 :: os) = delivered os := by
      refine ⟨_, rfl, fun os => ?_⟩
      simp only [MemFam.step, EmptyBody.step, Op.h]
      cases s[h]? with
      | none => rfl
      | some b =>
        simp only [EmptyBody.read]
        repeat' split
        all_goals rfl
    obtain ⟨s', h1, h2⟩ := this
    rw [h1, h2]
    exact ih s'

/-- **C06, the empty Body.** For `Empty`, and `FromBytes` without bytes, `BytesRemaining` is exact after any calls whatever. -/
theorem C06_empty (ops : List Op) (h : Nat) (he : Spec.Exists MemFam.step (run MemFam.step (fromBytes []) ops).1 h) :
    RemainingExact MemFam.step (run MemFam.step (fromBytes []) ops).1 h := by
  have hs : ∀ (ops : List Op) (s : List EmptyBody), ∃ s', (run MemFam.step (.empty s) ops).1 = .empty s' := by
    intro ops
    induction ops with
    | nil => exact fun s => ⟨s, rfl⟩
    | cons op ops ih => intro s; rw [run_cons]; exact ih _
  obtain ⟨s', e⟩ := hs ops [{}]
  have e : (run MemFam.step (fromBytes []) ops).1 = .empty s' := e
  rw [e] at he ⊢
  refine ⟨0, ?_, fun ks => by rw [empty_reads]; simp⟩
  simp only [Spec.Exists, MemFam.step, EmptyBody.step, Op.h] at he ⊢
  cases hb : s'[h]? with
  | none => simp [hb] at he
  | some b => rfl

/-- A write that the writer stops after one byte, then a copy; the Body seeks, the copy does not. -/
def exStops : List Op :=
  [.writeTo 0 (fun _ => .ok (1, some (.ext 0))), .copy 0, .seek 0 2 0]

example : stoppedPartWay (exStops.zip (run MemFam.step (fromBytes [1, 2, 3]) exStops).2) 0 = false := by decide +kernel
example : stoppedPartWay (exStops.zip (run MemFam.step (fromBytes [1, 2, 3]) exStops).2) 1 = true := by decide +kernel
example : ∀ op ∈ exStops, op.Valid ∧ (([1, 2, 3] : List Byte) = [] → op.EmptyOk) := by
  intro op h
  simp [exStops] at h
  rcases h with rfl | rfl | rfl <;> simp [Op.Valid, IsI64]

/-! ## C35 -/
variable {β ω : Type}

/-- **C35, exactly when.** A `Serve` that returned has closed the Body exactly once if and only if no push failed. -/
theorem C35_iff (D : RW ω) (B : BodyOps β) (fuel : Nat) (r : Resp β) (w : ω) (e : Option Err)
    (hr : (served D B fuel r w).2.2 = .ret e) :
    (bodyCloses (served D B fuel r w).1).length = 1 ↔ ¬ PushFailed (served D B fuel r w).2.1 := by
  constructor
  · intro h hp
    rw [C35_not_closed_after_push_failure D B fuel r w hp] at h
    simp [bodyCloses] at h
  · intro hp
    obtain ⟨b, err, h1, h2⟩ := C35_closed_once_partial D B fuel r w hp e hr
    rw [h1, bodyCloses_append, h2]
    simp [bodyCloses]

example : (served pushBreaksRW (BodyOps.ofFam MemFam.step true 0) 5 exResp ()).2.2 = .ret (some (.ext 32)) ∧
    (bodyCloses (served pushBreaksRW (BodyOps.ofFam MemFam.step true 0) 5 exResp ()).1).length = 0 ∧
    (bodyCloses (served plainRW (BodyOps.ofFam MemFam.step true 0) 5 exResp ()).1).length = 1 := by decide +kernel

/-! ## C39 -/

/-- **C39, exactly when.** `SawError` says whether something failed if and only if no failure of `ReadFrom` stands alone: one
without a failed `Write` and without a repeated `WriteHeader`. -/
theorem C39_iff (N : RW ω) (raises : Bool) (kind : WKind) (fuel : Nat) (w : ω) (isHEAD : Bool) (ops : List WOp) :
    ((Writer.after N raises kind fuel w isHEAD ops).sawError = true ↔
      WriteFailed (Writer.after N raises kind fuel w isHEAD ops).next.log ∨
      ReadFromFailed (Writer.after N raises kind fuel w isHEAD ops).next.log ∨
      HeaderRepeated N raises kind fuel w isHEAD ops) ↔
    (ReadFromFailed (Writer.after N raises kind fuel w isHEAD ops).next.log →
      WriteFailed (Writer.after N raises kind fuel w isHEAD ops).next.log ∨
      HeaderRepeated N raises kind fuel w isHEAD ops) := by
  rw [C39_saw_error_partial]
  generalize WriteFailed (Writer.after N raises kind fuel w isHEAD ops).next.log = a
  generalize ReadFromFailed (Writer.after N raises kind fuel w isHEAD ops).next.log = b
  generalize HeaderRepeated N raises kind fuel w isHEAD ops = c
  constructor
  · intro h hb; exact h.2 (.inr (.inl hb))
  · intro h
    constructor
    · rintro (x | x)
      · exact .inl x
      · exact .inr (.inr x)
    · rintro (x | x | x)
      · exact .inl x
      · exact h x
      · exact .inr x

/-- A failure of `ReadFrom` that stands alone, and one after a failed `Write`. -/
example : ReadFromFailed (Writer.after brokenRW false .fancy 5 () false [.readFrom [.ret ([1, 2, 3], some .eof)]]).next.log :=
  ⟨0, .ext 32, by decide +kernel⟩
example : (Writer.after brokenRW false .fancy 5 () false [.readFrom [.ret ([1, 2, 3], some .eof)]]).sawError = false ∧
    (Writer.after brokenRW false .fancy 5 () false [.write [1], .readFrom [.ret ([1, 2, 3], some .eof)]]).sawError = true := by
  decide +kernel

/-! ## C43 -/

theorem quiet_append {l ext : List WEv} (h : ¬ PushFailed l) (hx : ∀ u q, WEv.push u q ∉ ext) : ¬ PushFailed (l ++ ext) := by
  rintro ⟨u, q, h1, h2⟩
  rcases List.mem_append.1 h1 with h1 | h1
  · exact h ⟨u, q, h1, h2⟩
  · exact hx u q h1

theorem maybe_quiet (N : RW ω) (s : WState (Logged WEv ω)) (c : Int) (h : ¬ PushFailed s.next.log) :
    ¬ PushFailed (Writer.maybeWriteHeader N.record s c).1.next.log := by
  unfold Writer.maybeWriteHeader
  repeat' split
  all_goals first | exact h | exact quiet_append h (by simp)

theorem writeHeader_quiet (N : RW ω) (raises : Bool) (s : WState (Logged WEv ω)) (c : Int) (h : ¬ PushFailed s.next.log) :
    ¬ PushFailed (Writer.writeHeader N.record raises s c).1.next.log := by
  unfold Writer.writeHeader
  repeat' split
  all_goals first | exact h | exact quiet_append h (by simp)

theorem write_quiet (N : RW ω) (s : WState (Logged WEv ω)) (d : List Byte) (h : ¬ PushFailed s.next.log) :
    ¬ PushFailed (Writer.write N.record s d).1.next.log := by
  have h1 := maybe_quiet N s 200 h
  unfold Writer.write
  revert h1
  rcases Writer.maybeWriteHeader N.record s 200 with ⟨s1, _ | _ | _⟩ <;> intro h1
  · dsimp only
    split
    · exact h1
    · have h2 : ¬ PushFailed (N.record.write s1.next d).1.log := quiet_append h1 (by simp)
      revert h2
      rcases N.record.write s1.next d with ⟨w, ⟨n, e⟩ | _ | _⟩ <;> intro h2
      · dsimp only at h2 ⊢
        split
        · exact h2
        · split <;> exact h2
      · exact h2
      · exact h2
  · exact h1
  · exact h1

theorem readFrom_quiet (N : RW ω) (B : BodyOps β) (fuel : Nat) (s : WState (Logged WEv ω)) (b : β) (h : ¬ PushFailed s.next.log) :
    ¬ PushFailed (runRF B fuel (Writer.readFrom N.record s) b).2.1.next.log := by
  have h1 := maybe_quiet N s 200 h
  unfold Writer.readFrom
  revert h1
  rcases Writer.maybeWriteHeader N.record s 200 with ⟨s1, _ | _ | _⟩ <;> intro h1
  · dsimp only
    split
    · simp only [runRF]
      rcases discardAll B fuel b with ⟨b', _ | _ | _⟩ <;> exact h1
    · split
      · exact h1
      · simp only [RW.record]
        obtain ⟨ex, w', e1, e2⟩ := wrapRF_spec B fuel s1 (N.readFrom s1.next.inner) (s1.next.log ++ [.readFrom]) b
        rw [e1]
        refine quiet_append (quiet_append h1 (by simp)) ?_
        intro u q hq
        obtain ⟨d, hd | ⟨n, er, hd⟩⟩ := e2 _ hq <;> cases hd
  · exact h1
  · exact h1

theorem pushAll_quiet (N : RW ω) (raises : Bool) (kind : WKind) (urls : List GoStr) (s : WState (Logged WEv ω))
    (h : ¬ PushFailed s.next.log) (hn : (pushAll (Writer.ops N.record raises kind) urls s).2 = none) :
    ¬ PushFailed (pushAll (Writer.ops N.record raises kind) urls s).1.next.log := by
  induction urls generalizing s with
  | nil => exact h
  | cons u urls ih =>
    have e : (Writer.ops N.record raises kind).push s u = Writer.push N.record s u := rfl
    have hp : (Writer.push N.record s u).2 = .ret none ∨ (Writer.push N.record s u).2 = .ret (some .notSupported) →
        ¬ PushFailed (Writer.push N.record s u).1.next.log := by
      unfold Writer.push
      split
      · intro hq
        rintro ⟨u', q, h1, h2, h3⟩
        simp only [RW.record] at hq h1
        rcases List.mem_append.1 h1 with h1 | h1
        · exact h ⟨u', q, h1, h2, h3⟩
        · simp at h1
          rw [h1.2] at h2 h3
          exact hq.elim h2 h3
      · exact fun _ => h
    simp only [pushAll, e] at hn ⊢
    rcases hq : Writer.push N.record s u with ⟨s', _ | _ | _⟩
    · rename_i o
      rw [hq] at hp hn
      cases o with
      | none => exact ih s' (hp (.inl rfl)) hn
      | some er =>
        simp only at hn ⊢
        by_cases he : er = .notSupported
        · subst he
          exact ih s' (hp (.inr rfl)) hn
        · rw [if_pos he] at hn; simp at hn
    · rw [hq] at hn; simp at hn
    · rw [hq] at hn; simp at hn

/-- If a Writer has a status after serving, the code was legal and every push went through. -/
theorem writer_serve_sent (N : RW ω) (raises : Bool) (kind : WKind) (B : BodyOps β) (fuel : Nat) (r : Resp β)
    (s : WState (Logged WEv ω)) (hs : WInvariant s) (h0 : s.status = 0) (hq : ¬ PushFailed s.next.log)
    (hn : (serve (Writer.ops N.record raises kind) B fuel r s).2.1.status ≠ 0) :
    100 ≤ r.code ∧ r.code ≤ 999 ∧ ¬ PushFailed (serve (Writer.ops N.record raises kind) B fuel r s).2.1.next.log := by
  have hp : (if (Writer.ops N.record raises kind).isPusher = true then
      pushAll (Writer.ops N.record raises kind) (hdrGet r.hdrs headerPush) s else (s, none)) =
      pushAll (Writer.ops N.record raises kind) (hdrGet r.hdrs headerPush) s := rfl
  unfold serve at hn ⊢
  simp only [hp] at hn ⊢
  obtain ⟨i1, i2, -⟩ := writer_pushAll N raises kind (hdrGet r.hdrs headerPush) s hs
  have i3 := pushAll_quiet N raises kind (hdrGet r.hdrs headerPush) s hq
  rcases hq : pushAll (Writer.ops N.record raises kind) (hdrGet r.hdrs headerPush) s with ⟨s1, o⟩
  rw [hq] at i1 i2 i3 hn
  dsimp only at i1 i2 i3 hn
  cases o with
  | some o => exact absurd (i2.trans h0) hn
  | none =>
    simp only at hn ⊢
    obtain ⟨j1, j2⟩ := setAll_pres (Writer.ops N.record raises kind) (fun s => ¬ PushFailed s.next.log ∧ s.status = s1.status)
      (fun s k v h => ⟨quiet_append h.1 (by simp), h.2⟩) r.hdrs s1 ⟨i3 rfl, rfl⟩
    generalize setAll (Writer.ops N.record raises kind) r.hdrs s1 = s2 at j1 j2 hn
    have k1 := writeHeader_quiet N raises s2 r.code j1
    have e : (Writer.ops N.record raises kind).writeHeader s2 r.code = Writer.writeHeader N.record raises s2 r.code := rfl
    by_cases hc : 100 ≤ r.code ∧ r.code ≤ 999
    · refine ⟨hc.1, hc.2, ?_⟩
      rw [e]
      rcases hm : Writer.writeHeader N.record raises s2 r.code with ⟨s3, _ | _ | _⟩
      · rw [hm] at k1
        dsimp only at k1 ⊢
        have c1 := ioCopy_pres (Writer.ops N.record raises kind) B fuel (fun s => ¬ PushFailed s.next.log)
          (fun s d h => write_quiet N s d h) (fun s b h => readFrom_quiet N B fuel s b h) r.body s3 k1
        rcases hc : ioCopy (Writer.ops N.record raises kind) B fuel r.body s3 with ⟨b', s4, ⟨n, er⟩ | _ | _⟩
        · rw [hc] at c1
          dsimp only at c1 ⊢
          rcases B.close b' with ⟨b'', _ | _ | _⟩ <;> exact c1
        · rw [hc] at c1; exact c1
        · rw [hc] at c1; exact c1
      · rw [hm] at k1; exact k1
      · rw [hm] at k1; exact k1
    · have hw : Writer.writeHeader N.record raises s2 r.code = (s2, .panic .badArg) := by
        unfold Writer.writeHeader
        by_cases h1 : 100 ≤ r.code
        · rw [if_neg (by omega), if_pos (by omega)]
        · rw [if_pos (by omega)]
      rw [e, hw] at hn
      exact absurd (j2.trans (i2.trans h0)) hn

/-- **C43, exactly when.** When `ServeHTTP` has returned, the metrics are labelled with the status that the client received if
and only if the handler returned a Response with a legal code, and no push failed. -/
theorem C43_iff (N : RW ω) (raises isHEAD : Bool) (B : BodyOps β) (fuel : Nat) (assertErr : Bool)
    (onPanic : PanicArg → Res Unit) (h : Handled β) (w : ω)
    (hr : (request N raises isHEAD B fuel assertErr onPanic h w).2.2 = .ret ()) :
    (∃ c, statuses (request N raises isHEAD B fuel assertErr onPanic h w).1 = [c] ∧
      ∀ l ∈ labels (request N raises isHEAD B fuel assertErr onPanic h w).2.1, decimal l = some c) ↔
    (∃ r, h = .resp r ∧ 100 ≤ r.code ∧ r.code ≤ 999) ∧
      ¬ PushFailed (request N raises isHEAD B fuel assertErr onPanic h w).1 := by
  constructor
  · rintro ⟨c, hc, hl⟩
    rw [request_eq] at hr hc hl ⊢
    obtain ⟨h0, h4 | h4⟩ := adaptor_spec N raises (Writer.kindFor N.record) B fuel assertErr onPanic h _ (winvariant_init w isHEAD)
    · exact absurd hr h4.2.1
    · obtain ⟨hs, hn, hh, hev, ⟨ext, hx, hext⟩, -⟩ := h4
      dsimp only at hs hn hh hev hx hc hl ⊢
      have hst : (handle (Writer.wr N.record raises (Writer.kindFor N.record)) B fuel h
          (Writer.init ⟨w, []⟩ isHEAD)).1.status ≠ 0 := by
        intro hz
        rw [hz] at hs hev
        rcases h0.status with g | g
        · exact hn g.1
        · rw [g.2.2, hs] at hc
          rw [hev] at hl
          have := hl (itoa 0) (by simp [metricsOf, labels])
          rw [decimal_itoa] at this
          simp at hc this
          omega
      have hq : (∃ r, h = .resp r ∧ 100 ≤ r.code ∧ r.code ≤ 999) ∧ ¬ PushFailed (handle (Writer.wr N.record raises
          (Writer.kindFor N.record)) B fuel h (Writer.init ⟨w, []⟩ isHEAD)).1.next.log := by
        cases h with
        | panic p => exact absurd rfl hst
        | hang => exact absurd rfl hst
        | resp r =>
          have et : (Writer.wr N.record raises (Writer.kindFor N.record)).toRW =
            Writer.ops N.record raises (Writer.kindFor N.record) := rfl
          have eh : (handle (Writer.wr N.record raises (Writer.kindFor N.record)) B fuel (.resp r)
              (Writer.init ⟨w, []⟩ isHEAD)).1 = (serve (Writer.ops N.record raises (Writer.kindFor N.record)) B fuel r
              (Writer.init ⟨w, []⟩ isHEAD)).2.1 := by
            simp only [handle, et]
            rcases serve (Writer.ops N.record raises (Writer.kindFor N.record)) B fuel r (Writer.init ⟨w, []⟩ isHEAD) with ⟨b, s', o⟩
            rcases o with o | p | _
            · cases o <;> rfl
            · rfl
            · rfl
          rw [eh] at hst ⊢
          obtain ⟨g1, g2, g3⟩ := writer_serve_sent N raises (Writer.kindFor N.record) B fuel r (Writer.init ⟨w, []⟩ isHEAD)
            (winvariant_init w isHEAD) rfl (by rintro ⟨u, q, g, -⟩; cases g) hst
          exact ⟨⟨r, rfl, g1, g2⟩, g3⟩
      refine ⟨hq.1, ?_⟩
      rw [hx]
      exact quiet_append hq.2 (by rcases hext with rfl | rfl <;> simp)
  · rintro ⟨⟨r, rfl, h1, h2⟩, hp⟩
    obtain ⟨g1, -, g2⟩ := C43_label_partial N raises isHEAD B fuel assertErr onPanic r w h1 h2 hp hr
    exact ⟨_, g1, g2⟩

example : (request exRW false false (BodyOps.ofFam MemFam.step true 0) 5 true (fun _ => .ret ()) (.resp exResp) ()).2.2 = .ret () ∧
    (request exRW false false (BodyOps.ofFam MemFam.step true 0) 5 true (fun _ => .ret ()) (.resp { exResp with code := 7 }) ()).2.2 =
      .ret () ∧
    labels (request exRW false false (BodyOps.ofFam MemFam.step true 0) 5 true (fun _ => .ret ())
      (.resp { exResp with code := 7 }) ()).2.1 = [lit "0", lit "0", lit "0", lit "0"] := by decide +kernel

/-! ## C48 -/

/-- **C48, exactly when.** The Content-Length of a Response that `Build` makes is right if and only if the Builder had none, or
had one that was right for the Body. -/
theorem C48_iff {B : Type} {E : BEnv B} (hE : NoShared E) {s : BState B} (hs : Reached E s) {h : Nat} {b : Bld}
    (hb : s.blds[h]? = some b) {i : Nat} (hi : b.body = some i) :
    ∃ s' r, s.step E (.build h) = (s', .made s.rsps.length) ∧ s'.rsps[s.rsps.length]? = some r ∧ r.body = some i ∧
      s'.bodies = s.bodies ∧
      (LengthRight (s'.heap.lookup r.hdrs (lit "Content-Length")) (E.store.remaining s'.bodies i) ↔
        s.heap.lookup b.hdrs (lit "Content-Length") = none ∨
        LengthRight (s.heap.lookup b.hdrs (lit "Content-Length")) (E.store.remaining s.bodies i)) := by
  obtain ⟨H', r, h1, -, h3, -, h2⟩ := build_step hE hs hb hi
  have hne : lit "Content-Length" ≠ lit "Content-Type" := by decide +kernel
  refine ⟨_, r, h1, by simp, h3.trans hi, rfl, ?_⟩
  simp only
  rw [h2]
  unfold Hdrs.filled
  cases hn : s.heap.lookup b.hdrs (lit "Content-Length") with
  | some v => simp
  | none =>
    simp only [true_or, iff_true]
    rcases Int.lt_or_le (E.store.remaining s.bodies i) 0 with hn' | hn'
    · refine .inr ⟨hn', ?_⟩
      rw [if_neg hne, if_neg (by omega)]
    · exact .inl ⟨hn', itoa (E.store.remaining s.bodies i), by simp [hne, hn'], decimal_itoa _⟩

example : ¬ LengthRight (some [lit "17"]) 3 := by
  rintro (⟨-, v, h1, h2⟩ | ⟨h, -⟩)
  · simp at h1; subst h1; revert h2; decide +kernel
  · omega
example : LengthRight (some [lit "03"]) 3 := .inl ⟨by decide, lit "03", rfl, by decide +kernel⟩

end Verif
