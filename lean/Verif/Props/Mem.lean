import Verif.Proofs.Mem
import Verif.Proofs.Generic

/-!
# C01–C08: bodies over byte slices, empty bodies, the closed body
-/

set_option linter.unusedSimpArgs false

set_option autoImplicit false

namespace Verif
open Spec

/-! ## Lifting -/

theorem mem_step_sim' {data : List Byte} (hlen : data.length < 2 ^ 63) (s : MemFam)
    (f : List Cursor) (op : Op) (h : MemRel data s f)
    (hv : op.Valid ∧ (data = [] → op.EmptyOk)) (_ : (s.step op).2 ≠ .hang) :
    ∃ ch : Choice, ch = {} ∧ (s.step op).2 = (Spec.step (memCfg data) ch f op).2 ∧
      MemRel data (s.step op).1 (Spec.step (memCfg data) ch f op).1 :=
  ⟨{}, rfl, mem_step_sim hlen s f op h hv⟩

theorem goOut_ne_hang (s : MemFam) (op : Op) : (s.step op).2 ≠ .hang := by
  cases s with
  | empty s =>
    simp only [MemFam.step, EmptyBody.step]
    split
    · simp
    · cases op <;>
        simp only [EmptyBody.read, EmptyBody.readAt, EmptyBody.seek, EmptyBody.writeTo, EmptyBody.close, ne_eq] <;>
        (repeat' split) <;> simp
  | bytes s =>
    simp only [MemFam.step, BytesBody.step]
    split
    · simp
    · cases op <;>
        simp only [BytesBody.read, BytesBody.readAt, BytesBody.seek, BytesBody.writeTo, BytesBody.close, ne_eq] <;>
        (repeat' split) <;> simp

/-- After any acceptable history: the cursors the state refines. -/
theorem mem_after (data : List Byte) (hlen : data.length < 2 ^ 63) (ops : List Op)
    (hv : ∀ op ∈ ops, op.Valid ∧ (data = [] → op.EmptyOk)) :
    ∃ f, MemRel data (run MemFam.step (fromBytes data) ops).1 f ∧ FamOk data f ∧
      ((∀ op ∈ ops, NoPartialWrite op) → FamTight data f) ∧
      Refines MemFam.step (memCfg data) (fun op => op.Valid ∧ (data = [] → op.EmptyOk)) (· = {})
        (run MemFam.step (fromBytes data) ops).1 f := by
  obtain ⟨chs, hl, h1, h2⟩ := refines_after (Allowed := (· = {})) (MemRel data) (mem_step_sim' hlen) (mem_init data) ops hv
    (noHang_run goOut_ne_hang _ _)
  refine ⟨_, h1, famOk_run _ (famTight_init data).1, ?_, h2⟩
  intro hnp
  refine famTight_run _ ?_ (famTight_init data)
  intro x hx
  exact hnp x.2 (List.of_mem_zip hx).2

/-! ## C01 -/

/-- **C01.** For every slice, the Body made by `FromBytes` and all Bodies copied from it answer every
history of calls exactly as independent cursors over the slice (`Spec.run`).  In particular no answer
is a panic unless a `WriteTo` writer reports an impossible count.  (An empty slice yields the shared
empty Body, which agrees except for `WriteTo`, see C08, and `ReadAt` at negative offsets, see C04.) -/
theorem C01_bytes_refine_cursors (data : List Byte) (hlen : data.length < 2 ^ 63) (ops : List Op)
    (hv : ∀ op ∈ ops, op.Valid ∧ (data = [] → op.EmptyOk)) :
    (run MemFam.step (fromBytes data) ops).2 =
      (Spec.run (memCfg data) [{ content := data }] (ops.map (({} : Choice), ·))).2 :=
  mem_refines data hlen ops hv

/-- Non-vacuity: a history with two copies, out-of-order reads, a seek and a close. -/
example : (run MemFam.step (fromBytes [1, 2, 3, 4]) [.read 0 2, .copy 0, .read 0 9, .read 1 1, .seek 0 1 0,
      .close 1, .read 0 3, .read 1 1, .readAt 0 2 3]).2 =
    [.read [1, 2] none, .copied 1, .read [3, 4] (some .eof), .read [3] none, .seek 1 none,
      .closed none, .read [2, 3, 4] none, .read [] (some .closed), .read [4] (some .eof)] := by decide

example : ([1, 2, 3, 4] : List Byte).length < 2 ^ 63 ∧
    ∀ op ∈ ([.read 0 2, .copy 0, .seek 0 (-9) 1] : List Op), op.Valid ∧ (([1,2,3,4] : List Byte) = [] → op.EmptyOk) := by
  refine ⟨by decide, ?_⟩
  intro op hop
  simp at hop
  rcases hop with rfl | rfl | rfl <;> simp [Op.Valid, IsI64]

/-- No call on a `FromBytes` family panics, as long as `WriteTo` writers return possible counts and do not panic themselves. -/
theorem C01_no_panic (data : List Byte) (hlen : data.length < 2 ^ 63) (ops : List Op)
    (hv : ∀ op ∈ ops, op.Valid ∧ (data = [] → op.EmptyOk)) (p : Panic)
    (hp : Out.panic p ∈ (run MemFam.step (fromBytes data) ops).2) :
    ∃ h w d, Op.writeTo h w ∈ ops ∧
      (w d = .panics p ∨ p = .badWriter ∧ ∃ n e, w d = .ok (n, e) ∧ ¬ (0 ≤ n ∧ n ≤ d.length)) := by
  rw [mem_refines data hlen ops hv] at hp
  revert hp
  generalize ([{ content := data }] : List Cursor) = f
  clear hv
  induction ops generalizing f with
  | nil => simp [Spec.run]
  | cons op ops ih =>
    intro hp
    simp only [List.map_cons, Spec.run, List.mem_cons] at hp
    rcases hp with hp | hp
    · clear ih
      unfold Spec.step at hp
      cases hc : f[op.h]? with
      | none => simp [hc] at hp
      | some c =>
        rw [hc] at hp
        cases op with
        | writeTo h w =>
          simp [memCfg, Cursor.writeTo] at hp
          repeat' split at hp
          all_goals simp at hp
          · rename_i hw
            exact ⟨h, w, c.content.drop c.pos, by simp, .inl (by rw [hw, hp])⟩
          · rename_i hw hh
            exact ⟨h, w, c.content.drop c.pos, by simp, .inr ⟨hp, _, _, hw, by simpa using hh⟩⟩
        | read h k =>
          simp [Cursor.read] at hp; repeat' split at hp
          all_goals simp at hp
        | readAt h k off =>
          simp [Cursor.readAt, memCfg] at hp; repeat' split at hp
          all_goals simp at hp
        | seek h off wh =>
          simp [Cursor.seek, memCfg] at hp; repeat' split at hp
          all_goals simp at hp
        | remaining h => simp at hp
        | copy h => simp at hp; split at hp <;> simp at hp
        | close h => simp at hp; split at hp <;> simp at hp
        | unwrap h => simp at hp
    · obtain ⟨h, w, d, h2, h3⟩ := ih _ hp
      exact ⟨h, w, d, by simp [h2], h3⟩

/-! ## C02 -/

/-- **C02.** Reading a `FromBytes` body with buffers of lengths `ks` delivers at each call exactly
the bytes at `[S, S + k)`, `S` the total requested before (so nothing is skipped or delivered
twice), and reports `io.EOF` exactly from the first call on whose request passes the end. -/
theorem C02_read_exact (data : List Byte) (hlen : data.length < 2 ^ 63) (ks : List Nat) :
    ∀ (i k : Nat), ks[i]? = some k →
      (run MemFam.step (fromBytes data) (ks.map (Op.read 0))).2[i]? =
        some (.read ((data.drop (ks.take i).sum).take k)
          (if data.length < (ks.take (i + 1)).sum then some .eof else none)) := by
  intro i k hi
  rw [mem_refines data hlen _ (by simp [Op.Valid, Op.EmptyOk])]
  have := reads_exact (memCfg data) 0 ks [{ content := data }] { content := data } rfl rfl rfl (by simp) i k hi
  simpa [dflt, memCfg] using this

/-- **C02**, concatenation form: what is delivered in total is the prefix asked for, and as soon as
a Read reports an error that error is `io.EOF` and everything has been delivered. -/
theorem C02_read_concat (data : List Byte) (hlen : data.length < 2 ^ 63) (ks : List Nat) :
    let outs := (run MemFam.step (fromBytes data) (ks.map (Op.read 0))).2
    delivered outs = data.take ks.sum ∧
    ∀ (i : Nat) (o : Out), outs[i]? = some o → ∃ d e, o = .read d e ∧
      (e ≠ none → e = some .eof ∧ delivered (outs.take (i + 1)) = data) := by
  intro outs
  have e : outs = (Spec.run (memCfg data) [{ content := data }] (dflt (ks.map (Op.read 0)))).2 :=
    mem_refines data hlen _ (by simp [Op.Valid, Op.EmptyOk])
  have ez : dflt (ks.map (Op.read 0)) = (ks.map fun _ => ({} : Choice)).zip (ks.map (Op.read 0)) := by
    simp only [dflt]
    clear e outs
    induction ks with
    | nil => rfl
    | cons k ks ih => simpa using ih
  rw [e, ez]
  have := reads_delivered (memCfg data) 0 ks (ks.map fun _ => ({} : Choice)) (by simp) (by simp)
    [{ content := data }] { content := data } rfl rfl (by simp) (by simp)
  simpa [memCfg] using this

example : (run MemFam.step (fromBytes [1, 2, 3, 4, 5]) ([2, 0, 2, 7, 1].map (Op.read 0))).2 =
    [.read [1, 2] none, .read [] none, .read [3, 4] none, .read [5] (some .eof), .read [] (some .eof)] := by
  decide

/-! ## C03 (bytes and empty bodies) -/

theorem mem_seek_fail (s : MemFam) (h : Nat) (off wh : Int) (e : Err)
    (he : (s.step (.seek h off wh)).2 = .seek (-1) (some e)) : (s.step (.seek h off wh)).1 = s := by
  cases s with
  | empty s =>
    simp only [MemFam.step, EmptyBody.step, Op.h] at he ⊢
    split
    · rfl
    · rename_i b hb
      simp only [hb] at he
      have : (b.seek off wh).1 = b := by
        simp only [EmptyBody.seek] at he ⊢
        repeat' split
        all_goals first | rfl | (simp_all; done)
      rw [this, set_self hb]
  | bytes s =>
    simp only [MemFam.step, BytesBody.step, Op.h] at he ⊢
    split
    · rfl
    · rename_i b hb
      simp only [hb] at he
      have : (b.seek off wh).1 = b := by
        simp only [BytesBody.seek] at he ⊢
        repeat' split
        all_goals first | rfl | (simp_all; done)
      rw [this, set_self hb]

/-- **C03** for bytes-backed and empty Bodies: after any history, on any open Body, `Seek` is the
clamped absolute seek `SeekClamped`; failing seeks leave the whole state unchanged. -/
theorem C03_seek_mem (data : List Byte) (hlen : data.length < 2 ^ 63) (ops : List Op)
    (hv : ∀ op ∈ ops, op.Valid ∧ (data = [] → op.EmptyOk)) (h : Nat)
    (ho : IsOpen MemFam.step (run MemFam.step (fromBytes data) ops).1 h) :
    SeekClamped MemFam.step data (run MemFam.step (fromBytes data) ops).1 h := by
  obtain ⟨f, _, hf, _, hR⟩ := mem_after data hlen ops hv
  exact seekClamped_of_refines hR goOut_ne_hang hf rfl (by intro ch h; subst h; exact ⟨rfl, rfl⟩)
    (by simp [Op.Valid, Op.EmptyOk]) (by simp [Op.Valid, Op.EmptyOk]) (by simp [Op.Valid, Op.EmptyOk])
    (by simp [Op.Valid, Op.EmptyOk]) (fun off wh e => mem_seek_fail _ h off wh e) ho

/-- Non-vacuity: an open body in the middle of its content; the three answers of `seekAnswer`. -/
example : IsOpen MemFam.step (run MemFam.step (fromBytes [1, 2, 3]) [.read 0 2]).1 0 := ⟨1, by decide⟩
example : seekAnswer 3 2 (-1) 1 = .ok 1 ∧ seekAnswer 3 2 (-3) 1 = .error (.negComputed (-1)) ∧
    seekAnswer 3 2 99 0 = .ok 3 ∧ seekAnswer 3 2 0 7 = .error (.unknownWhence 7) ∧
    seekAnswer 3 2 (2 ^ 63 - 1) 1 = .error (.negComputed (1 - 2 ^ 63)) := by
  refine ⟨rfl, rfl, rfl, rfl, rfl⟩

/-! ## C04 (bytes) -/

/-- **C04** for bytes-backed Bodies: `ReadAt` on any open Body after any history is a pure
positional read of the content. -/
theorem C04_readAt_bytes (data : List Byte) (hne : data ≠ []) (hlen : data.length < 2 ^ 63)
    (ops : List Op) (hv : ∀ op ∈ ops, op.Valid) (h : Nat)
    (ho : IsOpen MemFam.step (run MemFam.step (fromBytes data) ops).1 h) :
    ReadAtPure MemFam.step data (run MemFam.step (fromBytes data) ops).1 h := by
  obtain ⟨f, hM, hf, _, hR⟩ := mem_after data hlen ops (fun op m => ⟨hv op m, fun e => absurd e hne⟩)
  obtain ⟨c, hc, hop⟩ := isOpen_get hR (by simp [Op.Valid, Op.EmptyOk]) ho
  obtain ⟨hct, hp⟩ := hf c (List.mem_of_getElem? hc)
  intro k off hoff
  refine ⟨?_, ?_, ?_⟩
  · generalize (run MemFam.step (fromBytes data) ops).1 = s
    cases s with
    | empty s => simp only [MemFam.step, EmptyBody.step, Op.h]; split <;> rfl
    | bytes s => simp only [MemFam.step, BytesBody.step, Op.h]; split <;> rfl
  · intro hn
    obtain ⟨ch, hch, e⟩ := hR.one (.readAt h k off) ⟨hoff, fun e => absurd e hne⟩ (goOut_ne_hang _ _)
    rw [e]
    simp [Spec.step, Op.h, hc, memCfg, Cursor.readAt, hop, hn]
  · intro hn
    obtain ⟨ch, hch, e⟩ := hR.one (.readAt h k off) ⟨hoff, fun e => absurd e hne⟩ (goOut_ne_hang _ _)
    rw [e]
    subst hch
    left
    have hn' : ¬ off < 0 := by omega
    simp only [Spec.step, Op.h, hc, memCfg, Cursor.readAt, hop, hct, if_true, Bool.not_true,
      Bool.false_eq_true, if_false, hn', Bool.false_and, Bool.or_false, decide_eq_true_eq]
    have e1 : (data.length < min off.toNat data.length + k) ↔ (data.length - off.toNat < k) := by omega
    simp only [e1]
    congr 1
    by_cases hb : off.toNat ≤ data.length
    · rw [Nat.min_eq_left hb]
    · rw [List.drop_eq_nil_of_le (by omega), List.drop_eq_nil_of_le (by omega)]

example : (run MemFam.step (fromBytes [1, 2, 3]) [.read 0 2, .readAt 0 2 0, .readAt 0 2 2, .readAt 0 0 99,
      .readAt 0 1 (-4), .read 0 1]).2 =
    [.read [1, 2] none, .read [1, 2] none, .read [3] (some .eof), .read [] none,
      .read [] (some (.negReadAt (-4))), .read [3] none] := by decide

/-- **C04 deviation.** The empty Body does not reject negative offsets: `FromBytes(nil).ReadAt(p, -1)`
reports `io.EOF`, for every non-empty `p`. -/
theorem C04_empty_negative_offset (k : Nat) (hk : 0 < k) :
    (run MemFam.step (fromBytes []) [.readAt 0 k (-1)]).2 = [.read [] (some .eof)] := by
  simp [fromBytes, emptyFam, run, MemFam.step, EmptyBody.step, EmptyBody.readAt, Op.h, hk]

/-! ## C05 (bytes, empty and the closed Body) -/

/-- The body with handle `h` exists and is closed. -/
def MemFam.closedAt : MemFam → Nat → Prop
  | .empty s, h => ∃ b, s[h]? = some b ∧ b.closed = true
  | .bytes s, h => ∃ b, s[h]? = some b ∧ b.closed = true

theorem closedAt_step (s : MemFam) (h : Nat) (op : Op) (hc : s.closedAt h) : (s.step op).1.closedAt h := by
  cases s with
  | empty s =>
    obtain ⟨b, hb, hcl⟩ := hc
    simp only [MemFam.step, EmptyBody.step]
    cases hop : s[op.h]? with
    | none => exact ⟨b, hb, hcl⟩
    | some b' =>
      have keep : ∀ b'' : EmptyBody, (b'.closed = true → b''.closed = true) →
          MemFam.closedAt (.empty (s.set op.h b'')) h := by
        intro b'' hk
        by_cases he : op.h = h
        · rw [he] at hop; rw [hb] at hop; cases hop
          exact ⟨b'', by rw [he]; exact set_get hb, hk hcl⟩
        · exact ⟨b, by rw [List.getElem?_set_ne he]; exact hb, hcl⟩
      have app : ∀ b'' : EmptyBody, MemFam.closedAt (.empty (s ++ [b''])) h := by
        intro b''
        refine ⟨b, ?_, hcl⟩
        obtain ⟨h', _⟩ := List.getElem?_eq_some_iff.1 hb
        rw [List.getElem?_append_left h']; exact hb
      cases op with
      | read i k => exact keep _ (by intro hh; simp [EmptyBody.read, hh])
      | seek i off wh => exact keep _ (by intro hh; simp [EmptyBody.seek, hh])
      | close i => exact keep _ (by intro hh; simp [EmptyBody.close, hh])
      | copy i => simp only; split; exact ⟨b, hb, hcl⟩; exact app _
      | readAt => exact ⟨b, hb, hcl⟩
      | remaining => exact ⟨b, hb, hcl⟩
      | writeTo => exact ⟨b, hb, hcl⟩
      | unwrap => exact ⟨b, hb, hcl⟩
  | bytes s =>
    obtain ⟨b, hb, hcl⟩ := hc
    simp only [MemFam.step, BytesBody.step]
    cases hop : s[op.h]? with
    | none => exact ⟨b, hb, hcl⟩
    | some b' =>
      have keep : ∀ b'' : BytesBody, (b'.closed = true → b''.closed = true) →
          MemFam.closedAt (.bytes (s.set op.h b'')) h := by
        intro b'' hk
        by_cases he : op.h = h
        · rw [he] at hop; rw [hb] at hop; cases hop
          exact ⟨b'', by rw [he]; exact set_get hb, hk hcl⟩
        · exact ⟨b, by rw [List.getElem?_set_ne he]; exact hb, hcl⟩
      have app : ∀ b'' : BytesBody, MemFam.closedAt (.bytes (s ++ [b''])) h := by
        intro b''
        refine ⟨b, ?_, hcl⟩
        obtain ⟨h', _⟩ := List.getElem?_eq_some_iff.1 hb
        rw [List.getElem?_append_left h']; exact hb
      cases op with
      | read i k => exact keep _ (by intro hh; simp [BytesBody.read, hh])
      | seek i off wh => exact keep _ (by intro hh; simp [BytesBody.seek, hh])
      | close i => exact keep _ (by intro hh; simp [BytesBody.close, hh])
      | writeTo i w => exact keep _ (by intro hh; simp [BytesBody.writeTo, hh])
      | copy i => simp only; split; exact ⟨b, hb, hcl⟩; exact app _
      | readAt => exact ⟨b, hb, hcl⟩
      | remaining => exact ⟨b, hb, hcl⟩
      | unwrap => exact ⟨b, hb, hcl⟩

theorem closedAt_close (s : MemFam) (h : Nat) (he : Spec.Exists MemFam.step s h) :
    (s.step (.close h)).1.closedAt h := by
  cases s with
  | empty s =>
    simp only [Spec.Exists, MemFam.step, EmptyBody.step, Op.h] at he ⊢
    cases hb : s[h]? with
    | none => simp [hb] at he
    | some b =>
      refine ⟨_, set_get hb, ?_⟩
      simp only [EmptyBody.close]; split <;> simp_all
  | bytes s =>
    simp only [Spec.Exists, MemFam.step, BytesBody.step, Op.h] at he ⊢
    cases hb : s[h]? with
    | none => simp [hb] at he
    | some b =>
      refine ⟨_, set_get hb, ?_⟩
      simp only [BytesBody.close]; split <;> simp_all

/-- What `BytesBody.bytesRemaining` answers on a closed empty body is 0 as well. -/
theorem inert_of_closedAt (s : MemFam) (h : Nat) (hc : s.closedAt h) :
    Inert MemFam.step true true s h := by
  cases s with
  | empty s =>
    obtain ⟨b, hb, hcl⟩ := hc
    refine ⟨?_, ?_, ?_, ?_, ?_, ?_, ?_, ?_, ?_⟩
    · intro op hop
      cases op <;> simp only [Op.h] at hop <;> subst hop <;>
        simp [MemFam.step, EmptyBody.step, Op.h, hb, hcl, EmptyBody.read, EmptyBody.seek, EmptyBody.close,
          set_self hb]
    all_goals
      intros
      simp [MemFam.step, EmptyBody.step, Op.h, hb, hcl, EmptyBody.read, EmptyBody.readAt, EmptyBody.seek,
        EmptyBody.close, EmptyBody.writeTo, EmptyBody.bytesRemaining]
  | bytes s =>
    obtain ⟨b, hb, hcl⟩ := hc
    refine ⟨?_, ?_, ?_, ?_, ?_, ?_, ?_, ?_, ?_⟩
    · intro op hop
      cases op <;> simp only [Op.h] at hop <;> subst hop <;>
        simp [MemFam.step, BytesBody.step, Op.h, hb, hcl, BytesBody.read, BytesBody.seek, BytesBody.close,
          BytesBody.writeTo, set_self hb]
    all_goals
      intros
      simp [MemFam.step, BytesBody.step, Op.h, hb, hcl, BytesBody.read, BytesBody.readAt, BytesBody.seek,
        BytesBody.close, BytesBody.writeTo, BytesBody.bytesRemaining]

theorem closedAt_run (s : MemFam) (h : Nat) (hc : s.closedAt h) (ops : List Op) :
    (run MemFam.step s ops).1.closedAt h :=
  run_inv MemFam.step (fun s => s.closedAt h) (fun s op => closedAt_step s h op) s hc ops

/-- **C05** for bytes-backed and empty Bodies: whatever happened before (`ops`), once `Close` was
called on an existing Body it is inert after every continuation (`ops'`): it gives the answers of a
closed Body, and no call on it changes anything (so no other Body is affected either). -/
theorem C05_closed_inert_mem (data : List Byte) (ops ops' : List Op) (h : Nat)
    (he : Spec.Exists MemFam.step (run MemFam.step (fromBytes data) ops).1 h) :
    Inert MemFam.step true true
      (run MemFam.step (MemFam.step (run MemFam.step (fromBytes data) ops).1 (.close h)).1 ops').1 h :=
  inert_of_closedAt _ _ (closedAt_run _ _ (closedAt_close _ _ he) _)

example : Spec.Exists MemFam.step (run MemFam.step (fromBytes [1, 2]) [.copy 0, .close 0]).1 1 ∧
    Spec.Exists MemFam.step (run MemFam.step (fromBytes []) [.read 0 1]).1 0 := by
  refine ⟨?_, ?_⟩ <;> unfold Spec.Exists <;> decide

/-- **C05** for `AlreadyClosed()`: inert from the start. -/
theorem C05_alreadyClosed (s : ClosedBody) (ops : List Op) (h : Nat) :
    Inert ClosedBody.step true true (run ClosedBody.step s ops).1 h := by
  refine ⟨?_, ?_, ?_, ?_, ?_, ?_, ?_, ?_, ?_⟩
  · intro op _; cases op <;> rfl
  all_goals intros; rfl

/-- `closedFam` answers every call as `AlreadyClosed()` does, and stays as it is. -/
theorem closedFam_step (op : Op) (h0 : op.h = 0) : closedFam.step op = (closedFam, (ClosedBody.step {} op).2) := by
  cases op <;> simp only [Op.h] at h0 <;> subst h0 <;> rfl

/-! ## C06 -/

/-- **C06**, for histories in which no `WriteTo` writer stopped part-way: `BytesRemaining` is exactly
the number of bytes that reading the Body would deliver. -/
theorem C06_remaining_exact_partial (data : List Byte) (hlen : data.length < 2 ^ 63) (ops : List Op)
    (hv : ∀ op ∈ ops, op.Valid ∧ (data = [] → op.EmptyOk)) (hnp : ∀ op ∈ ops, NoPartialWrite op)
    (h : Nat) (he : Spec.Exists MemFam.step (run MemFam.step (fromBytes data) ops).1 h) :
    RemainingExact MemFam.step (run MemFam.step (fromBytes data) ops).1 h := by
  obtain ⟨f, _, _, hft, hR⟩ := mem_after data hlen ops hv
  exact remainingExact_of_refines hR goOut_ne_hang (hft hnp) (by intro ch h; subst h; exact ⟨rfl, rfl⟩)
    (by simp [Op.Valid, Op.EmptyOk]) (by simp [Op.Valid, Op.EmptyOk]) he

example : ∀ op ∈ ([.read 0 1, .copy 0, .writeTo 1 (fun d => .ok (d.length, none)), .seek 1 1 0] : List Op),
    NoPartialWrite op := by
  intro op hop; simp at hop
  rcases hop with rfl | rfl | rfl | rfl <;> simp [NoPartialWrite]
example : (run MemFam.step (fromBytes [1, 2, 3]) [.read 0 1, .copy 0,
    .writeTo 1 (fun d => .ok (d.length, none)), .remaining 0, .remaining 1]).2.drop 3 =
    [.remaining 2, .remaining 0] := by decide

/-- **C06 is false of the code** in general: after a `WriteTo` whose writer accepted 1 of 3 bytes
(with an error), `BytesRemaining` answers 2 but no sequence of Reads delivers anything. -/
theorem C06_false_after_partial_write :
    let s := (run MemFam.step (fromBytes [1, 2, 3]) [.writeTo 0 (fun _ => .ok (1, some (.ext 0)))]).1
    (MemFam.step s (.remaining 0)).2 = .remaining 2 ∧
    (∀ ks : List Nat, delivered (run MemFam.step s (ks.map (Op.read 0))).2 = []) ∧
    ¬ RemainingExact MemFam.step s 0 := by
  intro s
  have hs : s = .bytes [{ data := [1, 2, 3], offset := 1, eof := true }] := by decide
  have h1 : (MemFam.step s (.remaining 0)).2 = .remaining 2 := by rw [hs]; decide
  have h2 : ∀ ks : List Nat, delivered (run MemFam.step s (ks.map (Op.read 0))).2 = [] := by
    intro ks
    rw [hs]
    induction ks with
    | nil => rfl
    | cons k ks ih =>
      simp only [List.map_cons, run_cons]
      simpa [MemFam.step, BytesBody.step, Op.h, BytesBody.read, delivered] using ih
  refine ⟨h1, h2, ?_⟩
  intro ⟨n, hn, hd⟩
  rw [h1] at hn
  have := hd [1]
  rw [h2] at this
  simp at hn this
  omega

/-! ## C07 -/

/-- The call neither seeks nor closes Body `h`. -/
def Op.NotSeekOrClose (h : Nat) : Op → Prop
  | .seek h' _ _ | .close h' => h' ≠ h
  | _ => True

/-- Body `h` is a bytes body that has reported its end and is open. -/
def Drained (s : MemFam) (h : Nat) : Prop :=
  match s with
  | .empty _ => False
  | .bytes s => ∃ b, s[h]? = some b ∧ b.closed = false ∧ b.eof = true

theorem drained_step (s : MemFam) (h : Nat) (op : Op) (hop : op.NotSeekOrClose h) (hd : Drained s h) :
    Drained (s.step op).1 h := by
  cases s with
  | empty s => exact hd
  | bytes s =>
    obtain ⟨b, hb, hcl, he⟩ := hd
    simp only [MemFam.step, BytesBody.step]
    cases hg : s[op.h]? with
    | none => exact ⟨b, hb, hcl, he⟩
    | some b' =>
      have keep : ∀ b'' : BytesBody, (b' = b → op.h = h → b'' = b) → Drained (.bytes (s.set op.h b'')) h := by
        intro b'' hk
        by_cases heq : op.h = h
        · rw [heq] at hg; rw [hb] at hg; cases hg
          rw [hk rfl heq, heq]
          exact ⟨b, set_get hb, hcl, he⟩
        · exact ⟨b, by rw [List.getElem?_set_ne heq]; exact hb, hcl, he⟩
      cases op with
      | read i k => exact keep _ (by rintro rfl _; simp [BytesBody.read, hcl, he])
      | seek i off wh => exact keep _ (by intro _ hh; exact absurd hh hop)
      | close i => exact keep _ (by intro _ hh; exact absurd hh hop)
      | writeTo i w => exact keep _ (by rintro rfl _; simp [BytesBody.writeTo, hcl, he])
      | copy i =>
        simp only
        split
        · exact ⟨b, hb, hcl, he⟩
        · refine ⟨b, ?_, hcl, he⟩
          obtain ⟨h', _⟩ := List.getElem?_eq_some_iff.1 hb
          rw [List.getElem?_append_left h']; exact hb
      | readAt => exact ⟨b, hb, hcl, he⟩
      | remaining => exact ⟨b, hb, hcl, he⟩
      | unwrap => exact ⟨b, hb, hcl, he⟩

theorem drained_run (s : MemFam) (h : Nat) (ops : List Op) (hd : Drained s h)
    (hop : ∀ op ∈ ops, op.NotSeekOrClose h) : Drained (run MemFam.step s ops).1 h := by
  induction ops generalizing s with
  | nil => exact hd
  | cons op ops ih =>
    rw [run_cons]
    exact ih _ (drained_step s h op (hop op (by simp)) hd) (fun o m => hop o (by simp [m]))

theorem drained_answers (s : MemFam) (h : Nat) (hd : Drained s h) :
    (∀ k, (MemFam.step s (.read h k)).2 = .read [] (some .eof)) ∧
    (∀ w', (MemFam.step s (.writeTo h w')).2 = .wrote none 0 none) := by
  cases s with
  | empty s => exact hd.elim
  | bytes s =>
    obtain ⟨b, hb, hcl, he⟩ := hd
    refine ⟨?_, ?_⟩ <;> intro x <;>
      simp [MemFam.step, BytesBody.step, Op.h, hb, BytesBody.read, BytesBody.writeTo, hcl, he]

/-- **C07.** On an open bytes-backed Body that has not reported the end (a zero-length `Read` returns
no error): `WriteTo` hands the writer exactly the remaining bytes in one `Write`.  If the writer's
count `n` is possible, `WriteTo` returns the writer's answer, the cursor advances by `n`, and as long
as no `Seek` or `Close` on that Body happens every `Read` reports `io.EOF` and every further `WriteTo`
writes nothing and succeeds.  If the count is impossible, or the writer panics, `WriteTo` panics and
nothing changes. -/
theorem C07_writeTo_drains (data : List Byte) (hne : data ≠ []) (hlen : data.length < 2 ^ 63)
    (ops : List Op) (hv : ∀ op ∈ ops, op.Valid) (h : Nat) (w : WriteFn)
    (ho : IsOpen MemFam.step (run MemFam.step (fromBytes data) ops).1 h)
    (hne0 : (MemFam.step (run MemFam.step (fromBytes data) ops).1 (.read h 0)).2 = .read [] none) :
    let s := (run MemFam.step (fromBytes data) ops).1
    let s' := (MemFam.step s (.writeTo h w)).1
    ∃ q : Nat, q ≤ data.length ∧ (MemFam.step s (.remaining h)).2 = .remaining (data.length - q : Int) ∧
      let d := data.drop q
      match w d with
      | .panics p => (MemFam.step s (.writeTo h w)).2 = .panic p ∧ s' = s
      | .ok (n, err) =>
        if 0 ≤ n ∧ n ≤ d.length then
          (MemFam.step s (.writeTo h w)).2 = .wrote (some d) n err ∧
          (MemFam.step s' (.remaining h)).2 = .remaining (data.length - q - n) ∧
          ∀ ops' : List Op, (∀ op ∈ ops', op.NotSeekOrClose h) →
            let t := (run MemFam.step s' ops').1
            (∀ k, (MemFam.step t (.read h k)).2 = .read [] (some .eof)) ∧
            (∀ w', (MemFam.step t (.writeTo h w')).2 = .wrote none 0 none)
        else (MemFam.step s (.writeTo h w)).2 = .panic .badWriter ∧ s' = s := by
  obtain ⟨f, hM, hf, _, hR⟩ := mem_after data hlen ops (fun op m => ⟨hv op m, fun e => absurd e hne⟩)
  intro s s'
  change MemRel data s f at hM
  change IsOpen MemFam.step s h at ho
  change (MemFam.step s (.read h 0)).2 = _ at hne0
  obtain ⟨m, hm⟩ := ho
  clear_value s
  cases s with
  | empty s => exact absurd hM.1 hne
  | bytes s =>
    clear hR hf
    obtain ⟨_, hP⟩ := hM
    simp only [MemFam.step, BytesBody.step, Op.h] at hm hne0
    cases hb : s[h]? with
    | none => simp [hb] at hm
    | some b =>
      simp only [hb] at hm hne0
      have hcl : b.closed = false := by
        cases hh : b.closed <;> simp [hh] at hm ⊢
      obtain ⟨c, hc, hrel⟩ := hP.get hb
      obtain ⟨hopen, hrest⟩ := hrel
      obtain ⟨r1, r2, r3, r4, r5⟩ := hrest hcl
      have heof : b.eof = false := by
        cases hh : b.eof with
        | false => rfl
        | true => simp [BytesBody.read, hcl, hh] at hne0
      have hq : b.offset = (c.pos : Int) := r3
      have hgs : goSlice b.data b.offset (b.data.length : Int) = some (data.drop c.pos) := by
        rw [r1, hq, goSlice_eq _ _ _ (by omega)]
        congr 1
        rw [List.take_of_length_le]
        · simp
        · simp
      refine ⟨c.pos, r4, ?_, ?_⟩
      · simp [MemFam.step, BytesBody.step, Op.h, hb, BytesBody.bytesRemaining, hcl, r1, hq]
      · simp only
        have hlenD : ((data.drop c.pos).length : Int) = data.length - c.pos := by simp; omega
        rcases hw : w (data.drop c.pos) with ⟨n, err⟩ | p
        · simp only
          by_cases hn : 0 ≤ n ∧ n ≤ ((data.drop c.pos).length : Int)
          · rw [if_pos hn]
            have hstep : MemFam.step (.bytes s) (.writeTo h w) =
                (.bytes (s.set h { b with offset := b.offset + n, eof := true }), .wrote (some (data.drop c.pos)) n err) := by
              have h1 : n ≤ (b.data.length : Int) - b.offset := by rw [r1, hq]; omega
              simp only [MemFam.step, BytesBody.step, Op.h, hb, BytesBody.writeTo, hcl, heof, hgs, hw]
              simp [hn.1, h1]
            have hs' : s' = .bytes (s.set h { b with offset := b.offset + n, eof := true }) := by
              show (MemFam.step (.bytes s) (.writeTo h w)).1 = _
              rw [hstep]
            refine ⟨by rw [hstep], ?_, ?_⟩
            · rw [hs']
              simp only [MemFam.step, BytesBody.step, Op.h, set_get hb]
              simp [BytesBody.bytesRemaining, hcl, r1, hq]
              omega
            · intro ops' hops'
              have : Drained (run MemFam.step s' ops').1 h := by
                apply drained_run _ _ _ _ hops'
                rw [hs']
                exact ⟨_, set_get hb, hcl, rfl⟩
              exact drained_answers _ _ this
          · rw [if_neg hn]
            have hstep : MemFam.step (.bytes s) (.writeTo h w) = (.bytes s, .panic .badWriter) := by
              simp only [MemFam.step, BytesBody.step, Op.h, hb, BytesBody.writeTo, hcl, heof, hgs, hw]
              by_cases h0 : 0 ≤ n
              · have h1 : ¬ n ≤ (b.data.length : Int) - b.offset := by
                  rw [r1, hq]; omega
                simp [h0, h1, set_self hb]
              · simp [h0, set_self hb]
            refine ⟨by rw [hstep], ?_⟩
            show (MemFam.step (.bytes s) (.writeTo h w)).1 = _
            rw [hstep]
        · have hstep : MemFam.step (.bytes s) (.writeTo h w) = (.bytes s, .panic p) := by
            simp only [MemFam.step, BytesBody.step, Op.h, hb, BytesBody.writeTo, hcl, heof, hgs, hw]
            simp [set_self hb]
          refine ⟨by rw [hstep], ?_⟩
          show (MemFam.step (.bytes s) (.writeTo h w)).1 = _
          rw [hstep]

example : IsOpen MemFam.step (run MemFam.step (fromBytes [1, 2, 3]) [.read 0 1]).1 0 ∧
    (MemFam.step (run MemFam.step (fromBytes [1, 2, 3]) [.read 0 1]).1 (.read 0 0)).2 = .read [] none ∧
    (run MemFam.step (fromBytes [1, 2, 3]) [.read 0 1, .writeTo 0 (fun d => .ok (d.length, none)), .read 0 5,
      .writeTo 0 (fun d => .ok (d.length, none)), .seek 0 0 0, .read 0 3]).2.drop 1 =
      [.wrote (some [2, 3]) 2 none, .read [] (some .eof), .wrote none 0 none, .seek 0 none,
        .read [1, 2, 3] none] :=
  ⟨⟨1, by decide⟩, by decide, by decide⟩

/-- A writer that panics takes nothing from the Body. -/
example : (run MemFam.step (fromBytes [1, 2, 3]) [.read 0 1, .writeTo 0 (fun _ => .panics (.value 7)), .remaining 0,
      .writeTo 0 (fun d => .ok (d.length, none))]).2 =
    [.read [1] none, .panic (.value 7), .remaining 2, .wrote (some [2, 3]) 2 none] := by decide

/-! ## C08 (the `WriteTo` side; `io.Copy` itself is in `Props/Serve.lean`) -/

/-- **C08 is false of the code** already at `WriteTo`: on an open empty Body it returns the error
`io.EOF` (the `io.WriterTo` contract reserves errors for failures), whatever the writer. -/
theorem C08_empty_writeTo_reports_eof (w : WriteFn) :
    (run MemFam.step (fromBytes []) [.writeTo 0 w]).2 = [.wrote none 0 (some .eof)] := by
  simp [fromBytes, emptyFam, run, MemFam.step, EmptyBody.step, EmptyBody.writeTo, Op.h]

end Verif
