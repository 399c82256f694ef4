import Verif.Proofs.Writer

/-!
# Properties of the Writer: C37 (status), C38 (byte count), C39 (SawError), C40 (capabilities)

The wrapped ResponseWriter `N` is arbitrary (it may also panic, hang or return impossible counts); `N.record` is the same
writer keeping a log of the calls it gets.  Histories are arbitrary lists of calls on the Writer.
-/

set_option autoImplicit false

namespace Verif
open Spec
variable {ω : Type}

/-- The Writer after a history of calls. -/
def Writer.after (N : RW ω) (raises : Bool) (kind : WKind) (fuel : Nat) (w : ω) (isHEAD : Bool) (ops : List WOp) :
    WState (Logged WEv ω) :=
  (run (Writer.step N.record raises kind fuel) (Writer.init ⟨w, []⟩ isHEAD) ops).1

theorem writer_run (N : RW ω) (raises : Bool) (kind : WKind) (fuel : Nat) (s : WState (Logged WEv ω)) (hs : WInvariant s)
    (ops : List WOp) : WInvariant (run (Writer.step N.record raises kind fuel) s ops).1 ∧
      (run (Writer.step N.record raises kind fuel) s ops).1.isHEAD = s.isHEAD := by
  induction ops generalizing s with
  | nil => exact ⟨hs, rfl⟩
  | cons op ops ih =>
    obtain ⟨h1, h2, h3⟩ := writer_step N raises kind fuel s hs op
    obtain ⟨i1, i2⟩ := ih _ h1
    exact ⟨i1, i2.trans h2⟩

theorem writer_after_inv (N : RW ω) (raises : Bool) (kind : WKind) (fuel : Nat) (w : ω) (isHEAD : Bool) (ops : List WOp) :
    WInvariant (Writer.after N raises kind fuel w isHEAD ops) :=
  (writer_run N raises kind fuel _ (winvariant_init w isHEAD) ops).1

/-! A writer used in the examples: accepts everything, has every optional interface; its `ReadFrom` reads once. -/

def exRW : RW Unit where
  setHeader w _ _ := w
  writeHeader w _ := (w, .ret ())
  write w d := (w, .ret (d.length, none))
  flush w := (w, .ret ())
  push w _ := (w, .ret none)
  readFrom w := .read w 512 fun d e => .done w d.length (if e = some .eof then none else e)
  isPusher := true
  isReaderFrom := true
  isFlusher := true
  isCloseNotifier := true
  isHijacker := true

/-! ## C37 -/

/-- **C37.** After every history of calls, the wrapped ResponseWriter received `WriteHeader` at most once, and before any
`Write`, `ReadFrom` or `Flush`; `Status` is 0 if it received none, and otherwise the code it received, which is legal. -/
theorem C37_status_once_and_first (N : RW ω) (raises : Bool) (kind : WKind) (fuel : Nat) (w : ω) (isHEAD : Bool)
    (ops : List WOp) :
    StatusFirst (Writer.after N raises kind fuel w isHEAD ops).next.log ∧
    (((Writer.after N raises kind fuel w isHEAD ops).status = 0 ∧
        statuses (Writer.after N raises kind fuel w isHEAD ops).next.log = []) ∨
      (100 ≤ (Writer.after N raises kind fuel w isHEAD ops).status ∧
        (Writer.after N raises kind fuel w isHEAD ops).status ≤ 999 ∧
        statuses (Writer.after N raises kind fuel w isHEAD ops).next.log =
          [(Writer.after N raises kind fuel w isHEAD ops).status])) :=
  ⟨(writer_after_inv N raises kind fuel w isHEAD ops).first, (writer_after_inv N raises kind fuel w isHEAD ops).status⟩

example : (Writer.after exRW false .fancy 5 () false [.setHeader [65] [[66]], .write [1, 2], .writeHeader 404, .flush]).next.log
    = [.set [65] [[66]], .status 200, .write [1, 2] (.ret (2, none)), .flush] := by decide +kernel

/-- **C37.** What `StatusFirst` says of every `Write`, `ReadFrom` and `Flush`: a status was sent before. -/
theorem C37_before {log : List WEv} (h : StatusFirst log) {i : Nat} {e : WEv} (hi : log[i]? = some e)
    (he : e = .flush ∨ e = .readFrom ∨ ∃ d r, e = .write d r) : ∃ j c, j < i ∧ log[j]? = some (.status c) := by
  obtain ⟨pre, post, rfl, h1, -, h2⟩ := h
  have hs : sends e = true := by rcases he with rfl | rfl | ⟨d, r, rfl⟩ <;> rfl
  have hlt : pre.length ≤ i := by
    rcases Nat.lt_or_ge i pre.length with hl | hl
    · rw [List.getElem?_append_left hl] at hi
      rw [h1 e (List.mem_of_getElem? hi)] at hs
      cases hs
    · exact hl
  rw [List.getElem?_append_right hlt] at hi
  rcases h2 with rfl | ⟨c, rest, rfl, -⟩
  · simp at hi
  · refine ⟨pre.length, c, ?_, by simp⟩
    rcases Nat.lt_or_ge pre.length i with hl | hl
    · exact hl
    · rw [show i - pre.length = 0 by omega] at hi
      have : WEv.status c = e := by simpa using hi
      subst this
      cases hs

/-- **C37.** An explicit `WriteHeader` with a legal code after the status was sent is not forwarded, sets `SawError` and
changes nothing else (it may panic, depending on what `assert.Raisef` does). -/
theorem C37_repeated (N : RW ω) (raises : Bool) (kind : WKind) (fuel : Nat) (w : ω) (isHEAD : Bool) (ops : List WOp)
    (code : Int) (h1 : 100 ≤ code) (h2 : code ≤ 999)
    (h3 : statuses (Writer.after N raises kind fuel w isHEAD ops).next.log ≠ []) :
    Writer.step N.record raises kind fuel (Writer.after N raises kind fuel w isHEAD ops) (.writeHeader code) =
      ({ Writer.after N raises kind fuel w isHEAD ops with sawError := true },
        .unit (if raises then .panic .badArg else .ret ())) := by
  have h0 : (Writer.after N raises kind fuel w isHEAD ops).status ≠ 0 := by
    intro h
    rcases (writer_after_inv N raises kind fuel w isHEAD ops).status with h' | h'
    · exact h3 h'.2
    · omega
  simp only [Writer.step, Writer.writeHeader]
  rw [if_neg (by omega), if_neg (by omega), if_pos h0]

example : statuses (Writer.after exRW true .basic 5 () true [.writeHeader 204]).next.log ≠ [] := by decide +kernel

/-- **C37.** The first explicit or implicit status is forwarded as it is. -/
theorem C37_first (N : RW ω) (raises : Bool) (kind : WKind) (fuel : Nat) (w : ω) (isHEAD : Bool) (ops : List WOp)
    (code : Int) (h1 : 100 ≤ code) (h2 : code ≤ 999)
    (h3 : statuses (Writer.after N raises kind fuel w isHEAD ops).next.log = []) :
    (Writer.after N raises kind fuel w isHEAD (ops ++ [.writeHeader code])).next.log =
        (Writer.after N raises kind fuel w isHEAD ops).next.log ++ [.status code] ∧
    (Writer.after N raises kind fuel w isHEAD (ops ++ [.writeHeader code])).status = code := by
  have h0 : (Writer.after N raises kind fuel w isHEAD ops).status = 0 := by
    rcases (writer_after_inv N raises kind fuel w isHEAD ops).status with h' | h'
    · exact h'.1
    · rw [h3] at h'; simp at h'
  have e : Writer.after N raises kind fuel w isHEAD (ops ++ [.writeHeader code]) =
      (Writer.step N.record raises kind fuel (Writer.after N raises kind fuel w isHEAD ops) (.writeHeader code)).1 := by
    simp only [Writer.after, run_append]; rfl
  rw [e]
  simp only [Writer.step, Writer.writeHeader]
  rw [if_neg (by omega), if_neg (by omega), if_neg (by simp [h0])]
  exact ⟨rfl, rfl⟩

/-- **C37.** Codes outside 100..999 make `WriteHeader` and `MaybeWriteHeader` panic, without any effect. -/
theorem C37_out_of_range (N : RW ω) (raises : Bool) (kind : WKind) (fuel : Nat) (s : WState ω) (code : Int)
    (h : code < 100 ∨ 999 < code) :
    Writer.step N raises kind fuel s (.writeHeader code) = (s, .unit (.panic .badArg)) ∧
    Writer.step N raises kind fuel s (.maybeWriteHeader code) = (s, .unit (.panic .badArg)) := by
  simp only [Writer.step, Writer.writeHeader, Writer.maybeWriteHeader]
  by_cases h1 : code ≥ 100
  · have h2 : ¬ code ≤ 999 := by omega
    simp [h1, h2]
  · simp [h1]

example : Writer.step exRW false .basic 5 (Writer.init () false) (.writeHeader 0) = (Writer.init () false, .unit (.panic .badArg)) :=
  (C37_out_of_range exRW false .basic 5 _ 0 (by decide)).1

/-! ## C38 -/

/-- **C38.** After every history, `BytesWritten` is the sum of the counts the wrapped writer's `Write` and `ReadFrom`
returned (those which are not negative: a negative count makes the Writer panic). -/
theorem C38_bytes_written (N : RW ω) (raises : Bool) (kind : WKind) (fuel : Nat) (w : ω) (isHEAD : Bool) (ops : List WOp) :
    (Writer.after N raises kind fuel w isHEAD ops).bytes =
      accepted (Writer.after N raises kind fuel w isHEAD ops).next.log :=
  (writer_after_inv N raises kind fuel w isHEAD ops).bytes

example : (Writer.after exRW false .fancy 5 () false [.write [1, 2], .readFrom [.ret ([3, 4, 5], some .eof)]]).bytes = 5 := by
  decide +kernel

/-- **C38.** For HEAD requests, and once the status is 204, nothing of a body has been or ever will be forwarded. -/
theorem C38_no_body (N : RW ω) (raises : Bool) (kind : WKind) (fuel : Nat) (w : ω) (isHEAD : Bool) (ops : List WOp)
    (h : isHEAD = true ∨ 204 ∈ statuses (Writer.after N raises kind fuel w isHEAD ops).next.log) :
    (∀ e ∈ (Writer.after N raises kind fuel w isHEAD ops).next.log, passesBody e = false) ∧
    (Writer.after N raises kind fuel w isHEAD ops).bytes = 0 := by
  have hi := writer_after_inv N raises kind fuel w isHEAD ops
  have hd : (Writer.after N raises kind fuel w isHEAD ops).isHEAD = isHEAD :=
    (writer_run N raises kind fuel _ (winvariant_init w isHEAD) ops).2
  have hn : ∀ e ∈ (Writer.after N raises kind fuel w isHEAD ops).next.log, passesBody e = false := by
    apply hi.nobody
    rcases h with h | h
    · exact .inl (hd.trans h)
    · right
      rcases hi.status with h' | h'
      · rw [h'.2] at h; simp at h
      · rw [h'.2.2] at h; have := List.mem_singleton.1 h; exact this.symm
  refine ⟨hn, ?_⟩
  rw [hi.bytes]
  generalize (Writer.after N raises kind fuel w isHEAD ops).next.log = l at hn
  clear hi hd h
  induction l with
  | nil => rfl
  | cons e l ih =>
    have he := hn e (by simp)
    have := ih (fun x hx => hn x (by simp [hx]))
    cases e <;> simp_all [passesBody, accepted]

example : (Writer.after exRW false .fancy 5 () false [.writeHeader 204, .write [1], .readFrom [.ret ([2], none)], .flush]).next.log
    = [.status 204, .flush] := by decide +kernel

/-- **C38.** In that situation `Write` reports complete success — the only exception being a wrapped writer that does not
return from the `WriteHeader(200)` that a first `Write` of a HEAD request implies. -/
theorem C38_write_succeeds (N : RW ω) (raises : Bool) (kind : WKind) (fuel : Nat) (w : ω) (isHEAD : Bool) (ops : List WOp)
    (h : isHEAD = true ∨ 204 ∈ statuses (Writer.after N raises kind fuel w isHEAD ops).next.log)
    (hr : statuses (Writer.after N raises kind fuel w isHEAD ops).next.log ≠ [] ∨
      (N.writeHeader (Writer.after N raises kind fuel w isHEAD ops).next.inner 200).2 = .ret ()) (p : List Byte) :
    (Writer.step N.record raises kind fuel (Writer.after N raises kind fuel w isHEAD ops) (.write p)).2 =
      .count (.ret (p.length, none)) := by
  have hi := writer_after_inv N raises kind fuel w isHEAD ops
  have hd : (Writer.after N raises kind fuel w isHEAD ops).isHEAD = isHEAD :=
    (writer_run N raises kind fuel _ (winvariant_init w isHEAD) ops).2
  generalize Writer.after N raises kind fuel w isHEAD ops = s at *
  simp only [Writer.step, Writer.write, Writer.maybeWriteHeader]
  by_cases h0 : s.status = 0
  · have hst : statuses s.next.log = [] := by
      rcases hi.status with h' | h'
      · exact h'.2
      · omega
    have hr : (N.writeHeader s.next.inner 200).2 = .ret () := by simpa [hst] using hr
    have hh : isHEAD = true := by simpa [hst] using h
    simp [h0, Writer.writeHeaderImpl, RW.record, hr, hd, hh]
  · have : s.isHEAD = true ∨ s.status = 204 := by
      rcases h with h | h
      · exact .inl (hd.trans h)
      · right
        rcases hi.status with h' | h'
        · exact absurd h'.1 h0
        · rw [h'.2.2] at h; have := List.mem_singleton.1 h; exact this.symm
    rcases this with h | h <;> simp [h0, h]

/-- **C38.** Otherwise a `Write` passes all its bytes on, in one `Write`, and returns the wrapped writer's answer. -/
theorem C38_write_forwards (N : RW ω) (raises : Bool) (kind : WKind) (fuel : Nat) (w : ω) (ops : List WOp)
    (h : 204 ∉ statuses (Writer.after N raises kind fuel w false ops).next.log)
    (hr : statuses (Writer.after N raises kind fuel w false ops).next.log ≠ []) (p : List Byte) (n : Int) (err : Option Err)
    (ha : (N.write (Writer.after N raises kind fuel w false ops).next.inner p).2 = .ret (n, err)) (hn : 0 ≤ n) :
    (Writer.step N.record raises kind fuel (Writer.after N raises kind fuel w false ops) (.write p)).2 = .count (.ret (n, err)) ∧
    (Writer.step N.record raises kind fuel (Writer.after N raises kind fuel w false ops) (.write p)).1.next.log =
      (Writer.after N raises kind fuel w false ops).next.log ++ [.write p (.ret (n, err))] := by
  have hi := writer_after_inv N raises kind fuel w false ops
  have hd : (Writer.after N raises kind fuel w false ops).isHEAD = false :=
    (writer_run N raises kind fuel _ (winvariant_init w false) ops).2
  generalize Writer.after N raises kind fuel w false ops = s at *
  have h0 : s.status ≠ 0 := by
    intro h0
    rcases hi.status with h' | h'
    · exact hr h'.2
    · omega
  have h4 : s.status ≠ 204 := by
    intro h4
    rcases hi.status with h' | h'
    · omega
    · apply h; rw [h'.2.2, h4]; simp
  have hn' : ¬ n < 0 := by omega
  simp only [Writer.step, Writer.write, Writer.maybeWriteHeader, RW.record]
  rcases hw : N.write s.next.inner p with ⟨w', r⟩
  rw [hw] at ha
  dsimp only at ha
  subst ha
  by_cases he : err = none <;> simp [h0, hd, h4, hw, hn', he]

example : (Writer.step exRW.record false .basic 5 (Writer.after exRW false .basic 5 () false [.writeHeader 404]) (.write [7, 8])).2
    = .count (.ret (2, none)) :=
  (C38_write_forwards exRW false .basic 5 () [.writeHeader 404] (by decide +kernel) (by decide +kernel) [7, 8] 2 none rfl
    (by decide)).1

/-! ## C39 -/

/-- Some call of the history was an explicit, legal `WriteHeader` after the status had been sent. -/
def HeaderRepeated (N : RW ω) (raises : Bool) (kind : WKind) (fuel : Nat) (w : ω) (isHEAD : Bool) (ops : List WOp) : Prop :=
  ∃ pre code post, ops = pre ++ .writeHeader code :: post ∧ 100 ≤ code ∧ code ≤ 999 ∧
    statuses (Writer.after N raises kind fuel w isHEAD pre).next.log ≠ []

theorem writer_after_snoc (N : RW ω) (raises : Bool) (kind : WKind) (fuel : Nat) (w : ω) (isHEAD : Bool) (ops : List WOp)
    (op : WOp) : Writer.after N raises kind fuel w isHEAD (ops ++ [op]) =
      (Writer.step N.record raises kind fuel (Writer.after N raises kind fuel w isHEAD ops) op).1 := by
  simp only [Writer.after, run_append]; rfl

theorem snoc_induction {α : Type} {P : List α → Prop} (nil : P []) (snoc : ∀ l a, P l → P (l ++ [a])) (l : List α) : P l := by
  rw [← l.reverse_reverse]
  induction l.reverse with
  | nil => exact nil
  | cons a l ih => rw [List.reverse_cons]; exact snoc _ _ ih

theorem saw_iff (N : RW ω) (raises : Bool) (kind : WKind) (fuel : Nat) (w : ω) (isHEAD : Bool) (ops : List WOp) :
    (Writer.after N raises kind fuel w isHEAD ops).sawError = true ↔
      WriteFailed (Writer.after N raises kind fuel w isHEAD ops).next.log ∨
      HeaderRepeated N raises kind fuel w isHEAD ops := by
  induction ops using snoc_induction with
  | nil => simp [Writer.after, run, Writer.init, WriteFailed, HeaderRepeated]
  | snoc ops op ih =>
    rw [writer_after_snoc]
    have hi := writer_after_inv N raises kind fuel w isHEAD ops
    obtain ⟨_, _, ext, h1, h2⟩ := writer_step N raises kind fuel _ hi op
    rw [h2, ih, h1]
    have e1 : ∀ a b : List WEv, WriteFailed (a ++ b) ↔ WriteFailed a ∨ WriteFailed b := by
      intro a b
      simp only [WriteFailed, List.mem_append]
      constructor
      · rintro ⟨d, n, e, h | h, h'⟩
        · exact .inl ⟨d, n, e, h, h'⟩
        · exact .inr ⟨d, n, e, h, h'⟩
      · rintro (⟨d, n, e, h, h'⟩ | ⟨d, n, e, h, h'⟩)
        · exact ⟨d, n, e, .inl h, h'⟩
        · exact ⟨d, n, e, .inr h, h'⟩
    have e2 : HeaderRepeated N raises kind fuel w isHEAD (ops ++ [op]) ↔
        HeaderRepeated N raises kind fuel w isHEAD ops ∨ Repeated (Writer.after N raises kind fuel w isHEAD ops) op := by
      constructor
      · rintro ⟨pre, code, post, h, q1, q2, q3⟩
        rcases List.eq_nil_or_concat post with rfl | ⟨post', x, rfl⟩
        · obtain ⟨rfl, h'⟩ := List.append_inj' h rfl
          simp at h'
          subst h'
          right
          refine ⟨q1, q2, fun h0 => q3 ?_⟩
          rcases hi.status with h' | h'
          · exact h'.2
          · omega
        · left
          refine ⟨pre, code, post', ?_, q1, q2, q3⟩
          have : ops ++ [op] = (pre ++ .writeHeader code :: post') ++ [x] := by simpa using h
          exact (List.append_inj' this rfl).1
      · rintro (⟨pre, code, post, h, q⟩ | h)
        · exact ⟨pre, code, post ++ [op], by simp [h], q⟩
        · cases op <;> simp only [Repeated] at h
          refine ⟨ops, _, [], rfl, h.1, h.2.1, ?_⟩
          rcases hi.status with h' | h'
          · exact absurd h'.1 h.2.2
          · simp [h'.2.2]
    rw [e1, e2]
    constructor
    · rintro ((h | h) | h | h)
      · exact .inl (.inl h)
      · exact .inr (.inl h)
      · exact .inl (.inr h)
      · exact .inr (.inr h)
    · rintro ((h | h) | h | h)
      · exact .inl (.inl h)
      · exact .inr (.inl h)
      · exact .inl (.inr h)
      · exact .inr (.inr h)

/-- **C39, partial.** Full statement: `SawError` is true iff some write to the client failed — by `Write` or by `ReadFrom` —
or `WriteHeader` was called again.  Proved: the same for failures of `Write`.  Missing: failures of `ReadFrom` are not recorded
by the code (`C39_false`). -/
theorem C39_saw_error_partial (N : RW ω) (raises : Bool) (kind : WKind) (fuel : Nat) (w : ω) (isHEAD : Bool) (ops : List WOp) :
    (Writer.after N raises kind fuel w isHEAD ops).sawError = true ↔
      WriteFailed (Writer.after N raises kind fuel w isHEAD ops).next.log ∨
      HeaderRepeated N raises kind fuel w isHEAD ops :=
  saw_iff N raises kind fuel w isHEAD ops

/-- **C39, partial.** For Writers without `ReadFrom` that is all there is: then `SawError` is exact.  (No `ReadFrom` of the
wrapped writer is ever called.) -/
theorem C39_no_readFrom (N : RW ω) (raises : Bool) (kind : WKind) (hk : kind ≠ .fancy) (fuel : Nat) (s : WState (Logged WEv ω))
    (src : Script) : Writer.step N.record raises kind fuel s (.readFrom src) = (s, .unsupported) := by
  simp [Writer.step, hk]

/-- A client connection that breaks: every write fails after no byte. -/
def brokenRW : RW Unit := { exRW with
  write := fun w _ => (w, .ret (0, some (.ext 32)))
  readFrom := fun w => .read w 512 fun _ _ => .done w 0 (some (.ext 32)) }

/-- **C39 is false of the code**: `ReadFrom` failed, the Writer's caller got the error, but `SawError` is false. -/
theorem C39_false : ∃ (N : RW Unit) (ops : List WOp) (d : List Byte) (e : Err),
    (Writer.after N false (Writer.kindFor N) 5 () false ops).next.log =
      [.status 200, .readFrom, .took d, .readFromDone 0 (some e)] ∧ d ≠ [] ∧
    (Writer.after N false (Writer.kindFor N) 5 () false ops).sawError = false :=
  ⟨brokenRW, [.readFrom [.ret ([1, 2, 3], some .eof)]], [1, 2, 3], .ext 32, by decide +kernel⟩

example : WriteFailed (Writer.after brokenRW false .fancy 5 () false [.write [1]]).next.log :=
  ⟨[1], 0, .ext 32, by decide +kernel, by decide⟩
example : HeaderRepeated brokenRW false .fancy 5 () false [.flush, .writeHeader 500] :=
  ⟨[.flush], 500, [], rfl, by decide, by decide, by decide +kernel⟩

/-! ## C40 -/

/-- **C40.** `NewWriter` on a Writer returns that Writer. -/
theorem C40_same (raises isHEAD : Bool) (w : ω) (W : Wr ω) : newWriter raises isHEAD w (.writer W) = .same W w := rfl

/-- **C40.** `NewWriter` on another ResponseWriter makes a fresh Writer around it: nothing sent, nothing counted, no call on
the wrapped writer. -/
theorem C40_wrapped (raises isHEAD : Bool) (w : ω) (N : RW ω) :
    ∃ W s, newWriter raises isHEAD w (.plain N) = .wrapped W s ∧ s.next = w ∧ W.status s = 0 ∧ W.bytesWritten s = 0 ∧
      W.sawError s = false ∧ s.isHEAD = isHEAD :=
  ⟨_, _, rfl, rfl, rfl, rfl, rfl, rfl⟩

/-- **C40.** Its capabilities: `Push` always, `Flush` iff the wrapped writer has it, the other three iff the wrapped writer has
all of them and `Flush`. -/
theorem C40_capabilities (raises : Bool) (N : RW ω) :
    (Writer.ops N raises (Writer.kindFor N)).isPusher = true ∧
    (Writer.ops N raises (Writer.kindFor N)).isFlusher = N.isFlusher ∧
    (Writer.ops N raises (Writer.kindFor N)).isCloseNotifier =
      (N.isCloseNotifier && N.isHijacker && N.isFlusher && N.isReaderFrom) ∧
    (Writer.ops N raises (Writer.kindFor N)).isHijacker =
      (N.isCloseNotifier && N.isHijacker && N.isFlusher && N.isReaderFrom) ∧
    (Writer.ops N raises (Writer.kindFor N)).isReaderFrom =
      (N.isCloseNotifier && N.isHijacker && N.isFlusher && N.isReaderFrom) := by
  unfold Writer.ops Writer.kindFor
  cases N.isCloseNotifier <;> cases N.isHijacker <;> cases N.isFlusher <;> cases N.isReaderFrom <;>
    exact ⟨rfl, rfl, rfl, rfl, rfl⟩

/-- **C40.** In particular no capability is invented. -/
theorem C40_not_invented (raises : Bool) (N : RW ω) :
    ((Writer.ops N raises (Writer.kindFor N)).isFlusher = true → N.isFlusher = true) ∧
    ((Writer.ops N raises (Writer.kindFor N)).isCloseNotifier = true → N.isCloseNotifier = true) ∧
    ((Writer.ops N raises (Writer.kindFor N)).isHijacker = true → N.isHijacker = true) ∧
    ((Writer.ops N raises (Writer.kindFor N)).isReaderFrom = true → N.isReaderFrom = true) := by
  obtain ⟨_, h1, h2, h3, h4⟩ := C40_capabilities raises N
  rw [h1, h2, h3, h4]
  simp only [Bool.and_eq_true]
  exact ⟨id, fun h => h.1.1.1, fun h => h.1.1.2, fun h => h.2⟩

/-- **C40.** No capability call of the Writer trips over an interface the wrapped writer lacks: a `nil dereference` panic can
come only from the wrapped writer or from the source given to `ReadFrom`. -/
theorem C40_no_missing_interface (raises : Bool) (N : RW ω) (fuel : Nat) (s : WState ω)
    (hN : ∀ w code, (N.writeHeader w code).2 ≠ .panic .nilDeref) (hF : ∀ w, (N.flush w).2 ≠ .panic .nilDeref) :
    (Writer.step N raises (Writer.kindFor N) fuel s .flush).2 ≠ .unit (.panic .nilDeref) ∧
    (Writer.step N raises (Writer.kindFor N) fuel s .closeNotify).2 ≠ .unit (.panic .nilDeref) ∧
    (Writer.step N raises (Writer.kindFor N) fuel s .hijack).2 ≠ .unit (.panic .nilDeref) := by
  have hf : Writer.kindFor N = .fancy → N.isCloseNotifier = true ∧ N.isHijacker = true ∧ N.isFlusher = true := by
    unfold Writer.kindFor
    cases N.isCloseNotifier <;> cases N.isHijacker <;> cases N.isFlusher <;> cases N.isReaderFrom <;> simp
  have hb : Writer.kindFor N ≠ .basic → N.isFlusher = true := by
    unfold Writer.kindFor
    cases N.isCloseNotifier <;> cases N.isHijacker <;> cases N.isFlusher <;> cases N.isReaderFrom <;> simp
  refine ⟨?_, ?_, ?_⟩
  · simp only [Writer.step]
    by_cases h : Writer.kindFor N = .basic
    · simp [h]
    · rw [if_neg h]
      simp only [Writer.flush]
      have hm : ∀ s', (Writer.maybeWriteHeader N s 200) ≠ (s', .panic .nilDeref) := by
        intro s' he
        simp only [Writer.maybeWriteHeader] at he
        by_cases h0 : s.status = 0
        · simp [h0, Writer.writeHeaderImpl] at he
          exact hN _ _ he.2
        · simp [h0] at he
      rcases hq : Writer.maybeWriteHeader N s 200 with ⟨s1, r⟩
      cases r with
      | panic q => intro h'; simp at h'; subst h'; exact hm _ hq
      | hang => simp
      | ret u => simp [hb h]; exact hF _
  · simp only [Writer.step]
    by_cases h : Writer.kindFor N = .fancy
    · simp [h, Writer.closeNotify, (hf h).1]
    · simp [h]
  · simp only [Writer.step]
    by_cases h : Writer.kindFor N = .fancy
    · simp [h, Writer.hijack, (hf h).2.1]
    · simp [h]

/-- **C40.** `ReadFrom` of the Writer calls the wrapped writer's `ReadFrom` only if it has one. -/
theorem C40_readFrom_present (N : RW ω) (h : Writer.kindFor N = .fancy) : N.isReaderFrom = true := by
  revert h
  unfold Writer.kindFor
  cases N.isCloseNotifier <;> cases N.isHijacker <;> cases N.isFlusher <;> cases N.isReaderFrom <;> simp

example : Writer.kindFor exRW = .fancy := rfl
example : Writer.kindFor { exRW with isHijacker := false } = .flush := rfl

end Verif
