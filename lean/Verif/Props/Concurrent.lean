import Verif.Proofs.ConcLive
import Verif.Proofs.ConcPos
import Verif.Proofs.ConcMem
import Verif.Proofs.ConcBuf
import Verif.Props.Mem
import Verif.Props.Positional
import Verif.Props.Buffered

/-!
# C44, C45: goroutines sharing a family of Bodies

Any number of goroutines call methods on the Bodies of one family, in any interleaving of the single accesses to fields and of the lock
operations (`Cfg.Steps`).  `Linearizable`, `Sequential`, `CursorHistory`, `Race`, `LockOrder`, `AllReturn` are defined in
`Spec/Concurrent.lean`.
-/

set_option autoImplicit false

namespace Verif
open Spec

variable {σ : Type}

/-! ## C44: linearizability -/

/-- What linearizability says about the calls seen: they are those of a sequential execution that respects the order of each goroutine,
and of calls that did not overlap. -/
theorem C44_linearizable_sequential {Γ : Sig} {S : Type} {prog : Op → Prog Γ} {M : Mem Γ} {step : S → Op → S × Out} {s : S}
    (h : Linearizable prog M step s) (tr : List Event) (c : Verif.Cfg Γ) (hs : Cfg.Steps prog (.init M) tr c) : Sequential step s tr := by
  obtain ⟨y, hy⟩ := h tr c hs
  exact sequential_of_atomic hy

/-- A call that returned before another was made comes before it in a linearization: of the calls of goroutine `t` that had returned at
some moment and those that goroutine `u` made later, all of the former are in a first part of `L` that has none of the latter. -/
theorem C44_real_time {L : List (Nat × Op × Out)} {tr₁ tr₂ : List Event} (h : Linearization L (tr₁ ++ tr₂)) :
    ∃ L₁ L₂, L = L₁ ++ L₂ ∧ (∀ t, callsOf t tr₁ <+: partOf t L₁) ∧ ∀ u, (partOf u L₁).length ≤ (invsOf u tr₁).length := by
  obtain ⟨L₁, ⟨L₂, h1⟩, h2⟩ := h.2 tr₁ (List.prefix_append _ _)
  exact ⟨L₁, L₂, h1.symm, fun t => (h2 t).1, fun u => by simpa using (h2 u).2.length_le⟩

/-- **C44**, bodies over byte slices. -/
theorem C44_bytes (data : List Byte) : Linearizable ConcBytes.prog (ConcBytes.init data) BytesBody.step [{ data := data }] :=
  ConcBytes.abs_init data ▸ fam_linearizable ConcBytes.fam (fun _ => trivial) trivial

/-- **C44**, empty bodies. -/
theorem C44_empty : Linearizable ConcEmpty.prog ConcEmpty.init EmptyBody.step [{}] :=
  ConcEmpty.abs_init ▸ fam_linearizable ConcEmpty.fam (fun _ => trivial) trivial

/-- **C44**, ReaderAt-backed bodies, for every reader whatsoever. -/
theorem C44_readerAt (R : Rdr σ) (rdr : σ) (n : Int) :
    Linearizable (ConcPos.readerAtProg R) (ConcPos.init rdr n) (ReaderAtBody.step R) (ReaderAtBody.init rdr n) :=
  ConcPos.abs_init_readerAt rdr n ▸ fam_linearizable (ConcPos.readerAtFam R) (fun _ => trivial) trivial

/-- **C44**, Seeker-backed bodies, for every reader whatsoever (assuming that the unlocked read of the length is atomic). -/
theorem C44_seeker (R : Rdr σ) (rdr : σ) (n : Int) :
    Linearizable (ConcPos.seekerProg R) (ConcPos.init rdr n) (SeekerBody.step R) (SeekerBody.init rdr n) :=
  ConcPos.abs_init_seeker rdr n ▸ fam_linearizable (ConcPos.seekerFam R) (fun _ => trivial) trivial

/-- **C44**, stream-backed bodies, for every reader whatsoever. -/
theorem C44_buffered (R : Rdr σ) (fuel : Nat) (rdr : σ) (n : Int) :
    Linearizable (ConcBuf.prog R fuel) (ConcBuf.init rdr n) (BufSys.step R fuel) (BufSys.init rdr n) :=
  ConcBuf.abs_init rdr n ▸ fam_linearizable (ConcBuf.fam R fuel) (fun _ => trivial) (ConcBuf.good_init rdr n)

/-! ## C44: what the goroutines see -/

/-- **C44** with C16: goroutines sharing copies of a ReaderAt-backed Body see independent cursors over the content. -/
theorem C44_readerAt_cursors {R : Rdr σ} {F : List Byte} {Inv : σ → Prop} (hR : IsReaderAt R F Inv) (rdr : σ) (hi : Inv rdr) (n : Nat)
    (hn : n ≤ F.length) (hn63 : n < 2 ^ 63) (tr : List Event) (c : Verif.Cfg (posSig σ))
    (hs : Cfg.Steps (ConcPos.readerAtProg R) (.init (ConcPos.init rdr n)) tr c) (hv : ∀ t op, Event.inv t op ∈ tr → op.Valid) :
    CursorHistory (posCfg n) PosAllowed [{ content := F.take n }] tr :=
  cursors_of_sequential (C44_linearizable_sequential (C44_readerAt R rdr n) tr c hs)
    (C16_readerAt_refines_cursors hR rdr hi n hn hn63) hv fun ops _ => noHang_run (at_noHang R) _ ops

/-- **C44** with C18: the same for Seeker-backed Bodies, if `Read` fills the buffer. -/
theorem C44_seeker_cursors {R : Rdr σ} {F : List Byte} {At : σ → Nat → Prop} (hR : IsFullSeeker R F At) (rdr : σ) (p : Nat)
    (hi : At rdr p) (n : Nat) (hn : n ≤ F.length) (hn63 : n < 2 ^ 63) (tr : List Event) (c : Verif.Cfg (posSig σ))
    (hs : Cfg.Steps (ConcPos.seekerProg R) (.init (ConcPos.init rdr n)) tr c) (hv : ∀ t op, Event.inv t op ∈ tr → op.Valid) :
    CursorHistory (posCfg n) PosAllowed [{ content := F.take n }] tr :=
  cursors_of_sequential (C44_linearizable_sequential (C44_seeker R rdr n) tr c hs)
    (C18_seeker_refines_cursors_partial hR rdr p hi n hn hn63) hv fun ops _ => noHang_run (seek_noHang R) _ ops

theorem memFam_run_bytes (s : List BytesBody) (ops : List Op) :
    run MemFam.step (.bytes s) ops = (.bytes (run BytesBody.step s ops).1, (run BytesBody.step s ops).2) := by
  induction ops generalizing s with
  | nil => rfl
  | cons op ops ih => simp only [run, MemFam.step, ih]

/-- **C44** with C01: the same for Bodies over byte slices. -/
theorem C44_bytes_cursors (data : List Byte) (hne : data ≠ []) (hlen : data.length < 2 ^ 63) (tr : List Event) (c : Verif.Cfg bytesSig)
    (hs : Cfg.Steps ConcBytes.prog (.init (ConcBytes.init data)) tr c) (hv : ∀ t op, Event.inv t op ∈ tr → op.Valid) :
    CursorHistory (memCfg data) (· = {}) [{ content := data }] tr := by
  have e : ∀ ops, (run MemFam.step (fromBytes data) ops).2 = (run BytesBody.step [{ data := data }] ops).2 := by
    intro ops
    rw [fromBytes, if_neg (by simpa using hne), memFam_run_bytes]
  refine cursors_of_sequential (Ok := Op.Valid) (C44_linearizable_sequential (C44_bytes data) tr c hs) (fun ops hok _ => ?_) hv
    fun ops _ => ?_
  · refine ⟨ops.map fun _ => {}, by simp, by simp, ?_⟩
    rw [← e, C01_bytes_refine_cursors data hlen ops fun op ho => ⟨hok op ho, fun h => absurd h hne⟩]
    congr 2
    clear hok
    rename_i hx
    clear hx
    induction ops with
    | nil => rfl
    | cons op ops ih => simp only [List.map_cons, List.zip_cons_cons, ih]
  · rw [← e]; exact noHang_run goOut_ne_hang _ _

theorem memFam_run_empty (s : List EmptyBody) (ops : List Op) :
    run MemFam.step (.empty s) ops = (.empty (run EmptyBody.step s ops).1, (run EmptyBody.step s ops).2) := by
  induction ops generalizing s with
  | nil => rfl
  | cons op ops ih => simp only [run, MemFam.step, ih]

/-- **C44** with C01: the same for empty Bodies, except for the calls where these deviate anyway (C04, C08). -/
theorem C44_empty_cursors (tr : List Event) (c : Verif.Cfg emptySig)
    (hs : Cfg.Steps ConcEmpty.prog (.init ConcEmpty.init) tr c) (hv : ∀ t op, Event.inv t op ∈ tr → op.Valid ∧ op.EmptyOk) :
    CursorHistory (memCfg []) (· = {}) [{ content := [] }] tr := by
  have e : ∀ ops, (run MemFam.step (fromBytes []) ops).2 = (run EmptyBody.step [{}] ops).2 := by
    intro ops
    exact congrArg Prod.snd (memFam_run_empty [{}] ops)
  refine cursors_of_sequential (Ok := fun op => op.Valid ∧ op.EmptyOk) (C44_linearizable_sequential C44_empty tr c hs) (fun ops hok _ => ?_) hv
    fun ops _ => ?_
  · refine ⟨ops.map fun _ => {}, by simp, by simp, ?_⟩
    rw [← e, C01_bytes_refine_cursors [] (by decide) ops fun op ho => ⟨(hok op ho).1, fun _ => (hok op ho).2⟩]
    congr 2
    clear hok
    rename_i hx
    clear hx
    induction ops with
    | nil => rfl
    | cons op ops ih => simp only [List.map_cons, List.zip_cons_cons, ih]
  · rw [← e]; exact noHang_run goOut_ne_hang _ _

/-- **C44** with C09: goroutines sharing copies of a Body over a stream see independent cursors over the stream, as far as the advertised
length goes, whatever the chunking and the schedule.  (The reader returns `(0, nil)` at most `B` times in a row, buffers have at most `K`
bytes.) -/
theorem C44_buffered_cursors {R : Rdr σ} [R.CloseOk] {fin : Err} {Inv : σ → List Byte → Prop} (hS : IsStream R fin Inv) {B : Nat} {idle : σ → Nat}
    (hE : Eager R B idle) (fuel : Nat) (st : σ) (T : List Byte) (hI : Inv st T) (L : Int) (hL : fin = .eof ∨ L ≠ T.length) (K : Nat)
    (hf : (K + 65536) * (B + 1) + B < fuel) (tr : List Event) (c : Verif.Cfg (bufSig σ))
    (hs : Cfg.Steps (ConcBuf.prog R fuel) (.init (ConcBuf.init st L)) tr c)
    (hv : ∀ t op, Event.inv t op ∈ tr → op.Small ∧ ∀ h k, op = .read h k → k ≤ K) :
    CursorHistory (streamCfg L (if 0 ≤ L ∧ L < T.length then .eof else fin)) (fun ch => ch.early = false ∧ ch.crash = none)
      [{ content := cut T L }] tr := by
  have hh : ∀ ops : List Op, (∀ op ∈ ops, op.Small ∧ ∀ h k, op = .read h k → k ≤ K) → Out.hang ∉ streamOuts R fuel st L ops :=
    fun ops ho => C09_calls_return hE fuel st L K hf ops (fun op h => (ho op h).1) fun h k hm => (ho _ hm).2 h k rfl
  refine cursors_of_sequential (Ok := fun op => op.Small ∧ ∀ h k, op = .read h k → k ≤ K)
    (C44_linearizable_sequential (C44_buffered R fuel st L) tr c hs) (fun ops hok _ => ?_) hv fun ops ho => ?_
  · obtain ⟨chs, h1, h2⟩ := C09_stream_content hS fuel st T hI L hL ops (fun op h => (hok op h).1) (hh ops hok)
    refine ⟨chs, h1.length, fun ch hch => ⟨?_, h2 ch hch⟩, ?_⟩
    · obtain ⟨i, hi⟩ := List.mem_iff_getElem?.1 hch
      exact (h1.choices i ch hi).early
    · rw [C09_log_is_transparent, ← h1.outs]
  · rw [C09_log_is_transparent]
    exact hh ops fun op hop => by obtain ⟨t, ht⟩ := ho op hop; exact hv t op ht

/-! ## C44: data races -/

/-- **C44 (locking)**: with ReaderAt-backed bodies there is no data race, and the shared part is only accessed by the goroutine holding the
family's lock. -/
theorem C44_readerAt_no_race (R : Rdr σ) (rdr : σ) (n : Int) (tr : List Event) (c : Verif.Cfg (posSig σ))
    (hs : Cfg.Steps (ConcPos.readerAtProg R) (.init (ConcPos.init rdr n)) tr c) : ¬ Race c ∧ LocksShared c :=
  fam_noRace (ConcPos.readerAtFam R) trivial (fun _ h => by cases h.1) hs fun _ _ _ => trivial

/-- **C44 (locking)**, stream-backed bodies. -/
theorem C44_buffered_no_race (R : Rdr σ) (fuel : Nat) (rdr : σ) (n : Int) (tr : List Event) (c : Verif.Cfg (bufSig σ))
    (hs : Cfg.Steps (ConcBuf.prog R fuel) (.init (ConcBuf.init rdr n)) tr c) : ¬ Race c ∧ LocksShared c :=
  fam_noRace (ConcBuf.fam R fuel) (ConcBuf.good_init rdr n) (fun _ h => h) hs fun _ _ _ => trivial

/-- **C44 (locking)**, bodies over byte slices (which share nothing). -/
theorem C44_bytes_no_race (data : List Byte) (tr : List Event) (c : Verif.Cfg bytesSig)
    (hs : Cfg.Steps ConcBytes.prog (.init (ConcBytes.init data)) tr c) : ¬ Race c :=
  (fam_noRace ConcBytes.fam trivial (fun _ h => h) hs fun _ _ _ => trivial).1

/-- **C44 (locking)**, empty bodies. -/
theorem C44_empty_no_race (tr : List Event) (c : Verif.Cfg emptySig)
    (hs : Cfg.Steps ConcEmpty.prog (.init ConcEmpty.init) tr c) : ¬ Race c :=
  (fam_noRace ConcEmpty.fam trivial (fun _ h => h) hs fun _ _ _ => trivial).1

/-- **C44 (locking)**, Seeker-backed bodies, as long as nobody calls `BytesRemaining`.  The full statement, without that restriction, is
that of `C44_readerAt_no_race`; it is false (`C44_seeker_race`). -/
theorem C44_seeker_no_race_partial (R : Rdr σ) (rdr : σ) (n : Int) (tr : List Event) (c : Verif.Cfg (posSig σ))
    (hs : Cfg.Steps (ConcPos.seekerProg R) (.init (ConcPos.init rdr n)) tr c) (hn : ∀ t h, Event.inv t (.remaining h) ∉ tr) :
    ¬ Race c ∧ LocksShared c :=
  fam_noRace (ConcPos.seekerFam' R) trivial (fun _ h => by cases h.1) hs fun t _ hm h e => hn t h (e ▸ hm)

/-- Whoever calls what: with Seeker-backed bodies the only data races are between a read and a write of the shared length. -/
theorem C44_seeker_races_for_length (R : Rdr σ) (rdr : σ) (n : Int) (tr : List Event) (c : Verif.Cfg (posSig σ))
    (hs : Cfg.Steps (ConcPos.seekerProg R) (.init (ConcPos.init rdr n)) tr c) (t u : Nat) (l : Loc (posSig σ)) (hne : t ≠ u)
    (hw : ∃ v k, c.thr t = some (.put l v k)) (hr : (∃ k, c.thr u = some (.get l k)) ∨ ∃ v k, c.thr u = some (.put l v k)) :
    l = .c .length ∧ ∃ k, c.thr u = some (.get l k) := by
  obtain ⟨⟨f, h1, h2⟩, h3⟩ := fam_race (ConcPos.seekerFam R) (fun _ => trivial) trivial hs hne hw hr
  exact ⟨by rw [h1, h2.2], h3⟩

/-- A schedule for the race: goroutine 0 copies the Body, then reads the original, where the reader fails, and is about to shorten the
shared length; goroutine 1 calls `BytesRemaining` on the copy and is about to read it. -/
def raceSchedule : List Act :=
  [.call 0 (.copy 0)] ++ List.replicate 16 (.go 0) ++ [.call 0 (.read 0 2)] ++ List.replicate 14 (.go 0) ++
    [.call 1 (.remaining 1), .go 1, .go 1]

/-- **C44 (locking) is false of Seeker-backed bodies**: `BytesRemaining` reads the shared length without the lock, while `Read` on another
copy writes it. -/
theorem C44_seeker_race : ∃ (R : Rdr (Bool × Nat)) (rdr : Bool × Nat) (tr : List Event) (c : Verif.Cfg (posSig (Bool × Nat))),
    Cfg.Steps (ConcPos.seekerProg R) (.init (ConcPos.init rdr 3)) tr c ∧ Race c := by
  refine ⟨flakyRdr [1, 2, 3], (false, 0), _, _, Cfg.play_steps (as := raceSchedule) rfl, 0, 1, .c .length, by decide, ⟨_, _, rfl⟩, .inl ⟨_, rfl⟩⟩

/-! ## C45 -/

/-- No deadlock: somebody can take a step while somebody is in a call; or else somebody loops forever, which `C45_…_returns` exclude. -/
theorem lockOrder_no_deadlock {Γ : Sig} {prog : Op → Prog Γ} {c : Verif.Cfg Γ} (h : LockOrder c) (hn : ∀ u, ¬ Spec.Stuck c u) :
    (∃ t, Busy c t) → CanStep prog c := by
  rintro ⟨t, ht⟩
  rcases h.canStep (prog := prog) ht with h | ⟨u, h⟩
  · exact h
  · exact absurd h (hn u)

/-- **C45**, ReaderAt-backed bodies: locks are acquired in order and all released when a call ends, panics included; while somebody is in a
call somebody can take a step; and all calls return. -/
theorem C45_readerAt (R : Rdr σ) (rdr : σ) (n : Int) (tr : List Event) (c : Verif.Cfg (posSig σ))
    (hs : Cfg.Steps (ConcPos.readerAtProg R) (.init (ConcPos.init rdr n)) tr c) :
    LockOrder c ∧ ((∃ t, Busy c t) → CanStep (ConcPos.readerAtProg R) c) ∧ AllReturn (ConcPos.readerAtProg R) c := by
  have hl := fam_lockOrder (ConcPos.readerAtFam R) (fun _ => trivial) trivial hs
  refine ⟨hl, lockOrder_no_deadlock hl fun u h => ?_, fam_allReturn (ConcPos.readerAtFam R) (fun _ => trivial) trivial hs fun ops _ =>
    noHang_run (at_noHang R) _ ops⟩
  obtain ⟨ops, _, h2⟩ := fam_stuck (ConcPos.readerAtFam R) (fun _ => trivial) trivial hs h
  exact noHang_run (at_noHang R) _ ops h2

/-- **C45**, Seeker-backed bodies. -/
theorem C45_seeker (R : Rdr σ) (rdr : σ) (n : Int) (tr : List Event) (c : Verif.Cfg (posSig σ))
    (hs : Cfg.Steps (ConcPos.seekerProg R) (.init (ConcPos.init rdr n)) tr c) :
    LockOrder c ∧ ((∃ t, Busy c t) → CanStep (ConcPos.seekerProg R) c) ∧ AllReturn (ConcPos.seekerProg R) c := by
  have hl := fam_lockOrder (ConcPos.seekerFam R) (fun _ => trivial) trivial hs
  refine ⟨hl, lockOrder_no_deadlock hl fun u h => ?_, fam_allReturn (ConcPos.seekerFam R) (fun _ => trivial) trivial hs fun ops _ =>
    noHang_run (seek_noHang R) _ ops⟩
  obtain ⟨ops, _, h2⟩ := fam_stuck (ConcPos.seekerFam R) (fun _ => trivial) trivial hs h
  exact noHang_run (seek_noHang R) _ ops h2

theorem bytes_noHang (s : List BytesBody) (op : Op) : (BytesBody.step s op).2 ≠ .hang := goOut_ne_hang (.bytes s) op
theorem empty_noHang (s : List EmptyBody) (op : Op) : (EmptyBody.step s op).2 ≠ .hang := goOut_ne_hang (.empty s) op

/-- **C45**, bodies over byte slices. -/
theorem C45_bytes (data : List Byte) (tr : List Event) (c : Verif.Cfg bytesSig)
    (hs : Cfg.Steps ConcBytes.prog (.init (ConcBytes.init data)) tr c) :
    LockOrder c ∧ ((∃ t, Busy c t) → CanStep ConcBytes.prog c) ∧ AllReturn ConcBytes.prog c := by
  have hl := fam_lockOrder ConcBytes.fam (fun _ => trivial) trivial hs
  refine ⟨hl, lockOrder_no_deadlock hl fun u h => ?_, fam_allReturn ConcBytes.fam (fun _ => trivial) trivial hs fun ops _ =>
    noHang_run bytes_noHang _ ops⟩
  obtain ⟨ops, _, h2⟩ := fam_stuck ConcBytes.fam (fun _ => trivial) trivial hs h
  exact noHang_run bytes_noHang _ ops h2

/-- **C45**, empty bodies. -/
theorem C45_empty (tr : List Event) (c : Verif.Cfg emptySig) (hs : Cfg.Steps ConcEmpty.prog (.init ConcEmpty.init) tr c) :
    LockOrder c ∧ ((∃ t, Busy c t) → CanStep ConcEmpty.prog c) ∧ AllReturn ConcEmpty.prog c := by
  have hl := fam_lockOrder ConcEmpty.fam (fun _ => trivial) trivial hs
  refine ⟨hl, lockOrder_no_deadlock hl fun u h => ?_, fam_allReturn ConcEmpty.fam (fun _ => trivial) trivial hs fun ops _ =>
    noHang_run empty_noHang _ ops⟩
  obtain ⟨ops, _, h2⟩ := fam_stuck ConcEmpty.fam (fun _ => trivial) trivial hs h
  exact noHang_run empty_noHang _ ops h2

/-- **C45 (lock order)**, stream-backed bodies, for every reader whatsoever: and if nobody can take a step while somebody is in a call,
then somebody is looping forever on the reader. -/
theorem C45_buffered_order (R : Rdr σ) (fuel : Nat) (rdr : σ) (n : Int) (tr : List Event) (c : Verif.Cfg (bufSig σ))
    (hs : Cfg.Steps (ConcBuf.prog R fuel) (.init (ConcBuf.init rdr n)) tr c) :
    LockOrder c ∧ ((∃ t, Busy c t) → CanStep (ConcBuf.prog R fuel) c ∨ ∃ u, Spec.Stuck c u) := by
  have hl := fam_lockOrder (ConcBuf.fam R fuel) (fun _ => trivial) (ConcBuf.good_init rdr n) hs
  exact ⟨hl, fun ⟨t, ht⟩ => hl.canStep ht⟩

/-- **C45**, stream-backed bodies over a reader that returns `(0, nil)` at most `B` times in a row, buffers having at most `K` bytes. -/
theorem C45_buffered {R : Rdr σ} [R.CloseOk] {B : Nat} {idle : σ → Nat} (hE : Eager R B idle) (fuel : Nat) (st : σ) (L : Int) (K : Nat)
    (hf : (K + 65536) * (B + 1) + B < fuel) (tr : List Event) (c : Verif.Cfg (bufSig σ))
    (hs : Cfg.Steps (ConcBuf.prog R fuel) (.init (ConcBuf.init st L)) tr c)
    (hv : ∀ t op, Event.inv t op ∈ tr → op.Small ∧ ∀ h k, op = .read h k → k ≤ K) :
    LockOrder c ∧ ((∃ t, Busy c t) → CanStep (ConcBuf.prog R fuel) c) ∧ AllReturn (ConcBuf.prog R fuel) c := by
  have hh : ∀ ops : List Op, (∀ op ∈ ops, ∃ t, Event.inv t op ∈ tr) → Out.hang ∉ (run (BufSys.step R fuel) (BufSys.init st L) ops).2 := by
    intro ops ho
    have ho' : ∀ op ∈ ops, op.Small ∧ ∀ h k, op = .read h k → k ≤ K := fun op h => by obtain ⟨t, ht⟩ := ho op h; exact hv t op ht
    rw [C09_log_is_transparent]
    exact C09_calls_return hE fuel st L K hf ops (fun op h => (ho' op h).1) fun h k hm => (ho' _ hm).2 h k rfl
  have hl := fam_lockOrder (ConcBuf.fam R fuel) (fun _ => trivial) (ConcBuf.good_init st L) hs
  refine ⟨hl, lockOrder_no_deadlock hl fun u h => ?_, fam_allReturn (ConcBuf.fam R fuel) (fun _ => trivial) (ConcBuf.good_init st L) hs
    hh⟩
  obtain ⟨ops, h1, h2⟩ := fam_stuck (ConcBuf.fam R fuel) (fun _ => trivial) (ConcBuf.good_init st L) hs h
  exact hh ops h1 h2

/-! ## Non-vacuity: executions with overlapping calls -/

/-- The results of a schedule. -/
def results {Γ : Sig} (prog : Op → Prog Γ) (M : Mem Γ) (as : List Act) : Option (List (Nat × Out)) :=
  ((Cfg.init M).play prog as).map fun p => p.1.filterMap fun | .ret t o => some (t, o) | .inv _ _ => none

/-- Goroutine 0 copies the Body in `k` steps; then goroutine 0 reads from the original and goroutine 1 from the copy, each schedule given
as a list of goroutines. -/
def overlap (k : Nat) (l : List Nat) : List Act :=
  [.call 0 (.copy 0)] ++ List.replicate k (.go 0) ++ [.call 0 (.read 0 2), .call 1 (.read 1 3)] ++ l.map .go

example : results (ConcPos.readerAtProg (fileRdr [1, 2, 3, 4])) (ConcPos.init 0 4)
    (overlap 16 [0, 1, 0, 1, 0, 1, 0, 0, 0, 0, 0, 0, 0, 0, 1, 0, 1, 0, 1, 1, 1, 1, 1, 1, 1, 1]) = some
    [(0, .copied 1), (0, .read [1, 2] none), (1, .read [1, 2, 3] none)] := by decide +kernel

example : results (ConcPos.seekerProg (fileRdr [1, 2, 3, 4])) (ConcPos.init 0 4)
    (overlap 16 [0, 1, 0, 1, 0, 1, 0, 0, 0, 0, 0, 0, 0, 0, 0, 0, 1, 0, 1, 0, 1, 1, 1, 1, 1, 1, 1, 1, 1, 1]) = some
    [(0, .copied 1), (0, .read [1, 2] none), (1, .read [1, 2, 3] none)] := by decide +kernel

example : results ConcBytes.prog (ConcBytes.init [1, 2, 3, 4]) (overlap 16 [0, 1, 0, 1, 0, 1, 0, 1, 0, 1, 0, 1, 0, 1, 0, 1, 0, 1]) = some
    [(0, .copied 1), (0, .read [1, 2] none), (1, .read [1, 2, 3] none)] := by decide +kernel

example : results ConcEmpty.prog ConcEmpty.init (overlap 11 [0, 1, 0, 1, 0, 1, 0, 1, 0, 1, 0, 1]) = some
    [(0, .copied 1), (0, .read [] (some .eof)), (1, .read [] (some .eof))] := by decide +kernel

-- goroutine 1 acquires the lock of its own Body, then waits for goroutine 0 to be done with the shared part
example : results (ConcBuf.prog scripted 10) (ConcBuf.init [.got [1, 2] none, .got [] none, .got [3] none, .got [4, 5] (some .eof)] (-1))
    (overlap 21 ([0, 1, 0, 1] ++ List.replicate 36 0 ++ [1, 0, 1, 0] ++ List.replicate 22 1)) = some
    [(0, .copied 1), (0, .read [1, 2] none), (1, .read [1, 2, 3] none)] := by decide +kernel

-- a goroutine waiting for a lock cannot take a step: the theorems do not hold for lack of waiting
example : results (ConcBuf.prog scripted 10) (ConcBuf.init [.got [1, 2] none] (-1)) (overlap 21 [0, 1, 0, 1, 0, 1]) = none := by decide +kernel

end Verif
