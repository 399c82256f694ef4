import Verif.Proofs.CallBackKinds

/-!
# C83: Readers that use the Bodies made of them

The goroutines call methods of the Bodies of one family, in any interleaving, and the Reader's methods, called by the Bodies with two
mutexes held, call methods of Bodies of the family themselves (`Model/CallBack.lean`).  `c` is any state that can be reached in which
goroutine `t` is about to call the Reader, the Reader is in a state in which it makes the call `op`; the next state but for the Reader
having been entered is `c.go t (some (k (c.mem (.c .rdr))))`.  `Waits`, `Sometime`, `StreamApart` etc. are defined in `Spec/CallBack.lean`.
-/

set_option autoImplicit false

namespace Verif
open Spec
variable {σ : Type}

/-- A Reader that makes no calls: the methods are those of `Model/ConcBuf.lean` and `Model/ConcPos.lean`. -/
theorem C83_quiet {Γ : Sig} (r : Γ.CF) (prog : Op → Prog Γ) : callers r .answer prog = prog := by
  have h : ∀ p : Prog Γ, p.calling r .answer prog = p := by
    intro p
    induction p with
    | ret o => rfl
    | stuck => rfl
    | get l k ih =>
      simp only [Prog.calling]
      congr 1
      funext v
      have : calledBack r .answer l v = .answer v := by
        cases l with
        | c f =>
          by_cases e : r = f
          · subst e; exact calledBack_self ..
          · simp [calledBack, e]
        | b h f => rfl
        | next => rfl
      rw [this]
      exact ih v
    | put l v k ih => simp only [Prog.calling, ih]
    | lock m k ih => simp only [Prog.calling, ih]
    | unlock m k ih => simp only [Prog.calling, ih]
  funext op
  exact h _

/-- **C83**, stream-backed bodies: the Reader's method, and the call that called it, never return, and no other goroutine gets the family's
mutex any more – unless the call is on another Body than those in use by `t`, and that Body was closed at some moment from then on, or, for
BytesRemaining, at its end. -/
theorem C83_stream (R : Rdr σ) (fuel : Nat) (back : σ → ReaderDoes σ) (rdr : σ) (n : Int) {tr₀ : List Event} {c : Verif.Cfg (bufSig σ)}
    (hs : Cfg.Steps (callers (Γ := bufSig σ) BufC.rdr back (ConcBuf.prog R fuel)) (.init (ConcBuf.init rdr n)) tr₀ c) {t : Nat} {k : σ → Prog (bufSig σ)}
    (ht : c.thr t = some (.get (.c .rdr) k)) {op : Op} {next : Out → ReaderDoes σ} (hb : back (c.mem (.c .rdr)) = .call op next) (ho : OfStreams op) {tr : List Event}
    {d : Verif.Cfg (bufSig σ)}
    (hd : Cfg.Steps (callers (Γ := bufSig σ) BufC.rdr back (ConcBuf.prog R fuel)) (c.go t (some (k (c.mem (.c .rdr))))) tr d) :
    Waits c tr d t ∨ c.owner (.body op.h) ≠ some t ∧
      Sometime (callers (Γ := bufSig σ) BufC.rdr back (ConcBuf.prog R fuel)) (c.go t (some (k (c.mem (.c .rdr))))) tr d (StreamApart op) :=
  waits (ConcBuf.plain R fuel) hs ht hb (ConcBuf.needs R fuel ho) (ConcBuf.locks R fuel ho) hd

/-- **C83**, ReaderAt-backed bodies: the same; also Read may return from a Body that has met an error or its end, and ReadAt at a negative
offset. -/
theorem C83_readerAt (R : Rdr σ) (back : σ → ReaderDoes σ) (rdr : σ) (n : Int) {tr₀ : List Event} {c : Verif.Cfg (posSig σ)}
    (hs : Cfg.Steps (callers (Γ := posSig σ) PosC.rdr back (ConcPos.readerAtProg R)) (.init (ConcPos.init rdr n)) tr₀ c) {t : Nat} {k : σ → Prog (posSig σ)}
    (ht : c.thr t = some (.get (.c .rdr) k)) {op : Op} {next : Out → ReaderDoes σ} (hb : back (c.mem (.c .rdr)) = .call op next) (ho : OfPositional op) {tr : List Event}
    {d : Verif.Cfg (posSig σ)}
    (hd : Cfg.Steps (callers (Γ := posSig σ) PosC.rdr back (ConcPos.readerAtProg R)) (c.go t (some (k (c.mem (.c .rdr))))) tr d) :
    Waits c tr d t ∨ c.owner (.body op.h) ≠ some t ∧
      Sometime (callers (Γ := posSig σ) PosC.rdr back (ConcPos.readerAtProg R)) (c.go t (some (k (c.mem (.c .rdr))))) tr d (ReaderAtApart op) :=
  waits (ConcPos.plain_readerAt R) hs ht hb (ConcPos.needs_readerAt R ho) (ConcPos.locks_readerAt R ho) hd

/-- **C83**, Seeker-backed bodies: the same; also BytesRemaining of another Body may return. -/
theorem C83_seeker (R : Rdr σ) (back : σ → ReaderDoes σ) (rdr : σ) (n : Int) {tr₀ : List Event} {c : Verif.Cfg (posSig σ)}
    (hs : Cfg.Steps (callers (Γ := posSig σ) PosC.rdr back (ConcPos.seekerProg R)) (.init (ConcPos.init rdr n)) tr₀ c) {t : Nat} {k : σ → Prog (posSig σ)}
    (ht : c.thr t = some (.get (.c .rdr) k)) {op : Op} {next : Out → ReaderDoes σ} (hb : back (c.mem (.c .rdr)) = .call op next) (ho : OfPositional op) {tr : List Event}
    {d : Verif.Cfg (posSig σ)}
    (hd : Cfg.Steps (callers (Γ := posSig σ) PosC.rdr back (ConcPos.seekerProg R)) (c.go t (some (k (c.mem (.c .rdr))))) tr d) :
    Waits c tr d t ∨ c.owner (.body op.h) ≠ some t ∧
      Sometime (callers (Γ := posSig σ) PosC.rdr back (ConcPos.seekerProg R)) (c.go t (some (k (c.mem (.c .rdr))))) tr d (SeekerApart op) :=
  waits (ConcPos.plain_seeker R) hs ht hb (ConcPos.needs_seeker R ho) (ConcPos.locks_seeker R ho) hd

/-- **C83**, the same of every later call that the Reader makes: goroutine `t` has the family's mutex and is about to make the call `op`. -/
theorem C83_stream_later (R : Rdr σ) (fuel : Nat) (back : σ → ReaderDoes σ) (rdr : σ) (n : Int) {tr₀ : List Event} {c : Verif.Cfg (bufSig σ)}
    (hs : Cfg.Steps (callers (Γ := bufSig σ) BufC.rdr back (ConcBuf.prog R fuel)) (.init (ConcBuf.init rdr n)) tr₀ c) {t : Nat} {op : Op} (ho : OfStreams op)
    {k : Out → Prog (bufSig σ)} (ht : c.thr t = some ((ConcBuf.prog R fuel op).bind k)) (hm : c.owner .common = some t) {tr : List Event} {d : Verif.Cfg (bufSig σ)}
    (hd : Cfg.Steps (callers (Γ := bufSig σ) BufC.rdr back (ConcBuf.prog R fuel)) c tr d) :
    Waits c tr d t ∨ c.owner (.body op.h) ≠ some t ∧ Sometime (callers (Γ := bufSig σ) BufC.rdr back (ConcBuf.prog R fuel)) c tr d (StreamApart op) :=
  waits_later (ConcBuf.plain R fuel) hs ht hm (ConcBuf.needs R fuel ho) (ConcBuf.locks R fuel ho) hd

theorem C83_readerAt_later (R : Rdr σ) (back : σ → ReaderDoes σ) (rdr : σ) (n : Int) {tr₀ : List Event} {c : Verif.Cfg (posSig σ)}
    (hs : Cfg.Steps (callers (Γ := posSig σ) PosC.rdr back (ConcPos.readerAtProg R)) (.init (ConcPos.init rdr n)) tr₀ c) {t : Nat} {op : Op} (ho : OfPositional op)
    {k : Out → Prog (posSig σ)} (ht : c.thr t = some ((ConcPos.readerAtProg R op).bind k)) (hm : c.owner .common = some t) {tr : List Event} {d : Verif.Cfg (posSig σ)}
    (hd : Cfg.Steps (callers (Γ := posSig σ) PosC.rdr back (ConcPos.readerAtProg R)) c tr d) :
    Waits c tr d t ∨ c.owner (.body op.h) ≠ some t ∧ Sometime (callers (Γ := posSig σ) PosC.rdr back (ConcPos.readerAtProg R)) c tr d (ReaderAtApart op) :=
  waits_later (ConcPos.plain_readerAt R) hs ht hm (ConcPos.needs_readerAt R ho) (ConcPos.locks_readerAt R ho) hd

theorem C83_seeker_later (R : Rdr σ) (back : σ → ReaderDoes σ) (rdr : σ) (n : Int) {tr₀ : List Event} {c : Verif.Cfg (posSig σ)}
    (hs : Cfg.Steps (callers (Γ := posSig σ) PosC.rdr back (ConcPos.seekerProg R)) (.init (ConcPos.init rdr n)) tr₀ c) {t : Nat} {op : Op} (ho : OfPositional op)
    {k : Out → Prog (posSig σ)} (ht : c.thr t = some ((ConcPos.seekerProg R op).bind k)) (hm : c.owner .common = some t) {tr : List Event} {d : Verif.Cfg (posSig σ)}
    (hd : Cfg.Steps (callers (Γ := posSig σ) PosC.rdr back (ConcPos.seekerProg R)) c tr d) :
    Waits c tr d t ∨ c.owner (.body op.h) ≠ some t ∧ Sometime (callers (Γ := posSig σ) PosC.rdr back (ConcPos.seekerProg R)) c tr d (SeekerApart op) :=
  waits_later (ConcPos.plain_seeker R) hs ht hm (ConcPos.needs_seeker R ho) (ConcPos.locks_seeker R ho) hd

theorem ReadsOut.exec {Γ : Sig} {M : Mem Γ} {h : Nat} {q : Prog Γ} {o : Out} (hr : ReadsOut M h q o) : q.exec M = (M, o) := by
  induction hr with
  | unlock o => rfl
  | get _ ih => exact ih

/-- What `C83_stream_apart` etc. say, for all kinds. -/
theorem returns_apart {Γ : Sig} {r : Γ.CF} {back : Γ.CV r → ReaderDoes (Γ.CV r)} {prog : Op → Prog Γ} (hp : ∀ op, Plain r [] (prog op)) {M : Mem Γ}
    {tr₀ : List Event} {c : Verif.Cfg Γ} (hs : Cfg.Steps (callers r back prog) (.init M) tr₀ c) {t : Nat} {k : Γ.CV r → Prog Γ}
    (ht : c.thr t = some (.get (.c r) k)) {op : Op} {next : Out → ReaderDoes (Γ.CV r)} (hb : back (c.mem (.c r)) = .call op next) (hf : c.owner (.body op.h) = none)
    (ha : ∃ q o, prog op = .lock (.body op.h) q ∧ ReadsOut c.mem op.h q o) :
    ∃ rest o, k (c.mem (.c r)) = Prog.doing prog (.call op next) rest ∧ (prog op).exec c.mem = (c.mem, o) ∧
      Cfg.Steps (callers r back prog) (c.go t (some (k (c.mem (.c r))))) [] (c.go t (some (Prog.doing prog (next o) rest))) := by
  obtain ⟨_, ⟨k', h2⟩, _⟩ := at_reader hp hs ht hb
  obtain ⟨q, o, hq, hr⟩ := ha
  have thr : (c.go t (some (k (c.mem (.c r))))).thr t = some (Prog.bind (.lock (.body op.h) q) fun o => Prog.doing prog (next o) k') := by
    rw [← hq, h2]
    simp [Cfg.go, Prog.doing]
  have s := returns (prog' := callers r back prog) thr hf hr
  have e : (c.go t (some (k (c.mem (.c r))))).go t (some (Prog.doing prog (next o) k')) = c.go t (some (Prog.doing prog (next o) k')) := by
    simp only [Cfg.go, Cfg.mk.injEq, true_and]
    funext u
    by_cases e : u = t <;> simp [e]
  rw [e] at s
  exact ⟨k', o, h2, by rw [hq]; exact hr.exec, s⟩

/-- These exceptions are real: if nobody uses that Body, the call returns what it returns when made alone, with nothing changed, and
goroutine `t` goes on. -/
theorem C83_stream_apart (R : Rdr σ) (fuel : Nat) (back : σ → ReaderDoes σ) (rdr : σ) (n : Int) {tr₀ : List Event} {c : Verif.Cfg (bufSig σ)}
    (hs : Cfg.Steps (callers (Γ := bufSig σ) BufC.rdr back (ConcBuf.prog R fuel)) (.init (ConcBuf.init rdr n)) tr₀ c) {t : Nat} {k : σ → Prog (bufSig σ)}
    (ht : c.thr t = some (.get (.c .rdr) k)) {op : Op} {next : Out → ReaderDoes σ} (hb : back (c.mem (.c .rdr)) = .call op next) (ho : OfStreams op)
    (hf : c.owner (.body op.h) = none) (ha : StreamApart op c.mem) :
    ∃ rest o, k (c.mem (.c .rdr)) = Prog.doing (ConcBuf.prog R fuel) (.call op next) rest ∧ (ConcBuf.prog R fuel op).exec c.mem = (c.mem, o) ∧
      Cfg.Steps (callers (Γ := bufSig σ) BufC.rdr back (ConcBuf.prog R fuel)) (c.go t (some (k (c.mem (.c .rdr))))) [] (c.go t (some (Prog.doing (ConcBuf.prog R fuel) (next o) rest))) :=
  returns_apart (ConcBuf.plain R fuel) hs ht hb hf (ConcBuf.apart R fuel ho ha)

theorem C83_readerAt_apart (R : Rdr σ) (back : σ → ReaderDoes σ) (rdr : σ) (n : Int) {tr₀ : List Event} {c : Verif.Cfg (posSig σ)}
    (hs : Cfg.Steps (callers (Γ := posSig σ) PosC.rdr back (ConcPos.readerAtProg R)) (.init (ConcPos.init rdr n)) tr₀ c) {t : Nat} {k : σ → Prog (posSig σ)}
    (ht : c.thr t = some (.get (.c .rdr) k)) {op : Op} {next : Out → ReaderDoes σ} (hb : back (c.mem (.c .rdr)) = .call op next) (ho : OfPositional op)
    (hf : c.owner (.body op.h) = none) (ha : ReaderAtApart op c.mem) :
    ∃ rest o, k (c.mem (.c .rdr)) = Prog.doing (ConcPos.readerAtProg R) (.call op next) rest ∧ (ConcPos.readerAtProg R op).exec c.mem = (c.mem, o) ∧
      Cfg.Steps (callers (Γ := posSig σ) PosC.rdr back (ConcPos.readerAtProg R)) (c.go t (some (k (c.mem (.c .rdr))))) [] (c.go t (some (Prog.doing (ConcPos.readerAtProg R) (next o) rest))) :=
  returns_apart (ConcPos.plain_readerAt R) hs ht hb hf (ConcPos.apart_readerAt R ho ha)

theorem C83_seeker_apart (R : Rdr σ) (back : σ → ReaderDoes σ) (rdr : σ) (n : Int) {tr₀ : List Event} {c : Verif.Cfg (posSig σ)}
    (hs : Cfg.Steps (callers (Γ := posSig σ) PosC.rdr back (ConcPos.seekerProg R)) (.init (ConcPos.init rdr n)) tr₀ c) {t : Nat} {k : σ → Prog (posSig σ)}
    (ht : c.thr t = some (.get (.c .rdr) k)) {op : Op} {next : Out → ReaderDoes σ} (hb : back (c.mem (.c .rdr)) = .call op next) (ho : OfPositional op)
    (hf : c.owner (.body op.h) = none) (ha : SeekerApart op c.mem) :
    ∃ rest o, k (c.mem (.c .rdr)) = Prog.doing (ConcPos.seekerProg R) (.call op next) rest ∧ (ConcPos.seekerProg R op).exec c.mem = (c.mem, o) ∧
      Cfg.Steps (callers (Γ := posSig σ) PosC.rdr back (ConcPos.seekerProg R)) (c.go t (some (k (c.mem (.c .rdr))))) [] (c.go t (some (Prog.doing (ConcPos.seekerProg R) (next o) rest))) :=
  returns_apart (ConcPos.plain_seeker R) hs ht hb hf (ConcPos.apart_seeker R ho ha)

/-! ## Examples -/

/-- The next step of goroutine 0, which makes the calls `ops`, alone. -/
def soloStep {Γ : Sig} (prog : Op → Prog Γ) (x : Verif.Cfg Γ × List Op) : Verif.Cfg Γ × List Op :=
  match x.1.thr 0, x.2 with
  | none, [] => x
  | none, op :: ops => if op.h < x.1.mem .next then (x.1.go 0 (some (prog op)), ops) else x
  | some (.ret _), _ => (x.1.go 0 none, x.2)
  | some .stuck, _ => x
  | some (.get l k), _ => (x.1.go 0 (some (k (x.1.mem l))), x.2)
  | some (.put l v k), _ => ({ x.1 with mem := x.1.mem.set l v }.go 0 (some k), x.2)
  | some (.lock m k), _ => if x.1.owner m = none then ((x.1.own m (some 0)).go 0 (some k), x.2) else x
  | some (.unlock m k), _ => ((x.1.own m none).go 0 (some k), x.2)

def solo {Γ : Sig} (prog : Op → Prog Γ) (x : Verif.Cfg Γ × List Op) : Nat → Verif.Cfg Γ × List Op
  | 0 => x
  | n + 1 => soloStep prog (solo prog x n)

theorem solo_steps {Γ : Sig} (prog : Op → Prog Γ) (x : Verif.Cfg Γ × List Op) (n : Nat) : ∃ tr, Cfg.Steps prog x.1 tr (solo prog x n).1 := by
  induction n with
  | zero => exact ⟨[], .nil _⟩
  | succ n ih =>
    obtain ⟨tr, h⟩ := ih
    simp only [solo]
    generalize solo prog x n = y at h ⊢
    obtain ⟨c, ops⟩ := y
    unfold soloStep
    split
    · exact ⟨tr, h⟩
    · split
      next h1 _ h2 => exact ⟨_, h.snoc (.inv c 0 _ h1 h2)⟩
      · exact ⟨tr, h⟩
    next h1 => exact ⟨_, h.snoc (.ret c 0 _ h1)⟩
    · exact ⟨tr, h⟩
    next h1 => exact ⟨_, h.snoc (.get c 0 _ _ h1)⟩
    next h1 => exact ⟨_, h.snoc (.put c 0 _ _ _ h1)⟩
    next h1 =>
      split
      next h2 => exact ⟨_, h.snoc (.lock c 0 _ _ h1 h2)⟩
      · exact ⟨tr, h⟩
    next h1 => exact ⟨_, h.snoc (.unlock c 0 _ _ h1)⟩

/-- Goroutine 0 is about to call the Reader. -/
def atReader (c : Verif.Cfg (bufSig σ)) : Bool := match c.thr 0 with | some (.get (.c .rdr) _) => true | _ => false

theorem atReader_iff {c : Verif.Cfg (bufSig σ)} (h : atReader c = true) : ∃ k, c.thr 0 = some (.get (.c .rdr) k) := by
  unfold atReader at h
  split at h
  next k hk => exact ⟨k, hk⟩
  · cases h

/-- A Reader of sevens. -/
def sevens : Rdr Unit where
  read s k := (s, .got (List.replicate k 7) none)
  readAt s k _ := (s, .got (List.replicate k 7) none)
  seek s off _ := (s, .ok (off, none))
  stat s := (s, .ok (0, none))
  close s := (s, .ok none)
  isReaderAt := false
  isSeeker := false
  isFile := false
  isCloser := false

/-- Bodies over a Reader of sevens that makes the call `op` first. -/
def sevensAfter (op : Op) : Op → Prog (bufSig Unit) := callers (Γ := bufSig Unit) BufC.rdr (fun s => .call op fun _ => .answer s) (ConcBuf.prog sevens 9)

/-- Goroutine 0 reads a byte of a Body over a Reader that first asks the same Body how much remains: it never returns, whatever the other
goroutines do. -/
example : ∃ tr₀ c k, Cfg.Steps (sevensAfter (.remaining 0)) (.init (ConcBuf.init () (-1))) tr₀ c ∧ c.thr 0 = some (.get (.c .rdr) k) ∧
    ∀ tr d, Cfg.Steps (sevensAfter (.remaining 0)) (c.go 0 (some (k ()))) tr d → ∀ o, Event.ret 0 o ∉ tr := by
  obtain ⟨tr₀, hs⟩ := solo_steps (sevensAfter (.remaining 0)) (.init (ConcBuf.init () (-1)), [.read 0 1]) 13
  obtain ⟨k, hk⟩ := atReader_iff (show atReader (solo (sevensAfter (.remaining 0)) (.init (ConcBuf.init () (-1)), [.read 0 1]) 13).1 = true by decide +kernel)
  have ho : (solo (sevensAfter (.remaining 0)) (.init (ConcBuf.init () (-1)), [.read 0 1]) 13).1.owner (.body 0) = some 0 := by decide +kernel
  refine ⟨tr₀, _, k, hs, hk, fun tr d hd => ?_⟩
  rcases C83_stream sevens 9 (fun s => .call (.remaining 0) fun _ => .answer s) () (-1) hs hk rfl trivial hd with h | ⟨h, _⟩
  · exact h.silent
  · exact absurd ho h

/-- Goroutine 0 copies the Body, closes the copy, and reads a byte of the Body; the Reader first tries to read from the copy – that returns
`ErrClosed` – and then, because of this, asks the Body how much remains: only that never returns. -/
def triesCopy : Unit → ReaderDoes Unit := fun s => .call (.read 1 7) fun
  | .read _ (some .closed) => .call (.remaining 0) fun _ => .answer s
  | _ => .answer s

example : ∃ tr₀ c, Cfg.Steps (callers (Γ := bufSig Unit) BufC.rdr triesCopy (ConcBuf.prog sevens 9)) (.init (ConcBuf.init () (-1))) tr₀ c ∧
    (∃ k : Out → Prog (bufSig Unit), c.thr 0 = some ((ConcBuf.prog sevens 9 (.remaining 0)).bind k)) ∧
    ∀ tr d, Cfg.Steps (callers (Γ := bufSig Unit) BufC.rdr triesCopy (ConcBuf.prog sevens 9)) c tr d → Waits c tr d 0 := by
  let P := callers (Γ := bufSig Unit) BufC.rdr triesCopy (ConcBuf.prog sevens 9)
  obtain ⟨tr₀, hs⟩ := solo_steps P (.init (ConcBuf.init () (-1)), [.copy 0, .close 1, .read 0 1]) 53
  obtain ⟨k, hk⟩ := atReader_iff (show atReader (solo P (.init (ConcBuf.init () (-1)), [.copy 0, .close 1, .read 0 1]) 53).1 = true by decide +kernel)
  have ho : (solo P (.init (ConcBuf.init () (-1)), [.copy 0, .close 1, .read 0 1]) 53).1.owner (.body 1) = none := by decide +kernel
  have h0 : (solo P (.init (ConcBuf.init () (-1)), [.copy 0, .close 1, .read 0 1]) 53).1.owner (.body 0) = some 0 := by decide +kernel
  have hm : (solo P (.init (ConcBuf.init () (-1)), [.copy 0, .close 1, .read 0 1]) 53).1.owner .common = some 0 := by decide +kernel
  have hc : ((solo P (.init (ConcBuf.init () (-1)), [.copy 0, .close 1, .read 0 1]) 53).1.mem (.b 1 .closed) : Bool) = true := by decide +kernel
  generalize (solo P (.init (ConcBuf.init () (-1)), [.copy 0, .close 1, .read 0 1]) 53).1 = c at *
  obtain ⟨rest, o, hr, he, h⟩ := C83_stream_apart sevens 9 triesCopy () (-1) hs hk rfl trivial ho (.inl hc)
  have e : o = .read [] (some .closed) := by
    have h2 := congrArg Prod.snd he
    simp only [ConcBuf.prog, ConcBuf.read, Prog.exec] at h2
    rw [hc] at h2
    exact h2.symm
  subst e
  have hg := (hs.append (Cfg.Steps.single (.get c 0 _ k hk))).append h
  refine ⟨_, _, hg, ⟨_, by simp [Cfg.go, Prog.doing]; rfl⟩, fun tr d hd => ?_⟩
  rcases C83_stream_later sevens 9 triesCopy () (-1) hg (t := 0) (op := .remaining 0) trivial (k := fun _ => rest ()) (by simp [Cfg.go, Prog.doing]) hm hd with h | ⟨h, _⟩
  · exact h
  · exact absurd h0 h

end Verif
