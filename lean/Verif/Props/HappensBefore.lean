import Verif.Proofs.HappensBefore
import Verif.Props.Concurrent

/-!
# C78: goroutines that use Bodies do not race, in the sense of the Go memory model

Any number of goroutines call methods on the Bodies of one family.  `Spec/HappensBefore.lean` has the order that the Go memory model guarantees, and what a data
race is.  By `execution_steps` and `steps_execution` the executions there are those of `Cfg.Steps`, with labels.
-/

set_option autoImplicit false

namespace Verif
open Spec
variable {σ : Type}

/-- **C78**, ReaderAt-backed bodies.  (The state of the Reader is one of the variables: it is never called by two goroutines at the same time.) -/
theorem C78_readerAt (R : Rdr σ) (rdr : σ) (n : Int) (x : Trail (posSig σ)) (c : Verif.Cfg (posSig σ))
    (hx : Execution (ConcPos.readerAtProg R) (.init (ConcPos.init rdr n)) x c) (l : Loc (posSig σ)) : ¬ DataRace x l :=
  fam_noDataRace (ConcPos.readerAtFam R) trivial hx (fun _ _ _ => trivial) fun _ _ h => by cases h.1

/-- **C78**, stream-backed bodies. -/
theorem C78_buffered (R : Rdr σ) (fuel : Nat) (rdr : σ) (n : Int) (x : Trail (bufSig σ)) (c : Verif.Cfg (bufSig σ))
    (hx : Execution (ConcBuf.prog R fuel) (.init (ConcBuf.init rdr n)) x c) (l : Loc (bufSig σ)) : ¬ DataRace x l :=
  fam_noDataRace (ConcBuf.fam R fuel) (ConcBuf.good_init rdr n) hx (fun _ _ _ => trivial) fun _ _ h => h

/-- **C78**, bodies over byte slices. -/
theorem C78_bytes (data : List Byte) (x : Trail bytesSig) (c : Verif.Cfg bytesSig)
    (hx : Execution ConcBytes.prog (.init (ConcBytes.init data)) x c) (l : Loc bytesSig) : ¬ DataRace x l :=
  fam_noDataRace ConcBytes.fam trivial hx (fun _ _ _ => trivial) fun _ _ h => h

/-- **C78**, empty bodies. -/
theorem C78_empty (x : Trail emptySig) (c : Verif.Cfg emptySig) (hx : Execution ConcEmpty.prog (.init ConcEmpty.init) x c) (l : Loc emptySig) :
    ¬ DataRace x l :=
  fam_noDataRace ConcEmpty.fam trivial hx (fun _ _ _ => trivial) fun _ _ h => h

/-- **C78**, Seeker-backed bodies: all variables but the shared length.  The full statement, for every `l`, is that of `C78_readerAt`; it is false
(`C78_seeker_race`). -/
theorem C78_seeker_partial (R : Rdr σ) (rdr : σ) (n : Int) (x : Trail (posSig σ)) (c : Verif.Cfg (posSig σ))
    (hx : Execution (ConcPos.seekerProg R) (.init (ConcPos.init rdr n)) x c) (l : Loc (posSig σ)) (hl : l ≠ .c .length) : ¬ DataRace x l :=
  fam_noDataRace (ConcPos.seekerFam R) trivial hx (fun _ _ _ => trivial) fun f e h => hl (by rw [e, h.2])

/-- Calls of `BytesRemaining`, as seen from outside. -/
theorem quiet_allowed (R : Rdr σ) {x : Trail (posSig σ)} (hq : ∀ t h, (t, Did.call (.remaining h)) ∉ x) : AllAllowed (ConcPos.seekerFam' R) x.events := by
  intro t op hm h e
  subst e
  obtain ⟨⟨u, a⟩, h1, h2⟩ := List.mem_flatMap.1 hm
  cases a <;> simp [Did.event] at h2
  obtain ⟨rfl, rfl⟩ := h2
  exact hq _ _ h1

/-- **C78**, Seeker-backed bodies, as long as nobody calls `BytesRemaining`: all variables. -/
theorem C78_seeker_quiet_partial (R : Rdr σ) (rdr : σ) (n : Int) (x : Trail (posSig σ)) (c : Verif.Cfg (posSig σ))
    (hx : Execution (ConcPos.seekerProg R) (.init (ConcPos.init rdr n)) x c) (hq : ∀ t h, (t, Did.call (.remaining h)) ∉ x) (l : Loc (posSig σ)) :
    ¬ DataRace x l :=
  fam_noDataRace (ConcPos.seekerFam' R) trivial hx (quiet_allowed R hq) fun _ _ h => by cases h.1

/-! ## Sequential consistency

The memory model lets a goroutine find any value that is visible to it, perhaps an old one.  For the methods of Bodies that makes no difference: all that is proved
of the executions in `Cfg.Steps` (C44, C45 and others) holds of those that the memory model allows. -/

/-- **C78**, ReaderAt-backed bodies. -/
theorem C78_readerAt_sequential (R : Rdr σ) (rdr : σ) (n : Int) (x : Trail (posSig σ)) (c : Verif.Cfg (posSig σ)) :
    WeakExecution (ConcPos.readerAtProg R) (ConcPos.init rdr n) x c ↔ Execution (ConcPos.readerAtProg R) (.init (ConcPos.init rdr n)) x c :=
  ⟨fun h => fam_sequential (ConcPos.readerAtFam R) trivial (fun _ h => by cases h.1) h fun _ _ _ => trivial, fam_weak (ConcPos.readerAtFam R)⟩

/-- **C78**, stream-backed bodies. -/
theorem C78_buffered_sequential (R : Rdr σ) (fuel : Nat) (rdr : σ) (n : Int) (x : Trail (bufSig σ)) (c : Verif.Cfg (bufSig σ)) :
    WeakExecution (ConcBuf.prog R fuel) (ConcBuf.init rdr n) x c ↔ Execution (ConcBuf.prog R fuel) (.init (ConcBuf.init rdr n)) x c :=
  ⟨fun h => fam_sequential (ConcBuf.fam R fuel) (ConcBuf.good_init rdr n) (fun _ h => h) h fun _ _ _ => trivial, fam_weak (ConcBuf.fam R fuel)⟩

/-- **C78**, bodies over byte slices. -/
theorem C78_bytes_sequential (data : List Byte) (x : Trail bytesSig) (c : Verif.Cfg bytesSig) :
    WeakExecution ConcBytes.prog (ConcBytes.init data) x c ↔ Execution ConcBytes.prog (.init (ConcBytes.init data)) x c :=
  ⟨fun h => fam_sequential ConcBytes.fam trivial (fun _ h => h) h fun _ _ _ => trivial, fam_weak ConcBytes.fam⟩

/-- **C78**, empty bodies. -/
theorem C78_empty_sequential (x : Trail emptySig) (c : Verif.Cfg emptySig) :
    WeakExecution ConcEmpty.prog ConcEmpty.init x c ↔ Execution ConcEmpty.prog (.init ConcEmpty.init) x c :=
  ⟨fun h => fam_sequential ConcEmpty.fam trivial (fun _ h => h) h fun _ _ _ => trivial, fam_weak ConcEmpty.fam⟩

/-- **C78**, Seeker-backed bodies, as long as nobody calls `BytesRemaining`.  The full statement, without that restriction, is that of `C78_readerAt_sequential`;
it is false (`C78_seeker_stale`). -/
theorem C78_seeker_sequential_partial (R : Rdr σ) (rdr : σ) (n : Int) (x : Trail (posSig σ)) (c : Verif.Cfg (posSig σ))
    (hq : ∀ t h, (t, Did.call (.remaining h)) ∉ x) :
    WeakExecution (ConcPos.seekerProg R) (ConcPos.init rdr n) x c ↔ Execution (ConcPos.seekerProg R) (.init (ConcPos.init rdr n)) x c :=
  ⟨fun h => fam_sequential (ConcPos.seekerFam' R) trivial (fun _ h => by cases h.1) h (quiet_allowed R hq), fam_weak (ConcPos.seekerFam' R)⟩

/-- **C78**: what the memory model allows is linearizable; for example stream-backed bodies. -/
theorem C78_buffered_linearizable (R : Rdr σ) (fuel : Nat) (rdr : σ) (n : Int) (x : Trail (bufSig σ)) (c : Verif.Cfg (bufSig σ))
    (hx : WeakExecution (ConcBuf.prog R fuel) (ConcBuf.init rdr n) x c) :
    Sequential (BufSys.step R fuel) (BufSys.init rdr n) x.events :=
  C44_linearizable_sequential (C44_buffered R fuel rdr n) _ _ (execution_steps ((C78_buffered_sequential R fuel rdr n x c).1 hx))

/-- The last step of a goroutine, if it is an access to a variable, does not happen before anything. -/
theorem last_access {Γ : Sig} {x : Trail Γ} {t i : Nat} {a : Did Γ} {l : Loc Γ} (hi : x[i]? = some (t, a)) (ha : Did.Touches a l)
    (hl : ∀ j b, i < j → x[j]? ≠ some (t, b)) (j : Nat) : ¬ HappensBefore x i j := by
  intro h
  generalize hk : i = k at h
  induction h with
  | program h1 h2 h3 =>
    subst hk
    rw [hi] at h2
    cases h2
    exact hl _ _ h1 h3
  | mutex h1 h2 h3 =>
    subst hk
    rw [hi] at h2
    cases h2
    rcases ha with ha | ⟨_, ha⟩ <;> cases ha
  | handed h1 h2 =>
    subst hk
    rw [hi] at h2
    cases h2
    rcases ha with ha | ⟨_, ha⟩ <;> cases ha
  | trans _ _ ih _ => exact ih hk

/-- If a goroutine is about to write what another is about to read, there will be a data race. -/
theorem about_to_race {Γ : Sig} {prog : Op → Prog Γ} {b c : Verif.Cfg Γ} {x : Trail Γ} (hx : Execution prog b x c) {t u : Nat} (hne : t ≠ u)
    {l : Loc Γ} (hl : l ≠ .next) {v : l.Val} {k : Prog Γ} (hw : c.thr t = some (.put l v k)) {k' : l.Val → Prog Γ} (hr : c.thr u = some (.get l k')) :
    ∃ y d, Execution prog b y d ∧ DataRace y l := by
  have h1 := hx.snoc (.read c u l k' hr)
  have h2 := h1.snoc (.write _ t l v k (by simp [Cfg.go, hne, hw]) hl)
  refine ⟨_, _, h2, x.length, x.length + 1, ⟨u, t, .read l, .write l v, hne.symm, ?_, ?_, .inr ⟨rfl, _, rfl⟩⟩, ?_, ?_⟩
  · simp
  · simp
  · refine last_access (t := u) (a := .read l) (l := l) (by simp) (.inl rfl) (fun j b hj h => ?_) _
    rcases getElem_snoc h with h | ⟨-, h⟩
    · have := getElem_lt h
      simp at this
      omega
    · cases h; exact hne rfl
  · refine last_access (t := t) (a := .write l v) (l := l) (by simp) (.inr ⟨_, rfl⟩) (fun j b hj h => ?_) _
    have := getElem_lt h
    simp at this
    omega

/-- **C78 is false of Seeker-backed bodies**: `BytesRemaining` reads the shared length without the lock, while `Read` on another copy writes it. -/
theorem C78_seeker_race : ∃ (R : Rdr (Bool × Nat)) (rdr : Bool × Nat) (x : Trail (posSig (Bool × Nat))) (c : Verif.Cfg (posSig (Bool × Nat))),
    Execution (ConcPos.seekerProg R) (.init (ConcPos.init rdr 3)) x c ∧ DataRace x (.c .length) := by
  obtain ⟨x, hx, -⟩ := steps_execution (Cfg.play_steps (prog := ConcPos.seekerProg (flakyRdr [1, 2, 3])) (c := .init (ConcPos.init (false, 0) 3))
    (as := raceSchedule) rfl)
  exact ⟨_, _, about_to_race hx (t := 0) (u := 1) (by decide) (l := (.c PosC.length : Loc (posSig (Bool × Nat)))) (by simp) rfl rfl⟩

/-- If a goroutine is about to write what another is about to read, the memory model lets the other read the old value after it was written. -/
theorem about_to_miss {Γ : Sig} {S : Type} (Φ : Fam Γ S) {M : Mem Γ} {c : Verif.Cfg Γ} {x : Trail Γ} (hx : Execution Φ.prog (.init M) x c) {t u : Nat}
    (hne : t ≠ u) {l : Loc Γ} (hl : l ≠ .next) {v : l.Val} {k : Prog Γ} (hw : c.thr t = some (.put l v k)) {k' : l.Val → Prog Γ}
    (hr : c.thr u = some (.get l k')) :
    WeakExecution Φ.prog M (x ++ [(t, .write l v)] ++ [(u, .read l)]) (({ c with mem := c.mem.set l v }.go t (some k)).go u (some (k' (c.mem l)))) := by
  have h1 : WeakExecution Φ.prog M (x ++ [(t, .write l v)]) ({ c with mem := c.mem.set l v }.go t (some k)) :=
    .other (fam_weak Φ hx) (.write c t l v k hw hl) fun _ _ h => by cases h
  have hlast : ¬ HappensBefore (x ++ [(t, Did.write l v)] ++ [(u, .read l)]) x.length (x ++ [(t, Did.write l v)]).length := by
    refine last_access (t := t) (a := .write l v) (l := l) (by simp) (.inr ⟨_, rfl⟩) (fun j b hj h => ?_) _
    rcases getElem_snoc h with h | ⟨-, h⟩
    · have := getElem_lt h
      simp at this
      omega
    · cases h; exact hne rfl
  refine .read h1 (by simp [Cfg.go, Ne.symm hne, hr]) hl ?_
  rcases execution_mem hx hl with ⟨i, w, h3, h4⟩ | ⟨h3, h4⟩
  · refine .inl ⟨i, w, getElem_more h3 _, fun j w' v' hj hij => ?_⟩
    rcases getElem_snoc hj with hj | ⟨rfl, -⟩
    · have := h4 j w' v' hj
      have := hb_lt hij
      omega
    · exact hlast
  · refine .inr ⟨h3, fun j w' v' hj => ?_⟩
    rcases getElem_snoc hj with hj | ⟨rfl, -⟩
    · exact absurd hj (h4 j w' v')
    · exact hlast

/-- What is done determines the state. -/
theorem does_det {Γ : Sig} {prog : Op → Prog Γ} {c d e : Verif.Cfg Γ} {t : Nat} {a : Did Γ} (h : Does prog c t a d) (h' : Does prog c t a e) : d = e := by
  cases h <;> cases h' <;>
    first
    | rfl
    | (simp_all; done)
    | (rename_i h1 _ h2; rw [h1] at h2; cases h2; rfl)
    | (rename_i h1 _ _ _ h2; rw [h1] at h2; cases h2; rfl)
    | (rename_i h1 _ _ h2 _; rw [h1] at h2; cases h2; rfl)

theorem execution_det {Γ : Sig} {prog : Op → Prog Γ} {c d e : Verif.Cfg Γ} {x y : Trail Γ} (h : Execution prog c x d) (h' : Execution prog c y e)
    (hxy : x = y) : d = e := by
  induction h generalizing y e with
  | nil =>
    cases h' with
    | nil => rfl
    | snoc _ _ => exact absurd hxy (by simp)
  | snoc _ hd ih =>
    cases h' with
    | nil => exact absurd hxy (by simp)
    | snoc h2 hd' =>
      obtain ⟨h3, h4⟩ := List.append_inj' hxy rfl
      cases h4
      cases ih h2 h3
      exact does_det hd hd'

/-- In the execution that is sequentially consistent it reads the new value. -/
theorem about_to_find {Γ : Sig} {prog : Op → Prog Γ} {c₀ c d : Verif.Cfg Γ} {x : Trail Γ} (hx : Execution prog c₀ x c) {t u : Nat}
    (hne : t ≠ u) {l : Loc Γ} (hl : l ≠ .next) {v : l.Val} {k : Prog Γ} (hw : c.thr t = some (.put l v k)) {k' : l.Val → Prog Γ}
    (hr : c.thr u = some (.get l k')) (hd : Execution prog c₀ (x ++ [(t, .write l v)] ++ [(u, .read l)]) d) : d.thr u = some (k' v) := by
  have h := execution_det hd (.snoc (.snoc hx (.write c t l v k hw hl)) (.read _ u l k' (by simp [Cfg.go, Ne.symm hne, hr]))) rfl
  rw [h]
  simp [Cfg.go, Mem.set]

/-- A state in which goroutine 0 is about to shorten the length, and goroutine 1 to read it, and to return what it makes of it. -/
theorem about_to_shorten : ∃ (c : Verif.Cfg (posSig (Bool × Nat))) (tr : List Event) (v : Int) (k : Prog (posSig (Bool × Nat))) (f : Int → Prog (posSig (Bool × Nat))),
    Cfg.Steps (ConcPos.seekerProg (flakyRdr [1, 2, 3])) (.init (ConcPos.init (false, 0) 3)) tr c ∧
      c.thr 0 = some (.put (.c PosC.length : Loc (posSig (Bool × Nat))) v k) ∧
      c.thr 1 = some (.get (.c PosC.length : Loc (posSig (Bool × Nat))) f) ∧
      f = (fun length => .get (.b 1 PosB.offset : Loc (posSig (Bool × Nat))) fun offset => ConcPos.quit 1 (.remaining (length - offset))) ∧
      c.mem (.c .length) = 3 ∧ v = 0 :=
  ⟨_, _, _, _, _, Cfg.play_steps (as := raceSchedule) rfl, rfl, rfl, rfl, rfl, rfl⟩

/-- **C78**, Seeker-backed bodies: what the race leads to.  The memory model lets `BytesRemaining` find the length that there was before a read of another copy
shortened it, after it was shortened, and then it returns 3 and not 0: an execution that is not sequentially consistent. -/
theorem C78_seeker_stale : ∃ (R : Rdr (Bool × Nat)) (rdr : Bool × Nat) (x : Trail (posSig (Bool × Nat))) (c : Verif.Cfg (posSig (Bool × Nat))),
    WeakExecution (ConcPos.seekerProg R) (ConcPos.init rdr 3) x c ∧ ¬ Execution (ConcPos.seekerProg R) (.init (ConcPos.init rdr 3)) x c := by
  obtain ⟨c, tr, v, k, f, hs, hw, hr, hf, h3, h0⟩ := about_to_shorten
  obtain ⟨x, hx, -⟩ := steps_execution hs
  refine ⟨_, _, _, _, about_to_miss (ConcPos.seekerFam (flakyRdr [1, 2, 3])) hx (by decide) (by simp) hw hr, fun hd => ?_⟩
  have h := about_to_find hx (by decide) (by simp) hw hr hd
  rw [show (Cfg.go _ 1 (some (f (c.mem (.c .length))))).thr 1 = some (f (c.mem (.c .length))) by simp [Cfg.go], h3, h0, hf] at h
  simp only [Option.some.injEq, Prog.get.injEq, heq_eq_eq, true_and] at h
  have h := congrFun h 0
  simp [ConcPos.quit] at h
  exact absurd (show (3 : Int) - 0 = 0 - 0 from h) (by decide)

/-! ## Non-vacuity: executions with conflicting accesses -/

/-- What the scheduler makes happen. -/
def Cfg.did {Γ : Sig} (c : Verif.Cfg Γ) : Act → Nat × Did Γ
  | .call t op => (t, .call op)
  | .go t => (t, match c.thr t with
    | some (.get l _) => .read l
    | some (.put .next v _) => .made (c.mem .next) v
    | some (.put l v _) => .write l v
    | some (.lock m _) => .lock m
    | some (.unlock m _) => .unlock m
    | some (.ret o) => .ret o
    | _ => .ret .hang)

/-- A schedule, with labels. -/
def Cfg.trail {Γ : Sig} (prog : Op → Prog Γ) (c : Verif.Cfg Γ) : List Act → Option (Trail Γ)
  | [] => some []
  | a :: as => match c.next prog a with
    | none => none
    | some (_, d) => (d.trail prog as).map (c.did a :: ·)

theorem next_does {Γ : Sig} {prog : Op → Prog Γ} {c d : Verif.Cfg Γ} {a : Act} {ev : Option Event} (h : c.next prog a = some (ev, d)) :
    Does prog c (c.did a).1 (c.did a).2 d := by
  cases a with
  | call t op =>
    simp only [Cfg.next] at h
    split at h
    · rename_i ht
      split at h
      · rename_i hh; cases h; exact .call c t op ht hh
      · cases h
    · cases h
  | go t =>
    simp only [Cfg.next] at h
    simp only [Cfg.did]
    split at h
    · cases h
    · rename_i ht; cases h; rw [ht]; exact .ret c t _ ht
    · cases h
    · rename_i ht; cases h; rw [ht]; exact .read c t _ _ ht
    · rename_i l v k ht
      cases h; rw [ht]
      cases l with
      | next => exact .made c t _ _ ht
      | c f => exact .write c t _ _ _ ht (by simp)
      | b j f => exact .write c t _ _ _ ht (by simp)
    · rename_i ht
      split at h
      · rename_i ho; cases h; rw [ht]; exact .lock c t _ _ ht ho
      · cases h
    · rename_i ht; cases h; rw [ht]; exact .unlock c t _ _ ht

theorem trail_execution {Γ : Sig} {prog : Op → Prog Γ} {as : List Act} : ∀ {b c : Verif.Cfg Γ} {x y : Trail Γ}, Execution prog b x c →
    c.trail prog as = some y → ∃ d, Execution prog b (x ++ y) d := by
  induction as with
  | nil => intro b c x y hx h; cases h; exact ⟨c, by rw [List.append_nil]; exact hx⟩
  | cons a as ih =>
    intro b c x y hx h
    simp only [Cfg.trail] at h
    split at h
    · cases h
    · rename_i ev d h1
      rw [Option.map_eq_some_iff] at h
      obtain ⟨z, h2, rfl⟩ := h
      obtain ⟨e, he⟩ := ih (hx.snoc (next_does h1)) h2
      exact ⟨e, by rw [List.append_assoc] at he; exact he⟩

/-- Is there a conflict? -/
def conflictB {Γ : Sig} (x : Trail Γ) (l : Loc Γ) (i j : Nat) : Bool :=
  match x[i]?, x[j]? with
  | some (t, .write l₁ _), some (u, .write l₂ _) => decide (t ≠ u ∧ l₁ = l ∧ l₂ = l)
  | some (t, .write l₁ _), some (u, .read l₂) => decide (t ≠ u ∧ l₁ = l ∧ l₂ = l)
  | some (t, .read l₁), some (u, .write l₂ _) => decide (t ≠ u ∧ l₁ = l ∧ l₂ = l)
  | _, _ => false

theorem conflictB_conflict {Γ : Sig} {x : Trail Γ} {l : Loc Γ} {i j : Nat} (h : conflictB x l i j = true) : Conflict x l i j := by
  unfold conflictB at h
  split at h
  · rename_i h1 h2
    obtain ⟨h3, rfl, rfl⟩ := of_decide_eq_true h
    exact ⟨_, _, _, _, h3, h1, h2, .inl ⟨⟨_, rfl⟩, .inl ⟨_, rfl⟩⟩⟩
  · rename_i h1 h2
    obtain ⟨h3, rfl, rfl⟩ := of_decide_eq_true h
    exact ⟨_, _, _, _, h3, h1, h2, .inl ⟨⟨_, rfl⟩, .inr rfl⟩⟩
  · rename_i h1 h2
    obtain ⟨h3, rfl, rfl⟩ := of_decide_eq_true h
    exact ⟨_, _, _, _, h3, h1, h2, .inr ⟨rfl, _, rfl⟩⟩
  · cases h

theorem trail_conflict {Γ : Sig} {prog : Op → Prog Γ} {c : Verif.Cfg Γ} {as : List Act} {l : Loc Γ} {i j : Nat}
    (h : (c.trail prog as).any (fun x => conflictB x l i j) = true) : ∃ x d, Execution prog c x d ∧ Conflict x l i j := by
  cases e : c.trail prog as with
  | none => rw [e] at h; cases h
  | some x =>
    rw [e] at h
    obtain ⟨d, hd⟩ := trail_execution .nil e
    exact ⟨x, d, hd, conflictB_conflict h⟩

-- two goroutines read from the same Body: both change its offset, one after the other
example : ∃ x d, Execution ConcBytes.prog (.init (ConcBytes.init [1, 2, 3, 4])) x d ∧ Conflict x (.b 0 .offset) 7 16 ∧ HappensBefore x 7 16 := by
  obtain ⟨x, d, h1, h2⟩ := trail_conflict (prog := ConcBytes.prog) (c := .init (ConcBytes.init [1, 2, 3, 4])) (l := (.b 0 BytesF.offset : Loc bytesSig))
    (i := 7) (j := 16) (as := [.call 0 (.read 0 2), .call 1 (.read 0 3)] ++ List.replicate 9 (.go 0) ++ List.replicate 9 (.go 1)) (by decide +kernel)
  exact ⟨x, d, h1, h2, (fam_ordered ConcBytes.fam trivial h1 fun _ _ _ => trivial).2 _ _ _ (fun _ _ h => h) (by decide) h2⟩

/-- Goroutine 0 makes a copy and reads from the original, goroutine 1 reads from the copy. -/
theorem streaming {i j : Nat} {l : Loc (bufSig (List RResp))} (hij : i < j)
    (h : ((Cfg.init (ConcBuf.init [.got [1, 2] none, .got [] none, .got [3] none, .got [4, 5] (some .eof)] (-1))).trail (ConcBuf.prog scripted 10)
      (overlap 21 ([0, 1, 0, 1] ++ List.replicate 36 0 ++ [1, 0, 1, 0] ++ List.replicate 22 1))).any (fun x => conflictB x l i j) = true) :
    ∃ x d, Execution (ConcBuf.prog scripted 10)
      (.init (ConcBuf.init [.got [1, 2] none, .got [] none, .got [3] none, .got [4, 5] (some .eof)] (-1))) x d ∧ Conflict x l i j ∧
      HappensBefore x i j := by
  obtain ⟨x, d, h1, h2⟩ := trail_conflict h
  exact ⟨x, d, h1, h2, (fam_ordered (ConcBuf.fam scripted 10) (ConcBuf.good_init _ _) h1 fun _ _ _ => trivial).2 _ _ _ (fun _ _ h => h) hij h2⟩

-- what goroutine 0 wrote into the copy it made, goroutine 1 reads
example := streaming (i := 9) (j := 70) (l := .b 1 .offset) (by decide) (by decide +kernel)
-- goroutine 0 looks at the offset of the copy to see which bytes are still needed, then goroutine 1 changes it
example := streaming (i := 14) (j := 73) (l := .b 1 .offset) (by decide) (by decide +kernel)
-- the bytes that goroutine 0 obtained from the Reader, goroutine 1 reads
example := streaming (i := 52) (j := 69) (l := .c .bytes) (by decide) (by decide +kernel)

end Verif
