import Verif.Proofs.Locks

/-!
# Readers that call back: mutexes

`Plain H p`: a goroutine that holds the mutexes `H` and has yet to execute `p` locks and unlocks properly, and calls the Reader with the
family's mutex held.  `Shape H p`: the same of a method whose Reader makes calls, as long as no mutex is locked twice.
-/

set_option autoImplicit false

namespace Verif
variable {Γ : Sig}

def Plain (r : Γ.CF) : List Lk → Prog Γ → Prop
  | H, .ret _ => H = []
  | _, .stuck => True
  | H, .get l k => (l = .c r → Lk.common ∈ H) ∧ ∀ v, Plain r H (k v)
  | H, .put _ _ k => Plain r H k
  | H, .lock m k => Plain r (m :: H) k
  | H, .unlock m k => m ∈ H ∧ Plain r (H.filter (· ≠ m)) k

def Shape (r : Γ.CF) (back : Γ.CV r → ReaderDoes (Γ.CV r)) (prog : Op → Prog Γ) : List Lk → Prog Γ → Prop
  | H, .ret _ => H = []
  | _, .stuck => True
  | H, .get l k => (∀ v op next, calledBack r back l v = .call op next → Lk.common ∈ H ∧ ∃ k', k v = Prog.doing prog (.call op next) k') ∧ ∀ v, Shape r back prog H (k v)
  | H, .put _ _ k => Shape r back prog H k
  | H, .lock m k => m ∉ H → Shape r back prog (m :: H) k
  | H, .unlock m k => m ∈ H ∧ Shape r back prog (H.filter (· ≠ m)) k

theorem calledBack_loc {r : Γ.CF} {back : Γ.CV r → ReaderDoes (Γ.CV r)} {l : Loc Γ} {v : l.Val} {op : Op} {next : Out → ReaderDoes l.Val}
    (h : calledBack r back l v = .call op next) : l = .c r := by
  unfold calledBack at h
  split at h
  · split at h
    next e => rw [e]
    · cases h
  · cases h
  · cases h

theorem calledBack_self (r : Γ.CF) (back : Γ.CV r → ReaderDoes (Γ.CV r)) (v : Γ.CV r) : calledBack r back (.c r) v = back v := by simp [calledBack]

/-- The call made by the Reader, and what follows it. -/
theorem Shape.bind {r : Γ.CF} {back : Γ.CV r → ReaderDoes (Γ.CV r)} {prog : Op → Prog Γ} {K : List Lk} (hK : Lk.common ∈ K) {k : Out → Prog Γ}
    (hk : ∀ o, Shape r back prog K (k o)) {q : Prog Γ} : ∀ {H : List Lk}, Plain r H q → (∀ m ∈ H, m ∉ K) → Shape r back prog (H ++ K) (q.bind k) := by
  induction q with
  | ret o =>
    intro H h _
    have h : H = [] := h
    subst h
    exact hk o
  | stuck => exact fun _ _ => trivial
  | get l k' ih =>
    intro H h hd
    exact ⟨fun v op next hc => absurd hK (hd _ (h.1 (calledBack_loc hc))), fun v => ih v (h.2 v) hd⟩
  | put l v k' ih => exact fun h hd => ih h hd
  | lock m k' ih =>
    intro H h hd hm
    exact ih h (fun m' h' => by
      rcases List.mem_cons.1 h' with rfl | h'
      · exact fun hc => hm (List.mem_append.2 (.inr hc))
      · exact hd m' h')
  | unlock m k' ih =>
    intro H h hd
    refine ⟨List.mem_append.2 (.inl h.1), ?_⟩
    have e : (H ++ K).filter (· ≠ m) = H.filter (· ≠ m) ++ K := by
      rw [List.filter_append]
      congr 1
      refine List.filter_eq_self.2 fun x hx => ?_
      simp only [decide_eq_true_eq]
      rintro rfl
      exact hd _ h.1 hx
    rw [e]
    exact ih h.2 (fun m' h' => hd m' (List.mem_filter.1 h').1)

theorem Shape.doing {r : Γ.CF} {back : Γ.CV r → ReaderDoes (Γ.CV r)} {prog : Op → Prog Γ} (hp : ∀ op, Plain r [] (prog op)) {H : List Lk} (hH : Lk.common ∈ H) {σ : Type}
    {k : σ → Prog Γ} (hk : ∀ s, Shape r back prog H (k s)) : ∀ x : ReaderDoes σ, Shape r back prog H (Prog.doing prog x k)
  | .answer s => hk s
  | .call op next => Shape.bind (K := H) hH (fun o => Shape.doing hp hH hk (next o)) (hp op) (by simp)

theorem Plain.calling {r : Γ.CF} (back : Γ.CV r → ReaderDoes (Γ.CV r)) {prog : Op → Prog Γ} (hp : ∀ op, Plain r [] (prog op)) {p : Prog Γ} :
    ∀ {H : List Lk}, Plain r H p → Shape r back prog H (p.calling r back prog) := by
  induction p with
  | ret o => exact fun h => h
  | stuck => exact fun _ => trivial
  | get l k ih =>
    intro H h
    refine ⟨fun v op next hc => ⟨h.1 (calledBack_loc hc), fun v' => (k v').calling r back prog, by simp only [hc]⟩, fun v => ?_⟩
    dsimp only
    cases hc : calledBack r back l v with
    | answer s => exact ih s (h.2 s)
    | call op next => exact Shape.doing hp (h.1 (calledBack_loc hc)) (fun s => ih s (h.2 s)) (.call op next)
  | put l v k ih => exact fun h => ih h
  | lock m k ih => exact fun h _ => ih h
  | unlock m k ih => exact fun h => ⟨h.1, ih h.2⟩

variable {r : Γ.CF} {back : Γ.CV r → ReaderDoes (Γ.CV r)} {prog : Op → Prog Γ}

theorem Shape.lax : Lax (Shape r back prog) where
  ret h := h
  get h v := h.2 v
  put h := h
  lock h := h
  unlock h := h

theorem callers_shape (hp : ∀ op, Plain r [] (prog op)) (op : Op) : Shape r back prog [] (callers r back prog op) := (hp op).calling back hp

/-- A goroutine at the Reader. -/
theorem at_reader (hp : ∀ op, Plain r [] (prog op)) {M : Mem Γ} {tr₀ : List Event} {c : Cfg Γ} (hs : Cfg.Steps (callers r back prog) (.init M) tr₀ c)
    {t : Nat} {k : Γ.CV r → Prog Γ} (ht : c.thr t = some (.get (.c r) k)) {op : Op} {next : Out → ReaderDoes (Γ.CV r)} (hb : back (c.mem (.c r)) = .call op next) :
    c.owner .common = some t ∧ (∃ k', k (c.mem (.c r)) = Prog.doing prog (.call op next) k') ∧
      ∃ held, Tidy (fun _ => Shape r back prog) (c.go t (some (k (c.mem (.c r))))) held := by
  obtain ⟨held, I⟩ := Tidy.steps (fun _ => Shape.lax) (fun _ => callers_shape hp) hs ⟨_, Tidy.init M⟩
  obtain ⟨h1, h2⟩ := (I.thr t _ ht).1 (c.mem (.c r)) op next (by rw [calledBack_self]; exact hb)
  exact ⟨(I.own t _).2 h1, h2, I.step (fun _ => Shape.lax) (fun _ op _ => callers_shape hp op) (.get c t (.c r) k ht)⟩

/-- What becomes of a goroutine that has the family's mutex and makes a call. -/
theorem waits_on (hp : ∀ op, Plain r [] (prog op)) {c : Cfg Γ} (I : ∃ held, Tidy (fun _ => Shape r back prog) c held) {t : Nat} {op : Op} {k : Out → Prog Γ}
    (thr : c.thr t = some ((prog op).bind k)) (h1 : c.owner .common = some t) {E : Mem Γ → Prop} (hE : Needs (· = .common) E (prog op))
    (hB : ∃ q, prog op = .lock (.body op.h) q) {tr : List Event} {d : Cfg Γ} (hd : Cfg.Steps (callers r back prog) c tr d) :
    Spec.Waits c tr d t ∨ c.owner (.body op.h) ≠ some t ∧ Spec.Sometime (callers r back prog) c tr d E := by
  by_cases ho : c.owner (.body op.h) = some t
  · obtain ⟨q, hq⟩ := hB
    have hN : Needs (fun m => m = .common ∨ m = .body op.h) (fun _ => False) ((prog op).bind k) := Needs.bind (by rw [hq]; exact .inl (.inr rfl)) k
    rcases needs_steps (fun _ => Shape.lax) (fun _ => callers_shape hp) I thr hN (by rintro m (rfl | rfl) <;> assumption) hd with ⟨⟨p', a1, _⟩, a2, a3, a4⟩ | ⟨_, _, _, _, _, _, hf⟩
    · exact .inl ⟨by simp [a1], a3, a2 _ (.inl rfl), fun u q hu hq => a4 _ u q (.inl rfl) hu hq⟩
    · exact hf.elim
  · rcases needs_steps (fun _ => Shape.lax) (fun _ => callers_shape hp) I thr (hE.bind k) (by rintro m rfl; exact h1) hd with ⟨⟨p', a1, _⟩, a2, a3, a4⟩ | hf
    · exact .inl ⟨by simp [a1], a3, a2 _ rfl, fun u q hu hq => a4 _ u q rfl hu hq⟩
    · exact .inr ⟨ho, hf⟩

theorem waits_later (hp : ∀ op, Plain r [] (prog op)) {M : Mem Γ} {tr₀ : List Event} {c : Cfg Γ} (hs : Cfg.Steps (callers r back prog) (.init M) tr₀ c) {t : Nat} {op : Op}
    {k : Out → Prog Γ} (thr : c.thr t = some ((prog op).bind k)) (h1 : c.owner .common = some t) {E : Mem Γ → Prop} (hE : Needs (· = .common) E (prog op))
    (hB : ∃ q, prog op = .lock (.body op.h) q) {tr : List Event} {d : Cfg Γ} (hd : Cfg.Steps (callers r back prog) c tr d) :
    Spec.Waits c tr d t ∨ c.owner (.body op.h) ≠ some t ∧ Spec.Sometime (callers r back prog) c tr d E :=
  waits_on hp (Tidy.steps (fun _ => Shape.lax) (fun _ => callers_shape hp) hs ⟨_, Tidy.init M⟩) thr h1 hE hB hd

/-- What becomes of a Reader that calls back. -/
theorem waits (hp : ∀ op, Plain r [] (prog op)) {M : Mem Γ} {tr₀ : List Event} {c : Cfg Γ} (hs : Cfg.Steps (callers r back prog) (.init M) tr₀ c)
    {t : Nat} {k : Γ.CV r → Prog Γ} (ht : c.thr t = some (.get (.c r) k)) {op : Op} {next : Out → ReaderDoes (Γ.CV r)} (hb : back (c.mem (.c r)) = .call op next)
    {E : Mem Γ → Prop} (hE : Needs (· = .common) E (prog op)) (hB : ∃ q, prog op = .lock (.body op.h) q) {tr : List Event} {d : Cfg Γ}
    (hd : Cfg.Steps (callers r back prog) (c.go t (some (k (c.mem (.c r))))) tr d) :
    Spec.Waits c tr d t ∨ c.owner (.body op.h) ≠ some t ∧ Spec.Sometime (callers r back prog) (c.go t (some (k (c.mem (.c r))))) tr d E := by
  obtain ⟨h1, ⟨k', h2⟩, I⟩ := at_reader hp hs ht hb
  have thr : (c.go t (some (k (c.mem (.c r))))).thr t = some ((prog op).bind fun o => Prog.doing prog (next o) k') := by simp [Cfg.go, h2, Prog.doing]
  refine (waits_on hp I thr h1 hE hB hd).imp (fun h => ⟨h.busy, h.silent, h.keeps, fun u q hu hq => h.others u q hu ?_⟩) id
  simpa [Cfg.go, hu] using hq

/-- What remains of a call that only reads, then unlocks its Body and returns. -/
inductive ReadsOut (M : Mem Γ) (h : Nat) : Prog Γ → Out → Prop
  | unlock (o : Out) : ReadsOut M h (.unlock (.body h) (.ret o)) o
  | get {l : Loc Γ} {k : l.Val → Prog Γ} {o : Out} : ReadsOut M h (k (M l)) o → ReadsOut M h (.get l k) o

theorem ReadsOut.steps {prog' : Op → Prog Γ} {M : Mem Γ} {h : Nat} {q : Prog Γ} {o : Out} (hr : ReadsOut M h q o) {t : Nat} {k' : Out → Prog Γ} :
    ∀ {c : Cfg Γ}, c.mem = M → c.thr t = some (q.bind k') → Cfg.Steps prog' c [] ((c.own (.body h) none).go t (some (k' o))) := by
  induction hr with
  | unlock o =>
    intro c _ ht
    exact Cfg.Steps.single (.unlock c t (.body h) (k' o) ht)
  | @get l k o _ ih =>
    intro c hM ht
    have s1 := Cfg.Steps.single (.get (prog := prog') c t l (fun v => (k v).bind k') ht)
    have s2 := ih (c := c.go t (some ((k (c.mem l)).bind k'))) hM (by simp [Cfg.go, hM])
    have e : ((c.go t (some ((k (c.mem l)).bind k'))).own (.body h) none).go t (some (k' o)) = (c.own (.body h) none).go t (some (k' o)) := by
      simp only [Cfg.go, Cfg.own, Cfg.mk.injEq, true_and]
      funext u
      by_cases e : u = t <;> simp [e]
    rw [e] at s2
    exact s1.append s2

/-- A call that locks its own Body only, and only reads, returns. -/
theorem returns {prog' : Op → Prog Γ} {c : Cfg Γ} {t h : Nat} {q : Prog Γ} {o : Out} {k' : Out → Prog Γ}
    (ht : c.thr t = some (Prog.bind (.lock (.body h) q) k')) (ho : c.owner (.body h) = none) (hq : ReadsOut c.mem h q o) :
    Cfg.Steps prog' c [] (c.go t (some (k' o))) := by
  have s1 := Cfg.Steps.single (.lock (prog := prog') c t (.body h) (q.bind k') ht ho)
  have s2 := hq.steps (prog' := prog') (t := t) (k' := k') (c := (c.own (.body h) (some t)).go t (some (q.bind k'))) rfl (by simp [Cfg.go])
  have e : (((c.own (.body h) (some t)).go t (some (q.bind k'))).own (.body h) none).go t (some (k' o)) = c.go t (some (k' o)) := by
    simp only [Cfg.go, Cfg.own, Cfg.mk.injEq, true_and]
    constructor
    · funext n
      by_cases e : n = .body h
      · simp [e, ho]
      · simp [e]
    · funext u
      by_cases e : u = t <;> simp [e]
  rw [e] at s2
  exact s1.append s2

end Verif
