import Verif.Proofs.Locks
import Verif.Spec.WriteBack

/-!
# Writers that call back: mutexes

`Fits Q H₀ H p`: a goroutine that holds the mutexes `H` and has yet to execute `p` locks and unlocks properly, as long as it locks none twice, and ends with the mutexes
`H₀` and a result of which `Q`.  `Strict H₀ H p`: it locks none twice, either.
-/

set_option autoImplicit false

namespace Verif
variable {Γ : Sig}

def Fits (Q : Out → Prop) (H₀ : List Lk) : List Lk → Prog Γ → Prop
  | H, .ret o => H = H₀ ∧ Q o
  | _, .stuck => True
  | H, .get _ k => ∀ v, Fits Q H₀ H (k v)
  | H, .put _ _ k => Fits Q H₀ H k
  | H, .lock m k => m ∉ H → Fits Q H₀ (m :: H) k
  | H, .unlock m k => m ∈ H ∧ Fits Q H₀ (H.filter (· ≠ m)) k

theorem Fits.lax (Q : Out → Prop) : Lax (Γ := Γ) (Fits Q []) where
  ret h := h.1
  get h v := h v
  put h := h
  lock h := h
  unlock h := h

theorem Fits.imp {Q Q' : Out → Prop} (hQ : ∀ o, Q o → Q' o) {H₀ : List Lk} {p : Prog Γ} : ∀ {H : List Lk}, Fits Q H₀ H p → Fits Q' H₀ H p := by
  induction p with
  | ret o => exact fun h => ⟨h.1, hQ _ h.2⟩
  | stuck => exact fun _ => trivial
  | get l k ih => exact fun h v => ih v (h v)
  | put l v k ih => exact fun h => ih h
  | lock m k ih => exact fun h hm => ih (h hm)
  | unlock m k ih => exact fun h => ⟨h.1, ih h.2⟩

theorem Fits.bind {Q R : Out → Prop} {H₁ H₀ : List Lk} {q : Prog Γ} {k : Out → Prog Γ} (hk : ∀ o, R o → Fits Q H₁ H₀ (k o)) :
    ∀ {H : List Lk}, Fits R H₀ H q → Fits Q H₁ H (q.bind k) := by
  induction q with
  | ret o =>
    intro H h
    obtain ⟨rfl, h⟩ := h
    exact hk o h
  | stuck => exact fun _ => trivial
  | get l k ih => exact fun h v => ih v (h v)
  | put l v k ih => exact fun h => ih h
  | lock m k ih => exact fun h hm => ih (h hm)
  | unlock m k ih => exact fun h => ⟨h.1, ih h.2⟩

def Strict (H₀ : List Lk) : List Lk → Prog Γ → Prop
  | H, .ret _ => H = H₀
  | _, .stuck => False
  | H, .get _ k => ∀ v, Strict H₀ H (k v)
  | H, .put _ _ k => Strict H₀ H k
  | H, .lock m k => m ∉ H ∧ Strict H₀ (m :: H) k
  | H, .unlock m k => m ∈ H ∧ Strict H₀ (H.filter (· ≠ m)) k

theorem Strict.bind {H₁ H₀ : List Lk} {q : Prog Γ} {k : Out → Prog Γ} (hk : ∀ o, Strict H₁ H₀ (k o)) : ∀ {H : List Lk}, Strict H₀ H q → Strict H₁ H (q.bind k) := by
  induction q with
  | ret o =>
    intro H h
    have h : H = H₀ := h
    subst h
    exact hk o
  | stuck => exact fun h => h.elim
  | get l k ih => exact fun h v => ih v (h v)
  | put l v k ih => exact fun h => ih h
  | lock m k ih => exact fun h => ⟨h.1, ih h.2⟩
  | unlock m k ih => exact fun h => ⟨h.1, ih h.2⟩

theorem filter_cons_self {m : Lk} {H : List Lk} (hm : m ∉ H) : (m :: H).filter (· ≠ m) = H := by
  rw [List.filter_cons_of_neg (by simp)]
  refine List.filter_eq_self.2 fun x hx => ?_
  simp only [decide_eq_true_eq]
  rintro rfl
  exact hm hx

/-- Every goroutine locks and unlocks properly, and if goroutine `t` returns, then so. -/
def watch (t : Nat) (Q : Out → Prop) (u : Nat) : List Lk → Prog Γ → Prop := Fits (fun o => u = t → Q o) []

theorem watch_lax (t : Nat) (Q : Out → Prop) (u : Nat) : Lax (Γ := Γ) (watch t Q u) := Fits.lax _

/-- Goroutine `t` makes a call. -/
theorem watch_inv {c : Cfg Γ} {held : Nat → List Lk} (I : Tidy (fun _ => Fits (fun _ => True) []) c held) {t : Nat} (ht : c.thr t = none) {Q : Out → Prop} {p : Prog Γ}
    (hQ : Fits Q [] [] p) : Tidy (watch t Q) (c.go t (some p)) held := by
  have J : Tidy (watch t Q) c held := ⟨I.own, fun u q hq => by
    have hu : u ≠ t := by rintro rfl; rw [ht] at hq; cases hq
    exact (I.thr u q hq).imp fun _ _ e => absurd e hu, I.idle⟩
  exact J.move (t := t) rfl (fun _ => rfl) (by rw [I.idle t ht]; exact hQ.imp fun _ h _ => h)

/-- A goroutine returns, if it does, as it has to. -/
theorem fits_steps {prog : Op → Prog Γ} (hp : ∀ op, Fits (fun _ => True) [] [] (prog op)) {c d : Cfg Γ} {t : Nat} {Q : Out → Prop}
    (I : ∃ held, Tidy (watch t Q) c held) (ht : c.thr t ≠ none) {tr : List Event} (h : Cfg.Steps prog c tr d) :
    ((∀ o, Event.ret t o ∉ tr) ∧ d.thr t ≠ none ∧ ∃ held, Tidy (watch t Q) d held) ∨
      ∃ tr₁ o tr₂, tr = tr₁ ++ .ret t o :: tr₂ ∧ (∀ o', Event.ret t o' ∉ tr₁) ∧ Q o := by
  induction h with
  | nil => exact .inl ⟨by simp, ht, I⟩
  | @snoc a b tr ev hs hstep ih =>
    rcases ih with ⟨h1, h2, held, J⟩ | ⟨tr₁, o, tr₂, rfl, h1, h2⟩
    rotate_left
    · exact .inr ⟨tr₁, o, tr₂ ++ ev.toList, by simp, h1, h2⟩
    have J' := J.step (watch_lax t Q) (fun u op hu => (hp op).imp fun _ _ e => by subst e; exact absurd hu h2) hstep
    cases hstep with
    | inv u op h0 _ =>
      refine .inl ⟨by simpa using h1, ?_, J'⟩
      dsimp only [Cfg.go]
      split <;> simp [h2]
    | ret u o h0 =>
      by_cases e : u = t
      · subst e
        exact .inr ⟨tr, o, [], rfl, h1, (J.thr u _ h0).2 rfl⟩
      · refine .inl ⟨?_, ?_, J'⟩
        · intro o'
          simp only [Option.toList, List.mem_append, List.mem_cons, List.not_mem_nil, or_false, not_or]
          exact ⟨h1 o', fun h => by cases h; exact e rfl⟩
        · dsimp only [Cfg.go]
          rw [if_neg (Ne.symm e)]
          exact h2
    | _ =>
      refine .inl ⟨by simpa using h1, ?_, J'⟩
      dsimp only [Cfg.go, Cfg.own]
      split <;> simp [h2]

/-- A goroutine that is alone returns what it returns when it is run alone. -/
theorem strict_steps {prog : Op → Prog Γ} {t : Nat} {p : Prog Γ} : ∀ {c : Cfg Γ} {H : List Lk}, Strict [] H p → c.thr t = some p →
    (∀ m, c.owner m = if m ∈ H then some t else none) →
    Cfg.Steps prog c [] { mem := (p.exec c.mem).1, owner := fun _ => none, thr := fun u => if u = t then some (.ret (p.exec c.mem).2) else c.thr u } := by
  have glue : ∀ {c c' : Cfg Γ} {f f' : Cfg Γ}, Cfg.Step prog c none c' → Cfg.Steps prog c' [] f' → f' = f → Cfg.Steps prog c [] f := by
    rintro c c' f f' h1 h2 rfl
    exact (Cfg.Steps.single h1).append h2
  have thr : ∀ (c : Cfg Γ) (q : Option (Prog Γ)) (q' : Option (Prog Γ)), (fun u => if u = t then q' else (c.go t q).thr u) = fun u => if u = t then q' else c.thr u := by
    intro c q q'
    funext u
    by_cases e : u = t <;> simp [Cfg.go, e]
  induction p with
  | ret o =>
    intro c H h ht ho
    have h : H = [] := h
    subst h
    have e : c = { mem := c.mem, owner := fun _ => none, thr := fun u => if u = t then some (.ret o) else c.thr u } := by
      cases c with
      | mk M ow th =>
        congr 1
        · funext m; simpa using ho m
        · funext u
          by_cases e : u = t
          · subst e; simpa using ht
          · simp [e]
    exact (congrArg (Cfg.Steps prog c []) e).mp (.nil c)
  | stuck => exact fun h => h.elim
  | get l k ih =>
    intro c H h ht ho
    refine glue (.get c t l k ht) (ih (c.mem l) (h (c.mem l)) (by simp [Cfg.go]) ho) ?_
    rw [thr]
    rfl
  | put l v k ih =>
    intro c H h ht ho
    refine glue (.put c t l v k ht) (ih (H := H) h (by simp [Cfg.go]) ho) ?_
    rw [thr]
    rfl
  | lock m k ih =>
    intro c H h ht ho
    refine glue (.lock c t m k ht (by rw [ho, if_neg h.1])) (ih (H := m :: H) h.2 (by simp [Cfg.go]) (fun n => ?_)) ?_
    · dsimp only [Cfg.go, Cfg.own]
      by_cases e : n = m
      · simp [e]
      · simp [e, ho]
    · rw [thr]
      rfl
  | unlock m k ih =>
    intro c H h ht ho
    refine glue (.unlock c t m k ht) (ih (H := H.filter (· ≠ m)) h.2 (by simp [Cfg.go]) (fun n => ?_)) ?_
    · dsimp only [Cfg.go, Cfg.own]
      by_cases e : n = m
      · simp [e]
      · simp [e, ho]
    · rw [thr]
      rfl

namespace ConcBytes
open Spec
variable {Q : Out → Prop} {B : List Lk} {h : Nat}

theorem fits_quit {o : Out} (hm : Lk.body h ∉ B) (hQ : Q o) : Fits (Γ := bytesSig) Q B (.body h :: B) (quit h o) :=
  ⟨by simp, filter_cons_self hm, hQ⟩

theorem strict_quit {o : Out} (hm : Lk.body h ∉ B) : Strict (Γ := bytesSig) B (.body h :: B) (quit h o) :=
  ⟨by simp, filter_cons_self hm⟩

theorem fits_put {l : Loc bytesSig} {v : l.Val} {k : P} {H : List Lk} (hk : Fits Q B H k) : Fits Q B H (.put l v k) := hk

theorem strict_put {l : Loc bytesSig} {v : l.Val} {k : P} {H : List Lk} (hk : Strict B H k) : Strict B H (.put l v k) := hk

theorem fits_get {l : Loc bytesSig} {k : l.Val → P} {H : List Lk} (hk : ∀ v, Fits Q B H (k v)) : Fits Q B H (.get l k) := hk

theorem strict_get {l : Loc bytesSig} {k : l.Val → P} {H : List Lk} (hk : ∀ v, Strict B H (k v)) : Strict B H (.get l k) := hk

theorem fits_written {r : XResp (Int × Option Err)} {i j : Int} {d : List Byte} (hm : Lk.body h ∉ B) (h1 : ∀ p, r = .panics p → Q (.panic p))
    (h2 : ∀ n e, r = .ok (n, e) → (n < 0 ∨ j - i < n) → Q (.panic .badWriter)) (h3 : ∀ n e, r = .ok (n, e) → 0 ≤ n → n ≤ j - i → Q (.wrote (some d) n e)) :
    Fits Q B (.body h :: B) (written h i j d r) := by
  unfold written
  split
  next p => exact fits_quit hm (h1 p rfl)
  next n e =>
    split
    next hn => exact fits_quit hm (h2 n e rfl (.inl (by omega)))
    next hn =>
      split
      next hn' => exact fits_quit hm (h2 n e rfl (.inr (by omega)))
      next hn' => exact fits_get fun v => fits_put (fits_put (fits_quit hm (h3 n e rfl (by omega) (by omega))))

theorem strict_written {r : XResp (Int × Option Err)} {i j : Int} {d : List Byte} (hm : Lk.body h ∉ B) : Strict B (.body h :: B) (written h i j d r) := by
  unfold written
  split
  · exact strict_quit hm
  · split
    · exact strict_quit hm
    · split
      · exact strict_quit hm
      · exact strict_get fun v => strict_put (strict_put (strict_quit hm))

theorem fits_copy (hm : Lk.body h ∉ B) (v1 : List Byte) (v2 : Int) (v3 v4 : Bool) : Fits (Γ := bytesSig) (fun _ => True) B (.body h :: B)
    (.lock .common <| .get .next fun i => .put (.b i .data) v1 <| .put (.b i .offset) v2 <| .put (.b i .eof) v3 <| .put (.b i .closed) v4 <|
      .put .next (i + 1 : Nat) <| .unlock .common <| quit h (.copied i)) := by
  intro hc v
  refine fits_put (fits_put (fits_put (fits_put (fits_put ⟨by simp, ?_⟩))))
  rw [filter_cons_self hc]
  exact fits_quit hm trivial

theorem strict_copy (hm : Lk.body h ∉ B) (hc : Lk.common ∉ B) (v1 : List Byte) (v2 : Int) (v3 v4 : Bool) : Strict (Γ := bytesSig) B (.body h :: B)
    (.lock .common <| .get .next fun i => .put (.b i .data) v1 <| .put (.b i .offset) v2 <| .put (.b i .eof) v3 <| .put (.b i .closed) v4 <|
      .put .next (i + 1 : Nat) <| .unlock .common <| quit h (.copied i)) := by
  have hc' : Lk.common ∉ Lk.body h :: B := by simp [hc]
  refine ⟨hc', fun v => ?_⟩
  refine strict_put (strict_put (strict_put (strict_put (strict_put ⟨by simp, ?_⟩))))
  rw [filter_cons_self hc']
  exact strict_quit hm

/-- Each method locks its Body, and goes on from there. -/
theorem prog_locks (op : Op) : (∃ h, op = .unwrap h) ∨ ∃ q : P, prog op = .lock (.body op.h) q ∧
    ∀ B, Lk.body op.h ∉ B → Fits (fun _ => True) B (.body op.h :: B) q ∧ (Lk.common ∉ B → Strict B (.body op.h :: B) q) := by
  cases op with
  | unwrap h => exact .inl ⟨h, rfl⟩
  | writeTo h w =>
    refine .inr ⟨_, rfl, fun B hm => ⟨?_, fun hc => ?_⟩⟩
    · refine fits_get fun v => ?_
      try dsimp only
      split
      · exact fits_quit hm trivial
      refine fits_get fun v => ?_
      try dsimp only
      split
      · exact fits_quit hm trivial
      refine fits_get fun v => fits_get fun v => ?_
      try dsimp only
      split
      · exact fits_quit hm trivial
      exact fits_written (r := w _) (j := _) hm (fun _ _ => trivial) (fun _ _ _ _ => trivial) (fun _ _ _ _ _ => trivial)
    · refine strict_get fun v => ?_
      try dsimp only
      split
      · exact strict_quit hm
      refine strict_get fun v => ?_
      try dsimp only
      split
      · exact strict_quit hm
      refine strict_get fun v => strict_get fun v => ?_
      try dsimp only
      split
      · exact strict_quit hm
      exact strict_written (r := w _) (j := _) hm
  | copy h =>
    refine .inr ⟨_, rfl, fun B hm => ⟨?_, fun hc => ?_⟩⟩
    · refine fits_get fun v => ?_
      try dsimp only
      split
      · exact fits_quit hm trivial
      exact fits_get fun v => fits_get fun v => fits_get fun v => fits_get fun v => fits_copy hm _ _ _ _
    · refine strict_get fun v => ?_
      try dsimp only
      split
      · exact strict_quit hm
      exact strict_get fun v => strict_get fun v => strict_get fun v => strict_get fun v => strict_copy hm hc _ _ _ _
  | _ =>
    refine .inr ⟨_, rfl, fun B hm => ⟨?_, fun hc => ?_⟩⟩
    · repeat' first
        | exact fits_quit hm trivial
        | refine fits_put ?_
        | (refine fits_get fun v => ?_; try dsimp only)
        | split
    · repeat' first
        | exact strict_quit hm
        | refine strict_put ?_
        | (refine strict_get fun v => ?_; try dsimp only)
        | split

theorem back_locks (calls : WriterCalls) (n : Nat) (op : Op) : (∃ h, op = .unwrap h) ∨ ∃ q : P, backProg calls n op = .lock (.body op.h) q := by
  cases n with
  | zero => exact (prog_locks op).imp id fun ⟨q, h, _⟩ => ⟨q, h⟩
  | succ n =>
    cases op with
    | writeTo h w => exact .inr ⟨_, rfl⟩
    | _ => exact (prog_locks _).imp id fun ⟨q, h, _⟩ => ⟨q, h⟩

theorem prog_fits (op : Op) (B : List Lk) : Fits (fun _ => True) B B (prog op) := by
  rcases prog_locks op with ⟨h, rfl⟩ | ⟨q, e, hq⟩
  · exact ⟨rfl, trivial⟩
  · rw [e]
    exact fun hm => (hq B hm).1

theorem prog_strict (op : Op) (B : List Lk) (hB : Lk.body op.h ∈ B → ∃ h, op = .unwrap h) (hc : Lk.common ∉ B) : Strict B B (prog op) := by
  rcases prog_locks op with ⟨h, rfl⟩ | ⟨q, e, hq⟩
  · exact rfl
  · rw [e]
    have hm : Lk.body op.h ∉ B := fun hm => by
      obtain ⟨h, rfl⟩ := hB hm
      cases e
    exact ⟨hm, (hq B hm).2 hc⟩

/-- What follows is reached only if no call was on the Body. -/
theorem fits_after {prog' : Op → P} (hp : ∀ op B, Fits (fun _ => True) B B (prog' op))
    (hl : ∀ op, (∃ h, op = .unwrap h) ∨ ∃ q : P, prog' op = .lock (.body op.h) q) (k : XResp (Int × Option Err) → P) : ∀ x : WriterDoes,
    (∀ r, Answers h x r → Fits Q B (.body h :: B) (k r)) → Fits Q B (.body h :: B) (Prog.after prog' x k)
  | .answer r, hk => hk r (.answer r)
  | .call op next, hk => by
    by_cases he : Elsewhere h op
    · exact Fits.bind (R := fun _ => True) (fun o _ => fits_after hp hl k (next o) fun r hr => hk r (.call o he hr)) (hp op _)
    · have e1 : op.h = h := Classical.byContradiction fun e => he fun e' => absurd e' e
      rcases hl op with hu | ⟨q, hq⟩
      · exact absurd (fun _ => hu) he
      · show Fits Q B _ ((prog' op).bind _)
        rw [hq, e1]
        exact fun hm => absurd (List.mem_cons_self ..) hm

theorem strict_after {prog' : Op → P} {H : List Lk} (k : XResp (Int × Option Err) → P) (hk : ∀ r, Strict B H (k r)) : ∀ x : WriterDoes,
    AllCalls (fun op => Strict H H (prog' op)) x → Strict B H (Prog.after prog' x k)
  | .answer r, _ => hk r
  | .call _ next, h => Strict.bind (fun o => strict_after k hk (next o) (h.2 o)) h.1

theorem _root_.Verif.Spec.AllCalls.imp {P Q : Op → Prop} (h : ∀ op, P op → Q op) : ∀ {x : WriterDoes}, AllCalls P x → AllCalls Q x
  | .answer _, _ => trivial
  | .call op _, hx => ⟨h op hx.1, fun o => (hx.2 o).imp h⟩

theorem fits_writeTo {prog' : Op → P} (hp : ∀ op B, Fits (fun _ => True) B B (prog' op)) (hl : ∀ op, (∃ h, op = .unwrap h) ∨ ∃ q : P, prog' op = .lock (.body op.h) q)
    (calls : WriterCalls) (h : Nat) (w : WriteFn) (B : List Lk) : Fits (Wrote calls h w) B B (writeToBy prog' calls h w) := by
  intro hm
  refine fits_get fun v => ?_
  try dsimp only
  split
  · exact fits_quit hm .closed
  refine fits_get fun v => ?_
  try dsimp only
  split
  · exact fits_quit hm .ended
  refine fits_get fun i => fits_get fun data => ?_
  try dsimp only
  split
  · exact fits_quit hm .bounds
  next d hd =>
    have hlen : (d.length : Int) = (data.length : Int) - i := by
      unfold goSlice at hd
      split at hd
      · cases hd
        simp only [List.length_take, List.length_drop]
        omega
      · cases hd
    refine fits_after hp hl _ _ fun r hr => fits_written hm (fun p e => .panics (e ▸ hr)) (fun n e' e hn => .bad (e ▸ hr) (by omega)) (fun n e' e h0 h1 => .wrote (e ▸ hr) h0 (by omega))

/-- The same with Writers that make calls. -/
theorem back_fits (calls : WriterCalls) (n : Nat) : ∀ op B, Fits (fun _ => True) B B (backProg calls n op) := by
  induction n with
  | zero => exact prog_fits
  | succ n ih =>
    intro op B
    cases op with
    | writeTo h w => exact (fits_writeTo ih (back_locks calls n) calls h w B).imp fun _ _ => trivial
    | _ => exact prog_fits _ B

/-- Writers that make calls on no Body that is in use lock nothing twice. -/
theorem back_strict (calls : WriterCalls) (n : Nat) : ∀ op (B : List Nat), Clear calls n B op → Strict (B.map Lk.body) (B.map Lk.body) (backProg calls n op) := by
  have mem : ∀ (B : List Nat) h, Lk.body h ∈ B.map Lk.body ↔ h ∈ B := by simp
  have com : ∀ B : List Nat, Lk.common ∉ B.map Lk.body := by simp
  induction n with
  | zero => exact fun op B hc => prog_strict op _ (fun h => hc ((mem _ _).1 h)) (com B)
  | succ n ih =>
    intro op B hc
    cases op with
    | writeTo h w =>
      have hm : Lk.body h ∉ B.map Lk.body := fun hm => by
        obtain ⟨h', e⟩ := hc.1 ((mem _ _).1 hm)
        cases e
      refine ⟨hm, strict_get fun v => ?_⟩
      try dsimp only
      split
      · exact strict_quit hm
      refine strict_get fun v => ?_
      try dsimp only
      split
      · exact strict_quit hm
      refine strict_get fun i => strict_get fun data => ?_
      try dsimp only
      split
      · exact strict_quit hm
      next d hd => exact strict_after _ (fun _ => strict_written hm) _ ((hc.2 h w rfl d).imp fun op' ho => ih op' (h :: B) ho)
    | _ => exact prog_strict _ _ (fun h => hc.1 ((mem _ _).1 h)) (com B)

end ConcBytes
end Verif
