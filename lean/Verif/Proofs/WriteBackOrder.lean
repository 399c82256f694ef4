import Verif.Proofs.WriteBack
import Verif.Proofs.ConcLive

/-!
# Writers that call back: Bodies used in an order

`Rising rank H₀ H p`: a goroutine that holds the mutexes `H` and has yet to execute `p` locks only mutexes above all that it holds, unlocks only what it holds, does not
loop, and ends with the mutexes `H₀`.
-/

set_option autoImplicit false

namespace Verif
variable {Γ : Sig}

/-- The order of the mutexes: Bodies by rank, and the last one (for the numbers of new Bodies) above. -/
def Lk.Below (rank : Nat → Nat) : Lk → Lk → Prop
  | .body a, .body b => rank a < rank b
  | .body _, .common => True
  | .common, _ => False

theorem Lk.Below.irrefl {rank : Nat → Nat} {m : Lk} : ¬ m.Below rank m := by
  cases m with
  | body a => exact Nat.lt_irrefl _
  | common => exact id

theorem Lk.Below.trans {rank : Nat → Nat} {a b c : Lk} (h : a.Below rank b) (h' : b.Below rank c) : a.Below rank c := by
  cases a <;> cases b <;> cases c <;> first | exact h.elim | exact h'.elim | exact trivial | exact Nat.lt_trans h h'

def Rising (rank : Nat → Nat) (H₀ : List Lk) : List Lk → Prog Γ → Prop
  | H, .ret _ => H = H₀
  | _, .stuck => False
  | H, .get _ k => ∀ v, Rising rank H₀ H (k v)
  | H, .put _ _ k => Rising rank H₀ H k
  | H, .lock m k => (∀ x ∈ H, x.Below rank m) ∧ Rising rank H₀ (m :: H) k
  | H, .unlock m k => m ∈ H ∧ Rising rank H₀ (H.filter (· ≠ m)) k

variable {rank : Nat → Nat}

theorem Rising.lax : Lax (Γ := Γ) (Rising rank []) where
  ret h := h
  get h v := h v
  put h := h
  lock h _ := h.2
  unlock h := h

theorem Rising.bind {H₁ H₀ : List Lk} {q : Prog Γ} {k : Out → Prog Γ} (hk : ∀ o, Rising rank H₁ H₀ (k o)) : ∀ {H : List Lk}, Rising rank H₀ H q → Rising rank H₁ H (q.bind k) := by
  induction q with
  | ret o =>
    intro H h
    have h : H = H₀ := h
    subst h
    exact hk o
  | stuck => exact fun h => h.elim
  | get l k ih => exact fun h v => ih v (h v)
  | put l v k ih => exact fun h => ih h
  | lock m k ih => exact fun h => ⟨h.1, ih h.2⟩
  | unlock m k ih => exact fun h => ⟨h.1, ih h.2⟩

/-- A bound for finitely many. -/
theorem bounded (f : Nat → Nat) : ∀ n, ∃ b, ∀ t, t < n → f t ≤ b
  | 0 => ⟨0, fun _ h => absurd h (Nat.not_lt_zero _)⟩
  | n + 1 => by
    obtain ⟨b, hb⟩ := bounded f n
    refine ⟨b + f n, fun t ht => ?_⟩
    rcases Nat.lt_succ_iff_lt_or_eq.1 ht with h | rfl
    · exact Nat.le_trans (hb t h) (Nat.le_add_right ..)
    · exact Nat.le_add_left ..

/-- Goroutines that lock in an order do not wait for each other. -/
theorem Tidy.canStep {prog : Op → Prog Γ} {c : Cfg Γ} {held : Nat → List Lk} (I : Tidy (fun _ => Rising rank []) c held) {n : Nat} (hn : ∀ t, n ≤ t → c.thr t = none)
    (hb : ∃ t, c.thr t ≠ none) : Spec.CanStep prog c := by
  apply Classical.byContradiction
  intro hc
  -- everybody in a call waits for a mutex that somebody in a call holds
  have wait : ∀ t, c.thr t ≠ none → ∃ m k u, c.thr t = some (.lock m k) ∧ c.owner m = some u ∧ c.thr u ≠ none := by
    intro t ht
    cases e : c.thr t with
    | none => exact absurd e ht
    | some p =>
      cases p with
      | ret o => exact absurd ⟨_, _, .ret c t o e, fun _ _ h => by cases h⟩ hc
      | stuck => exact (I.thr t _ e).elim
      | get l k => exact absurd ⟨_, _, .get c t l k e, fun _ _ h => by cases h⟩ hc
      | put l v k => exact absurd ⟨_, _, .put c t l v k e, fun _ _ h => by cases h⟩ hc
      | unlock m k => exact absurd ⟨_, _, .unlock c t m k e, fun _ _ h => by cases h⟩ hc
      | lock m k =>
        cases eo : c.owner m with
        | none => exact absurd ⟨_, _, .lock c t m k e eo, fun _ _ h => by cases h⟩ hc
        | some u =>
          refine ⟨m, k, u, rfl, eo, fun eu => ?_⟩
          have := (I.own u m).1 eo
          rw [I.idle u eu] at this
          cases this
  -- and that one waits for one above
  have up : ∀ t m k, c.thr t = some (.lock m k) → ∃ t' m' k', c.thr t' = some (.lock m' k') ∧ m.Below rank m' := by
    intro t m k e
    obtain ⟨m₀, k₀, u, e', eo, eu⟩ := wait t (by rw [e]; simp)
    rw [e] at e'
    cases e'
    obtain ⟨m', k', _, e2, _, _⟩ := wait u eu
    exact ⟨u, m', k', e2, (I.thr u _ e2).1 _ ((I.own u m).1 eo)⟩
  let f : Nat → Nat := fun t => match c.thr t with
    | some (.lock (.body h) _) => rank h
    | _ => 0
  obtain ⟨b, hf⟩ := bounded f n
  have climb : ∀ i, ∃ t h k, c.thr t = some (.lock (.body h) k) ∧ i ≤ rank h := by
    intro i
    have down : ∀ t m k, c.thr t = some (.lock m k) → ∃ h, m = .body h := by
      intro t m k e
      obtain ⟨_, m', _, _, hl⟩ := up t m k e
      cases m with
      | body h => exact ⟨h, rfl⟩
      | common => exact hl.elim
    induction i with
    | zero =>
      obtain ⟨t, ht⟩ := hb
      obtain ⟨m, k, _, e, _, _⟩ := wait t ht
      obtain ⟨h, rfl⟩ := down t m k e
      exact ⟨t, h, k, e, Nat.zero_le _⟩
    | succ i ih =>
      obtain ⟨t, h, k, e, hi⟩ := ih
      obtain ⟨t', m', k', e', hl⟩ := up t _ k e
      obtain ⟨h', rfl⟩ := down t' m' k' e'
      exact ⟨t', h', k', e', Nat.lt_of_le_of_lt hi hl⟩
  obtain ⟨t, h, k, e, hi⟩ := climb (b + 1)
  have ht : t < n := Nat.lt_of_not_le fun hle => by rw [hn t hle] at e; cases e
  have h1 := hf t ht
  simp only [f, e] at h1
  omega

namespace ConcBytes
variable {B : List Lk} {h : Nat}

theorem below_not_mem {m : Lk} (hB : ∀ x ∈ B, x.Below rank m) : m ∉ B := fun hm => (hB m hm).irrefl

theorem rising_quit {o : Out} (hm : Lk.body h ∉ B) : Rising (Γ := bytesSig) rank B (.body h :: B) (quit h o) := ⟨by simp, filter_cons_self hm⟩

theorem rising_put {l : Loc bytesSig} {v : l.Val} {k : P} {H : List Lk} (hk : Rising rank B H k) : Rising rank B H (.put l v k) := hk

theorem rising_get {l : Loc bytesSig} {k : l.Val → P} {H : List Lk} (hk : ∀ v, Rising rank B H (k v)) : Rising rank B H (.get l k) := hk

theorem rising_written {r : XResp (Int × Option Err)} {i j : Int} {d : List Byte} (hm : Lk.body h ∉ B) : Rising rank B (.body h :: B) (written h i j d r) := by
  unfold written
  split
  · exact rising_quit hm
  · split
    · exact rising_quit hm
    · split
      · exact rising_quit hm
      · exact rising_get fun v => rising_put (rising_put (rising_quit hm))

theorem rising_copy (hm : ∀ x ∈ B, x.Below rank (.body h)) (v1 : List Byte) (v2 : Int) (v3 v4 : Bool) : Rising (Γ := bytesSig) rank B (.body h :: B)
    (.lock .common <| .get .next fun i => .put (.b i .data) v1 <| .put (.b i .offset) v2 <| .put (.b i .eof) v3 <| .put (.b i .closed) v4 <|
      .put .next (i + 1 : Nat) <| .unlock .common <| quit h (.copied i)) := by
  have hc : ∀ x ∈ Lk.body h :: B, x.Below rank .common := by
    intro x hx
    rcases List.mem_cons.1 hx with rfl | hx
    · exact trivial
    · exact (hm x hx).trans (b := .body h) trivial
  refine ⟨hc, fun v => ?_⟩
  refine rising_put (rising_put (rising_put (rising_put (rising_put ⟨by simp, ?_⟩))))
  rw [filter_cons_self (below_not_mem hc)]
  exact rising_quit (below_not_mem hm)

theorem prog_rising (op : Op) (hB : (∃ h', op = .unwrap h') ∨ ∀ x ∈ B, x.Below rank (.body op.h)) : Rising rank B B (prog op) := by
  cases op with
  | unwrap h => exact rfl
  | copy h =>
    have hB := hB.resolve_left (fun ⟨_, e⟩ => by cases e)
    refine ⟨hB, rising_get fun v => ?_⟩
    try dsimp only
    split
    · exact rising_quit (below_not_mem hB)
    exact rising_get fun v => rising_get fun v => rising_get fun v => rising_get fun v => rising_copy hB _ _ _ _
  | writeTo h w =>
    have hB := hB.resolve_left (fun ⟨_, e⟩ => by cases e)
    refine ⟨hB, rising_get fun v => ?_⟩
    try dsimp only
    split
    · exact rising_quit (below_not_mem hB)
    refine rising_get fun v => ?_
    try dsimp only
    split
    · exact rising_quit (below_not_mem hB)
    refine rising_get fun v => rising_get fun v => ?_
    try dsimp only
    split
    · exact rising_quit (below_not_mem hB)
    exact rising_written (r := w _) (j := _) (below_not_mem hB)
  | _ =>
    have hB := hB.resolve_left (fun ⟨_, e⟩ => by cases e)
    refine ⟨hB, ?_⟩
    repeat' first
      | exact rising_quit (below_not_mem hB)
      | refine rising_put ?_
      | (refine rising_get fun v => ?_; try dsimp only)
      | split

theorem rising_after {prog' : Op → P} {H : List Lk} (k : XResp (Int × Option Err) → P) (hk : ∀ r, Rising rank B H (k r)) : ∀ x : WriterDoes,
    Spec.AllCalls (fun op => Rising rank H H (prog' op)) x → Rising rank B H (Prog.after prog' x k)
  | .answer r, _ => hk r
  | .call _ next, h => Rising.bind (fun o => rising_after k hk (next o) (h.2 o)) h.1

theorem back_rising {calls : WriterCalls} (ho : Spec.Ordered rank calls) (n : Nat) : ∀ op (B : List Lk),
    ((∃ h', op = .unwrap h') ∨ ∀ x ∈ B, x.Below rank (.body op.h)) → Rising rank B B (backProg calls n op) := by
  induction n with
  | zero => exact fun op B hB => prog_rising op hB
  | succ n ih =>
    intro op B hB
    cases op with
    | writeTo h w =>
      have hB := hB.resolve_left (fun ⟨_, e⟩ => by cases e)
      have hm := below_not_mem hB
      refine ⟨hB, rising_get fun v => ?_⟩
      try dsimp only
      split
      · exact rising_quit hm
      refine rising_get fun v => ?_
      try dsimp only
      split
      · exact rising_quit hm
      refine rising_get fun i => rising_get fun data => ?_
      try dsimp only
      split
      · exact rising_quit hm
      next d hd =>
        refine rising_after _ (fun _ => rising_written hm) _ ((ho h w d).imp fun op' hop => ih op' (.body h :: B) (hop.imp id fun hl x hx => ?_))
        have hl : (Lk.body h).Below rank (.body op'.h) := hl
        rcases List.mem_cons.1 hx with rfl | hx
        · exact hl
        · exact (hB x hx).trans hl
    | _ => exact prog_rising _ hB

end ConcBytes
end Verif
