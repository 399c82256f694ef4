import Verif.Proofs.WriteBackAlone
import Verif.Proofs.WriteBackOrder
import Verif.Proofs.WriteBackRace
import Verif.Props.CallBack

/-!
# C84: Writers that use the Body they are written by

The goroutines call methods of a `FromBytes` Body and its copies, in any interleaving, and the Writers' `Write`, called by `WriteTo` with the Body's mutex held, calls
methods of these Bodies itself (`Model/WriteBack.lean`).  `Wrote`, `FirstReturn`, `WaitsFor`, `Elsewhere` and `Clear` are defined in `Spec/WriteBack.lean`.
-/

set_option autoImplicit false

namespace Verif
open Spec ConcBytes

theorem Cfg.go_go {Γ : Sig} (c : Cfg Γ) (t : Nat) (p q : Option (Prog Γ)) : (c.go t p).go t q = c.go t q := by
  simp only [Cfg.go, Cfg.mk.injEq, true_and]
  funext u
  by_cases e : u = t <;> simp [e]

theorem Cfg.go_thr {Γ : Sig} (c : Cfg Γ) (t : Nat) (p : Option (Prog Γ)) : (c.go t p).thr t = p := by simp [Cfg.go]

theorem Cfg.go_thr_ne {Γ : Sig} (c : Cfg Γ) {t u : Nat} (h : u ≠ t) (p : Option (Prog Γ)) : (c.go t p).thr u = c.thr u := by simp [Cfg.go, h]

/-- Writers that make no calls: the methods are those of `Model/ConcMem.lean`. -/
theorem C84_quiet (n : Nat) (op : Op) : backProg (fun _ w d => .answer (w d)) n op = ConcBytes.prog op := by
  cases n with
  | zero => rfl
  | succ n => cases op <;> rfl

theorem tidy {calls : WriterCalls} {n : Nat} {M : Mem bytesSig} {tr : List Event} {c : Cfg bytesSig} (hs : Cfg.Steps (backProg calls n) (.init M) tr c) :
    ∃ held, Tidy (fun _ => Fits (fun _ => True) []) c held :=
  Tidy.steps (fun _ => Fits.lax _) (fun _ op => back_fits calls n op []) hs ⟨_, Tidy.init M⟩

/-- **C84**: a `WriteTo` returns only if the Writer was not called, or made no call on the Body that called it – and then with the answer of `Write`. -/
theorem C84_returns (calls : WriterCalls) (n : Nat) (M : Mem bytesSig) {tr₀ : List Event} {c : Cfg bytesSig} (hs : Cfg.Steps (backProg calls (n + 1)) (.init M) tr₀ c)
    {t : Nat} (ht : c.thr t = none) (h : Nat) (w : WriteFn) {tr : List Event} {d : Cfg bytesSig}
    (hd : Cfg.Steps (backProg calls (n + 1)) (c.go t (some (backProg calls (n + 1) (.writeTo h w)))) tr d) : FirstReturn t tr (Wrote calls h w) := by
  obtain ⟨held, I⟩ := tidy hs
  have J := watch_inv (Q := Wrote calls h w) I ht (fits_writeTo (back_fits calls n) (back_locks calls n) calls h w [])
  rcases fits_steps (fun op => back_fits calls (n + 1) op []) ⟨held, J⟩ (by simp [Cfg.go]) hd with ⟨h1, _⟩ | h1
  · exact .inl h1
  · exact .inr h1

theorem needs_lock {Γ : Sig} (m : Lk) (k : Prog Γ) : Needs (· = m) (fun _ => False) (.lock m k) := .inl rfl

/-- **C84**: a goroutine that makes a call on a Body while it is in a call of that Body returns from neither, and no other goroutine returns from a call on the Body that it
is waiting in. -/
theorem C84_caught (calls : WriterCalls) (n : Nat) (M : Mem bytesSig) {tr₀ : List Event} {c : Cfg bytesSig} (hs : Cfg.Steps (backProg calls n) (.init M) tr₀ c)
    {t i : Nat} {op : Op} (hop : ∀ h, op ≠ .unwrap h) {k : Out → P} (ht : c.thr t = some ((backProg calls i op).bind k)) (ho : c.owner (.body op.h) = some t)
    {tr : List Event} {d : Cfg bytesSig} (hd : Cfg.Steps (backProg calls n) c tr d) : WaitsFor (.body op.h) c tr d t := by
  rcases back_locks calls i op with ⟨h, e⟩ | ⟨q, hq⟩
  · exact absurd e (hop h)
  rw [hq] at ht
  rcases needs_steps (fun _ => Fits.lax _) (fun _ op => back_fits calls n op []) (tidy hs) ht (needs_lock _ _) (fun m e => by rw [e]; exact ho) hd with
    ⟨⟨p', h1, _⟩, h2, h3, h4⟩ | ⟨_, _, _, _, _, _, hE⟩
  · exact ⟨by rw [h1]; simp, h3, h2 _ rfl, fun u k hu hk => h4 _ u k rfl hu hk⟩
  · exact hE.elim

theorem step_get {Γ : Sig} {prog : Op → Prog Γ} {c e : Cfg Γ} {t : Nat} {l : Loc Γ} {k : l.Val → Prog Γ} (h : Cfg.Steps prog (c.go t (some (k (c.mem l)))) [] e) :
    Cfg.Steps prog (c.go t (some (.get l k))) [] e := by
  have s := Cfg.Step.get (prog := prog) (c.go t (some (.get l k))) t l k (c.go_thr t _)
  rw [c.go_go] at s
  exact (Cfg.Steps.single s).append h

/-- Goroutine `t` calls `WriteTo`, which calls `Write`, which makes its first call. -/
theorem enters (calls : WriterCalls) (n : Nat) {c : Cfg bytesSig} {t : Nat} (ht : c.thr t = none) {h : Nat} {w : WriteFn} {d : List Byte} (hf : Offers c h d) {op : Op}
    {next : Out → WriterDoes} (hops : calls h w d = .call op next) : ∃ k, Cfg.Steps (backProg calls (n + 1)) c [.inv t (.writeTo h w)]
      ((c.own (.body h) (some t)).go t (some ((backProg calls n op).bind k))) := by
  obtain ⟨hx, ho, hc, he, hl⟩ := hf
  refine ⟨fun o => Prog.after (backProg calls n) (next o) (written h (c.mem (.b h .offset) : Int) (c.mem (.b h .data) : List Byte).length d), ?_⟩
  have s1 := Cfg.Step.inv (prog := backProg calls (n + 1)) c t (.writeTo h w) ht hx
  refine (Cfg.Steps.single s1).append ?_
  have s2 := Cfg.Step.lock (prog := backProg calls (n + 1)) (c.go t (some (backProg calls (n + 1) (.writeTo h w)))) t (.body h) _ (c.go_thr t _) ho
  rw [show (c.go t (some (backProg calls (n + 1) (.writeTo h w)))).own (.body h) (some t) = (c.own (.body h) (some t)).go t (some (backProg calls (n + 1) (.writeTo h w))) from rfl,
    Cfg.go_go] at s2
  refine (Cfg.Steps.single s2).append (step_get ?_)
  rw [show (c.own (.body h) (some t)).mem = c.mem from rfl, hc]
  refine step_get ?_
  rw [show (c.own (.body h) (some t)).mem = c.mem from rfl, he]
  refine step_get (step_get ?_)
  rw [show (c.own (.body h) (some t)).mem = c.mem from rfl]
  simp only [hl, hops]
  exact .nil _

/-- **C84**: if the first call that the Writer makes is on the Body that calls it, then `WriteTo` deadlocks: there is no way on from there by which it returns, or any other
goroutine gets the Body. -/
theorem C84_deadlock (calls : WriterCalls) (n : Nat) (M : Mem bytesSig) {tr₀ : List Event} {c : Cfg bytesSig} (hs : Cfg.Steps (backProg calls (n + 1)) (.init M) tr₀ c)
    {t : Nat} (ht : c.thr t = none) {h : Nat} {w : WriteFn} {data : List Byte} (hf : Offers c h data) {op : Op} {next : Out → WriterDoes} (hops : calls h w data = .call op next)
    (hh : op.h = h) (hop : ∀ h, op ≠ .unwrap h) :
    ∃ c', Cfg.Steps (backProg calls (n + 1)) c [.inv t (.writeTo h w)] c' ∧ ∀ tr d, Cfg.Steps (backProg calls (n + 1)) c' tr d → WaitsFor (.body h) c' tr d t := by
  obtain ⟨k, hk⟩ := enters calls n ht hf hops
  refine ⟨_, hk, fun tr d hd => ?_⟩
  subst hh
  exact C84_caught calls (n + 1) M (hs.append hk) hop (Cfg.go_thr ..) (by simp [Cfg.go, Cfg.own]) hd

/-- Two goroutines, each of which waits for what the other has. -/
theorem crossed {Γ : Sig} {prog : Op → Prog Γ} {W : Nat → List Lk → Prog Γ → Prop} (hW : ∀ t, Lax (W t)) (hp : ∀ t op, W t [] (prog op)) {c d : Cfg Γ}
    (I : ∃ held, Tidy W c held) {t u : Nat} {a b : Lk} {p q : Prog Γ} (ha : c.owner a = some t) (hb : c.owner b = some u)
    (ht : c.thr t = some (.lock b p)) (hu : c.thr u = some (.lock a q)) {tr : List Event} (h : Cfg.Steps prog c tr d) :
    d.owner a = some t ∧ d.owner b = some u ∧ d.thr t = some (.lock b p) ∧ d.thr u = some (.lock a q) ∧ ∀ o, Event.ret t o ∉ tr ∧ Event.ret u o ∉ tr := by
  induction h with
  | nil => exact ⟨ha, hb, ht, hu, by simp⟩
  | @snoc x y tr ev hs hstep ih =>
    obtain ⟨i1, i2, i3, i4, i5⟩ := ih
    obtain ⟨held, J⟩ := Tidy.steps hW hp hs I
    have key : ∀ (v : Nat) (r : Option (Prog Γ)), v ≠ t → v ≠ u → (x.go v r).thr t = some (.lock b p) ∧ (x.go v r).thr u = some (.lock a q) := fun v r h1 h2 =>
      ⟨by rw [Cfg.go_thr_ne _ (Ne.symm h1), i3], by rw [Cfg.go_thr_ne _ (Ne.symm h2), i4]⟩
    cases hstep with
    | inv v op h0 _ =>
      obtain ⟨k1, k2⟩ := key v (some (prog op)) (by rintro rfl; rw [i3] at h0; cases h0) (by rintro rfl; rw [i4] at h0; cases h0)
      exact ⟨i1, i2, k1, k2, by simpa using i5⟩
    | ret v o h0 =>
      have e1 : v ≠ t := by rintro rfl; rw [i3] at h0; cases h0
      have e2 : v ≠ u := by rintro rfl; rw [i4] at h0; cases h0
      obtain ⟨k1, k2⟩ := key v none e1 e2
      exact ⟨i1, i2, k1, k2, by simpa [Ne.symm e1, Ne.symm e2] using i5⟩
    | get v l k h0 =>
      obtain ⟨k1, k2⟩ := key v (some (k (x.mem l))) (by rintro rfl; rw [i3] at h0; cases h0) (by rintro rfl; rw [i4] at h0; cases h0)
      exact ⟨i1, i2, k1, k2, by simpa using i5⟩
    | put v l z k h0 =>
      obtain ⟨k1, k2⟩ := key v (some k) (by rintro rfl; rw [i3] at h0; cases h0) (by rintro rfl; rw [i4] at h0; cases h0)
      exact ⟨i1, i2, k1, k2, by simpa using i5⟩
    | lock v m k h0 hf =>
      obtain ⟨k1, k2⟩ := key v (some k) (by rintro rfl; rw [i3] at h0; cases h0; rw [i2] at hf; cases hf) (by rintro rfl; rw [i4] at h0; cases h0; rw [i1] at hf; cases hf)
      have e1 : a ≠ m := by rintro rfl; rw [i1] at hf; cases hf
      have e2 : b ≠ m := by rintro rfl; rw [i2] at hf; cases hf
      exact ⟨by simpa [Cfg.go, Cfg.own, e1] using i1, by simpa [Cfg.go, Cfg.own, e2] using i2, k1, k2, by simpa using i5⟩
    | unlock v m k h0 =>
      have e1 : v ≠ t := by rintro rfl; rw [i3] at h0; cases h0
      have e2 : v ≠ u := by rintro rfl; rw [i4] at h0; cases h0
      obtain ⟨k1, k2⟩ := key v (some k) e1 e2
      have hm : x.owner m = some v := (J.own v m).2 ((hW _).unlock (J.thr v _ h0)).1
      have e3 : a ≠ m := by rintro rfl; rw [i1] at hm; cases hm; exact e1 rfl
      have e4 : b ≠ m := by rintro rfl; rw [i2] at hm; cases hm; exact e2 rfl
      exact ⟨by simpa [Cfg.go, Cfg.own, e3] using i1, by simpa [Cfg.go, Cfg.own, e4] using i2, k1, k2, by simpa using i5⟩

/-- **C84**: two goroutines that write different Bodies into Writers that make a call on the other's Body may deadlock (though either alone would return, `C84_alone`): there
is no way on from there by which either returns. -/
theorem C84_crossed (calls : WriterCalls) (n : Nat) (M : Mem bytesSig) {tr₀ : List Event} {c : Cfg bytesSig} (hs : Cfg.Steps (backProg calls (n + 1)) (.init M) tr₀ c)
    {t u : Nat} (htu : t ≠ u) (ht : c.thr t = none) (hu : c.thr u = none) {a b : Nat} (hab : a ≠ b) {w w' : WriteFn} {data data' : List Byte}
    (ha : Offers c a data) (hb : Offers c b data') {op op' : Op} {next next' : Out → WriterDoes} (h1 : calls a w data = .call op next) (h2 : calls b w' data' = .call op' next')
    (hop : op.h = b ∧ ∀ h, op ≠ .unwrap h) (hop' : op'.h = a ∧ ∀ h, op' ≠ .unwrap h) :
    ∃ c', Cfg.Steps (backProg calls (n + 1)) c [.inv t (.writeTo a w), .inv u (.writeTo b w')] c' ∧
      ∀ tr d, Cfg.Steps (backProg calls (n + 1)) c' tr d → ∀ o, Event.ret t o ∉ tr ∧ Event.ret u o ∉ tr := by
  obtain ⟨k, hk⟩ := enters calls n ht ha h1
  have hba : Lk.body b ≠ Lk.body a := fun e => hab (by cases e; rfl)
  have hb' : Offers ((c.own (.body a) (some t)).go t (some ((backProg calls n op).bind k))) b data' :=
    ⟨hb.exists', by simpa [Cfg.go, Cfg.own, Ne.symm hab] using hb.free, hb.opened, hb.more, hb.left⟩
  obtain ⟨k', hk'⟩ := enters calls n (t := u) (by rw [Cfg.go_thr_ne _ (Ne.symm htu)]; exact hu) hb' h2
  refine ⟨_, hk.append hk', fun tr d hd o => ?_⟩
  rcases back_locks calls n op with ⟨h, e⟩ | ⟨q, hq⟩
  · exact absurd e (hop.2 h)
  rcases back_locks calls n op' with ⟨h, e⟩ | ⟨q', hq'⟩
  · exact absurd e (hop'.2 h)
  rw [hop.1] at hq
  rw [hop'.1] at hq'
  refine (crossed (a := .body a) (b := .body b) (p := q.bind k) (q := q'.bind k') (fun _ => Fits.lax _) (fun _ op => back_fits calls (n + 1) op []) (tidy (hs.append (hk.append hk'))) ?_ ?_ ?_ ?_ hd).2.2.2.2 o
  · simp [Cfg.go, Cfg.own, hab]
  · simp [Cfg.go, Cfg.own]
  · rw [Cfg.go_thr_ne _ htu, hq]
    exact Cfg.go_thr ..
  · rw [hq']
    exact Cfg.go_thr ..

/-- **C84**: if no mutex is held then a call whose Writers (and theirs, and so on) make no call on a Body that is in use returns what it returns when it is run alone. -/
theorem C84_alone (calls : WriterCalls) (n : Nat) {c : Cfg bytesSig} (hc : ∀ m, c.owner m = none) {t : Nat} (ht : c.thr t = none) {op : Op} (hx : op.h < c.mem .next)
    (hcl : Clear calls n [] op) : Cfg.Steps (backProg calls n) c [.inv t op, .ret t ((backProg calls n op).exec c.mem).2]
      { c with mem := ((backProg calls n op).exec c.mem).1 } := by
  have s1 := Cfg.Step.inv (prog := backProg calls n) c t op ht hx
  have s2 := strict_steps (prog := backProg calls n) (c := c.go t (some (backProg calls n op))) (t := t) (back_strict calls n op [] hcl) (Cfg.go_thr ..) (by simpa [Cfg.go] using hc)
  have s3 := Cfg.Step.ret (prog := backProg calls n) _ t ((backProg calls n op).exec c.mem).2
    (show (Cfg.mk ((backProg calls n op).exec c.mem).1 (fun _ => none) (fun u => if u = t then some (.ret ((backProg calls n op).exec c.mem).2) else
      (c.go t (some (backProg calls n op))).thr u)).thr t = _ by simp)
  have e : (Cfg.mk ((backProg calls n op).exec c.mem).1 (fun _ => none) (fun u => if u = t then some (.ret ((backProg calls n op).exec c.mem).2) else
      (c.go t (some (backProg calls n op))).thr u)).go t none = { c with mem := ((backProg calls n op).exec c.mem).1 } := by
    simp only [Cfg.go, Cfg.mk.injEq, true_and]
    refine ⟨?_, ?_⟩
    · funext m; exact (hc m).symm
    · funext v
      by_cases e : v = t
      · subst e; simp [ht]
      · simp [e]
  rw [e] at s3
  exact ((Cfg.Steps.single s1).append s2).append (Cfg.Steps.single s3)

/-- **C84**: and `WriteTo` returns, and does with the Body, what it does with a Writer that makes no calls and answers the same (for the rest of the memory, see
`C84_sequence`). -/
theorem C84_same (calls : WriterCalls) (n : Nat) {h : Nat} {w : WriteFn} (hc : Clear calls (n + 1) [] (.writeTo h w)) {M : Mem bytesSig} (hM : h < M .next) :
    ((backProg calls (n + 1) (.writeTo h w)).exec M).2 = ((ConcBytes.prog (.writeTo h fun d => ((calls h w d).alone (backProg calls n) M).2)).exec M).2 ∧
      ∀ f, ((backProg calls (n + 1) (.writeTo h w)).exec M).1 (.b h f) =
        ((ConcBytes.prog (.writeTo h fun d => ((calls h w d).alone (backProg calls n) M).2)).exec M).1 (.b h f) :=
  back_same calls n hc hM

/-- **C84**: the Writer's calls are made one after the other, on the Bodies as they find them, and what `WriteTo` does after `Write` comes after that. -/
theorem C84_sequence (calls : WriterCalls) (n : Nat) {h : Nat} {w : WriteFn} (hc : Clear calls (n + 1) [] (.writeTo h w)) {c : Cfg bytesSig} {d : List Byte}
    (hf : Offers c h d) : (backProg calls (n + 1) (.writeTo h w)).exec c.mem =
      (written h (c.mem (.b h .offset) : Int) (c.mem (.b h .data) : List Byte).length d ((calls h w d).alone (backProg calls n) c.mem).2).exec
        ((calls h w d).alone (backProg calls n) c.mem).1 := by
  obtain ⟨hx, _, hcl, he, hl⟩ := hf
  show (writeToBy (backProg calls n) calls h w).exec c.mem = _
  rw [exec_writeToBy, hcl, he, hl]
  exact (exec_after (h := h) _ _ _ hx ((hc.2 h w rfl d).imp fun op ho => back_off calls n op [h] (List.mem_cons_self ..) ho)).1

/-- **C84**: if there is an order of the Bodies such that Writers use only Bodies above the one that is written into them, then no goroutines wait for each other, and all
calls return, however many goroutines make them. -/
theorem C84_ordered (rank : Nat → Nat) (calls : WriterCalls) (ho : Ordered rank calls) (n : Nat) (M : Mem bytesSig) {tr : List Event} {c : Cfg bytesSig}
    (hs : Cfg.Steps (backProg calls n) (.init M) tr c) : ((∃ t, Busy c t) → CanStep (backProg calls n) c) ∧ AllReturn (backProg calls n) c := by
  have key : ∀ {tr : List Event} {d : Cfg bytesSig}, Cfg.Steps (backProg calls n) (.init M) tr d → (∃ t, Busy d t) → CanStep (backProg calls n) d := by
    intro tr d hd hb
    obtain ⟨held, I⟩ := Tidy.steps (W := fun _ => Rising rank []) (fun _ => Rising.lax) (fun _ op => back_rising ho n op [] (.inr (by simp))) hd ⟨_, Tidy.init M⟩
    obtain ⟨N, hN⟩ := steps_finite hd
    exact I.canStep hN hb
  refine ⟨key hs, ?_, fun d hd hc t hb => ?_⟩
  · obtain ⟨N, hN⟩ := steps_finite hs
    exact acc_before (Red.acc N _ hN)
  · obtain ⟨tr', h1, _⟩ := hd.steps hs
    exact hc (key h1 ⟨t, hb⟩)

/-- **C84**: there are no data races, whatever Bodies Writers use – those there were at the outset, those made before the one that is written, and copies they make. -/
theorem C84_noRace (calls : WriterCalls) (n : Nat) (M : Mem bytesSig) (hk : ∀ h w d, Knows (max (M .next) (h + 1)) (calls h w d)) {tr : List Event} {c : Cfg bytesSig}
    (hs : Cfg.Steps (backProg calls n) (.init M) tr c) : ¬ Race c := by
  have hp : ∀ N op, M .next ≤ N → op.h < N → Guarded (fun _ _ => True) [] N none [] (backProg calls n op) := fun N op hK hh => by
    have h := Guarded.bind (Q := fun _ _ => True) (k := .ret) (fun lo o _ => ⟨rfl, rfl, trivial⟩) (back_guarded hk n [] N op hK hh)
    have e : ∀ p : Prog bytesSig, p.bind .ret = p := by
      intro p
      induction p with
      | ret o => rfl
      | stuck => rfl
      | get l k ih => simp only [Prog.bind, ih]
      | put l v k ih => simp only [Prog.bind, ih]
      | lock m k ih => simp only [Prog.bind, ih]
      | unlock m k ih => simp only [Prog.bind, ih]
    rwa [e] at h
  obtain ⟨⟨_, _, _, I⟩, _⟩ := Sound.steps hp hs
  exact I.noRace

/-! ## Examples -/

/-- A Writer that takes everything. -/
def takesAll : WriteFn := fun d => .ok (d.length, none)

/-- When Body 0 is written the Writer reads a byte of Body 1, and the other way round; then it takes everything. -/
def readsOther : WriterCalls := fun h w d => .call (.read (1 - h) 1) fun _ => .answer (w d)

/-- The Writer asks the Body that is written how much remains. -/
def asks : WriterCalls := fun h w d => .call (.remaining h) fun _ => .answer (w d)

/-- The Writer asks Body 1 how much remains, and takes that many bytes. -/
def takesAsMany : WriterCalls := fun _ _ _ => .call (.remaining 1) fun
  | .remaining n => .answer (.ok (n, none))
  | _ => .answer (.ok (0, some .closed))

/-- A Body with three bytes, and a copy of it. -/
def bodyAndCopy : Mem bytesSig
  | .c f => f.elim
  | .b _ .data => [1, 2, 3]
  | .b _ .offset => (0 : Int)
  | .b _ .eof => false
  | .b _ .closed => false
  | .next => (2 : Nat)

example : Offers (.init bodyAndCopy) 0 [1, 2, 3] := ⟨by decide, rfl, rfl, rfl, rfl⟩

/-- A Writer that asks the Body how much remains: deadlock. -/
example : ∃ c', Cfg.Steps (backProg asks 1) (.init bodyAndCopy) [.inv 5 (.writeTo 0 takesAll)] c' ∧
    ∀ tr d, Cfg.Steps (backProg asks 1) c' tr d → WaitsFor (.body 0) c' tr d 5 :=
  C84_deadlock asks 0 bodyAndCopy (.nil _) rfl (data := [1, 2, 3]) ⟨by decide, rfl, rfl, rfl, rfl⟩ rfl rfl (fun _ e => by cases e)

/-- Alone, a goroutine that writes Body 0 into a Writer that reads from Body 1 returns … -/
example : ∃ M, Cfg.Steps (backProg readsOther 1) (.init bodyAndCopy) [.inv 5 (.writeTo 0 takesAll), .ret 5 (.wrote (some [1, 2, 3]) 3 none)] { Cfg.init bodyAndCopy with mem := M } ∧
    (M (.b 0 .offset) : Int) = 3 ∧ (M (.b 1 .offset) : Int) = 1 := by
  have h := C84_alone readsOther 1 (c := .init bodyAndCopy) (fun _ => rfl) (t := 5) rfl (op := .writeTo 0 takesAll) (by decide)
    ⟨fun h => (by cases h), fun h w e d => by cases e; exact ⟨fun hm => (by simp [Op.h] at hm), fun _ => trivial⟩⟩
  exact ⟨_, h, rfl, rfl⟩

/-- … but two goroutines that do so with the Bodies exchanged may wait for each other forever. -/
example : ∃ c', Cfg.Steps (backProg readsOther 1) (.init bodyAndCopy) [.inv 5 (.writeTo 0 takesAll), .inv 6 (.writeTo 1 takesAll)] c' ∧
    ∀ tr d, Cfg.Steps (backProg readsOther 1) c' tr d → ∀ o, Event.ret 5 o ∉ tr ∧ Event.ret 6 o ∉ tr :=
  C84_crossed readsOther 0 bodyAndCopy (.nil _) (by decide) rfl rfl (by decide) (data := [1, 2, 3]) (data' := [1, 2, 3]) ⟨by decide, rfl, rfl, rfl, rfl⟩
    ⟨by decide, rfl, rfl, rfl, rfl⟩ rfl rfl ⟨rfl, fun _ e => by cases e⟩ ⟨rfl, fun _ e => by cases e⟩

/-- A call that finds the Body closed returns without calling the Writer, whatever calls that would make. -/
example : Wrote asks 0 takesAll (.wrote none 0 (some .closed)) ∧ ¬ Wrote asks 0 takesAll (.wrote (some [1, 2, 3]) 3 none) := by
  refine ⟨.closed, fun h => ?_⟩
  cases h with
  | wrote he _ _ =>
    cases he with
    | call _ he' _ =>
      obtain ⟨_, e⟩ := he' rfl
      cases e

/-- What the Writer answers may depend on what its calls return: Body 1 has been read up to its last byte, and so one byte of Body 0 is taken. -/
example : ((backProg takesAsMany 1 (.writeTo 0 takesAll)).exec (bodyAndCopy.set (.b 1 .offset) (2 : Int))).2 = .wrote (some [1, 2, 3]) 1 none := rfl

/-- Writers that read from the Body made next. -/
example : Ordered id (fun h w d => .call (.read (h + 1) 1) fun _ => .call (.unwrap h) fun _ => .answer (w d)) :=
  fun h _ _ => ⟨.inr (Nat.lt_succ_self h), fun _ => ⟨.inl ⟨h, rfl⟩, fun _ => trivial⟩⟩

/-- There is no such order for Writers that use each other's Bodies. -/
example (rank : Nat → Nat) : ¬ Ordered rank readsOther := by
  intro h
  have h1 := (h 0 takesAll []).1.resolve_left fun ⟨_, e⟩ => by cases e
  have h2 := (h 1 takesAll []).1.resolve_left fun ⟨_, e⟩ => by cases e
  exact Nat.lt_asymm h1 h2

/-- A Writer that makes a copy of Body 0 and closes that. -/
def closesCopy : WriterCalls := fun _ w d => .call (.copy 0) fun
  | .copied i => .call (.close i) fun _ => .answer (w d)
  | _ => .answer (w d)

/-- It knows the Body that it closes … -/
example {n : Nat} {tr : List Event} {c : Cfg bytesSig} (hs : Cfg.Steps (backProg closesCopy n) (.init bodyAndCopy) tr c) : ¬ Race c :=
  C84_noRace closesCopy n bodyAndCopy (fun h w d => by
    refine ⟨by show 0 < max 2 (h + 1); omega, fun o ho => ?_, fun i => ⟨by show i < _; omega, fun _ _ => trivial, fun _ => trivial⟩⟩
    cases o <;> first | trivial | exact absurd rfl (ho _)) hs

/-- … and the new Body is closed when the Writer of Body 1 has done so. -/
example : let x := (backProg closesCopy 1 (.writeTo 1 takesAll)).exec bodyAndCopy
    x.2 = .wrote (some [1, 2, 3]) 3 none ∧ (x.1 .next : Nat) = 3 ∧ (x.1 (.b 2 .closed) : Bool) = true ∧ (x.1 (.b 0 .closed) : Bool) = false := ⟨rfl, rfl, rfl, rfl⟩

end Verif
