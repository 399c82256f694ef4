import Verif.Proofs.WriteBack

/-!
# Writers that call back: calls that leave a Body alone

`Off h p`: run alone in a memory in which Body `h` exists, `p` ends, and does not change the fields of Body `h`.
-/

set_option autoImplicit false

namespace Verif
variable {Γ : Sig}

def Off (h : Nat) : Prog Γ → Prop
  | .ret _ => True
  | .stuck => False
  | .get l k => ∀ M : Mem Γ, h < M .next → Off h (k (M l))
  | .put l v k => (∀ f, Loc.b h f ≠ l) ∧ (∀ M : Mem Γ, h < M .next → h < (M.set l v) .next) ∧ Off h k
  | .lock _ k => Off h k
  | .unlock _ k => Off h k

theorem Off.bind {h : Nat} {p : Prog Γ} {k : Out → Prog Γ} (hk : ∀ o, Off h (k o)) : Off h p → Off h (p.bind k) := by
  induction p with
  | ret o => exact fun _ => hk o
  | stuck => exact fun hp => hp.elim
  | get l k' ih => exact fun hp M hM => ih _ (hp M hM)
  | put l v k' ih => exact fun hp => ⟨hp.1, hp.2.1, ih hp.2.2⟩
  | lock m k' ih => exact fun hp => ih hp
  | unlock m k' ih => exact fun hp => ih hp

/-- Running `p` and then the rest. -/
theorem Off.exec_bind {h : Nat} {p : Prog Γ} {k : Out → Prog Γ} : ∀ {M : Mem Γ}, h < M .next → Off h p → (p.bind k).exec M = (k (p.exec M).2).exec (p.exec M).1 := by
  induction p with
  | ret o => exact fun _ _ => rfl
  | stuck => exact fun _ hp => hp.elim
  | get l k' ih => exact fun hM hp => ih _ hM (hp _ hM)
  | put l v k' ih => exact fun hM hp => ih (hp.2.1 _ hM) hp.2.2
  | lock m k' ih => exact fun hM hp => ih hM hp
  | unlock m k' ih => exact fun hM hp => ih hM hp

theorem Off.exec {h : Nat} {p : Prog Γ} : ∀ {M : Mem Γ}, h < M .next → Off h p → h < (p.exec M).1 .next ∧ ∀ f, (p.exec M).1 (.b h f) = M (.b h f) := by
  induction p with
  | ret o => exact fun hM _ => ⟨hM, fun _ => rfl⟩
  | stuck => exact fun _ hp => hp.elim
  | get l k' ih => exact fun hM hp => ih _ hM (hp _ hM)
  | put l v k' ih =>
    intro M hM hp
    obtain ⟨h1, h2⟩ := ih (hp.2.1 _ hM) hp.2.2
    exact ⟨h1, fun f => by rw [show (Prog.put l v k').exec M = k'.exec (M.set l v) from rfl, h2 f]; simp only [Mem.set, dif_neg (hp.1 f)]⟩
  | lock m k' ih => exact fun hM hp => ih hM hp
  | unlock m k' ih => exact fun hM hp => ih hM hp

namespace ConcBytes
open Spec
variable {h : Nat}

theorem off_put {h' : Nat} (hn : h ≠ h') {f : bytesSig.BF} {v : (Loc.b (Γ := bytesSig) h' f).Val} {k : P} (hk : Off h k) : Off h (.put (.b h' f) v k) :=
  ⟨fun _ e => by cases e; exact hn rfl, fun M hM => by simpa [Mem.set] using hM, hk⟩

theorem off_get {l : Loc bytesSig} {k : l.Val → P} (hk : ∀ v, Off h (k v)) : Off h (.get l k) := fun _ _ => hk _

theorem off_lock {m : Lk} {k : P} (hk : Off h k) : Off h (.lock m k) := hk

theorem off_quit {h' : Nat} {o : Out} : Off h (quit h' o) := trivial

theorem off_copy {h' : Nat} (v1 : List Byte) (v2 : Int) (v3 v4 : Bool) : Off (Γ := bytesSig) h
    (.lock .common <| .get .next fun i => .put (.b i .data) v1 <| .put (.b i .offset) v2 <| .put (.b i .eof) v3 <| .put (.b i .closed) v4 <|
      .put .next (i + 1 : Nat) <| .unlock .common <| quit h' (.copied i)) := by
  intro M hM
  have hn : h ≠ M .next := Nat.ne_of_lt hM
  refine off_put hn (off_put hn (off_put hn (off_put hn ⟨fun _ e => (by cases e), fun M' _ => ?_, trivial⟩)))
  simp only [Mem.set, dite_true]
  exact Nat.lt_succ_of_lt hM

theorem off_written {h' : Nat} (hn : h ≠ h') {r : XResp (Int × Option Err)} {i j : Int} {d : List Byte} : Off h (written h' i j d r) := by
  unfold written
  split
  · exact off_quit
  · split
    · exact off_quit
    · split
      · exact off_quit
      · exact off_get fun v => off_put hn (off_put hn off_quit)

theorem prog_off {op : Op} (hn : op.h = h → ∃ h', op = .unwrap h') : Off h (prog op) := by
  cases op with
  | unwrap h => trivial
  | writeTo h' w =>
    have hn : h ≠ h' := by rintro rfl; obtain ⟨_, e⟩ := hn rfl; cases e
    refine off_lock (off_get fun v => ?_)
    try dsimp only
    split
    · exact off_quit
    refine off_get fun v => ?_
    try dsimp only
    split
    · exact off_quit
    refine off_get fun i => off_get fun data => ?_
    try dsimp only
    split
    · exact off_quit
    · exact off_written (r := w _) (j := _) hn
  | copy h' =>
    refine off_lock (off_get fun v => ?_)
    try dsimp only
    split
    · exact off_quit
    exact off_get fun v => off_get fun v => off_get fun v => off_get fun v => off_copy _ _ _ _
  | read h' k | seek h' off wh | remaining h' | readAt h' k off | close h' =>
    have hn : h ≠ h' := by rintro rfl; obtain ⟨_, e⟩ := hn rfl; cases e
    dsimp only [prog, read, seek, remaining, readAt, close]
    refine off_lock ?_
    repeat' first
      | exact off_quit
      | refine off_put hn ?_
      | (refine off_get fun v => ?_; try dsimp only)
      | split

theorem off_after {prog' : Op → P} (k : XResp (Int × Option Err) → P) (hk : ∀ r, Off h (k r)) : ∀ x : WriterDoes, AllCalls (fun op => Off h (prog' op)) x →
    Off h (Prog.after prog' x k)
  | .answer r, _ => hk r
  | .call _ next, ho => Off.bind (fun o => off_after k hk (next o) (ho.2 o)) ho.1

theorem exec_after {prog' : Op → P} (k : XResp (Int × Option Err) → P) : ∀ (x : WriterDoes) (M : Mem bytesSig), h < M .next → AllCalls (fun op => Off h (prog' op)) x →
    (Prog.after prog' x k).exec M = (k (x.alone prog' M).2).exec (x.alone prog' M).1 ∧ ∀ f, (x.alone prog' M).1 (.b h f) = M (.b h f)
  | .answer r, M, _, _ => ⟨rfl, fun _ => rfl⟩
  | .call op next, M, hM, ho => by
    obtain ⟨h1, h2⟩ := ho.1.exec hM
    obtain ⟨h3, h4⟩ := exec_after k (next ((prog' op).exec M).2) _ h1 (ho.2 _)
    exact ⟨(ho.1.exec_bind hM).trans h3, fun f => (h4 f).trans (h2 f)⟩

theorem back_off (calls : WriterCalls) (n : Nat) : ∀ (op : Op) (B : List Nat), h ∈ B → Clear calls n B op → Off h (backProg calls n op) := by
  induction n with
  | zero => exact fun op B hB hc => prog_off fun e => hc (by rw [e]; exact hB)
  | succ n ih =>
    intro op B hB hc
    cases op with
    | writeTo h' w =>
      have hn : h ≠ h' := by rintro rfl; obtain ⟨_, e⟩ := hc.1 hB; cases e
      refine off_lock (off_get fun v => ?_)
      try dsimp only
      split
      · exact off_quit
      refine off_get fun v => ?_
      try dsimp only
      split
      · exact off_quit
      refine off_get fun i => off_get fun data => ?_
      try dsimp only
      split
      · exact off_quit
      next d hd => exact off_after _ (fun _ => off_written hn) _ ((hc.2 h' w rfl d).imp fun op' ho => ih op' (h' :: B) (List.mem_cons_of_mem _ hB) ho)
    | _ => exact prog_off fun e => hc.1 (by rw [e]; exact hB)

theorem exec_writeToBy (prog' : Op → P) (calls : WriterCalls) (w : WriteFn) (M : Mem bytesSig) :
    (writeToBy prog' calls h w).exec M = (if (M (.b h .closed) : Bool) then quit h (.wrote none 0 (some .closed))
      else if (M (.b h .eof) : Bool) then quit h (.wrote none 0 none)
      else match goSlice (M (.b h .data) : List Byte) (M (.b h .offset) : Int) (M (.b h .data) : List Byte).length with
        | none => quit h (.panic .bounds)
        | some d => Prog.after prog' (calls h w d) (written h (M (.b h .offset) : Int) (M (.b h .data) : List Byte).length d) : P).exec M := by
  simp only [writeToBy, Prog.exec]
  split
  · rfl
  · simp only [Prog.exec]
    split
    · rfl
    · simp only [Prog.exec]
      rfl

/-- `WriteTo` does what it does with a Writer that makes no calls and answers the same. -/
theorem back_same (calls : WriterCalls) (n : Nat) {w : WriteFn} {B : List Nat} (hc : Clear calls (n + 1) B (.writeTo h w)) {M : Mem bytesSig} (hM : h < M .next) :
    ((backProg calls (n + 1) (.writeTo h w)).exec M).2 = ((prog (.writeTo h fun d => ((calls h w d).alone (backProg calls n) M).2)).exec M).2 ∧
      ∀ f, ((backProg calls (n + 1) (.writeTo h w)).exec M).1 (.b h f) = ((prog (.writeTo h fun d => ((calls h w d).alone (backProg calls n) M).2)).exec M).1 (.b h f) := by
  have wr : ∀ (i j : Int) (d : List Byte) (r : XResp (Int × Option Err)) (M' : Mem bytesSig), (∀ f, M' (.b h f) = M (.b h f)) →
      ((written h i j d r).exec M').2 = ((written h i j d r).exec M).2 ∧ ∀ f, ((written h i j d r).exec M').1 (.b h f) = ((written h i j d r).exec M).1 (.b h f) := by
    intro i j d r M' e
    unfold written
    split
    · exact ⟨rfl, e⟩
    · split
      · exact ⟨rfl, e⟩
      · split
        · exact ⟨rfl, e⟩
        · refine ⟨rfl, fun f => ?_⟩
          simp only [Prog.exec, quit, e, Mem.set]
  have e0 : ∀ w : WriteFn, prog (.writeTo h w) = writeToBy prog (fun _ w d => .answer (w d)) h w := fun _ => rfl
  rw [e0, exec_writeToBy]
  show ((writeToBy (backProg calls n) calls h w).exec M).2 = _ ∧ ∀ f, ((writeToBy (backProg calls n) calls h w).exec M).1 (.b h f) = _
  rw [exec_writeToBy]
  split
  · exact ⟨rfl, fun _ => rfl⟩
  split
  · exact ⟨rfl, fun _ => rfl⟩
  split
  · exact ⟨rfl, fun _ => rfl⟩
  next d hd =>
    obtain ⟨h1, h2⟩ := exec_after (h := h) (prog' := backProg calls n) (written h (M (.b h .offset) : Int) (M (.b h .data) : List Byte).length d) (calls h w d) M hM
      ((hc.2 h w rfl d).imp fun op ho => back_off calls n op (h :: B) (List.mem_cons_self ..) ho)
    rw [h1]
    exact wr _ _ d _ _ h2

end ConcBytes
end Verif
