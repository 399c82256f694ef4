import Verif.Proofs.ConcMem
import Verif.Model.ConcBuf

/-!
# Stream-backed bodies keep to the discipline
-/

set_option autoImplicit false

namespace Verif
namespace ConcBuf
variable {σ : Type}

/-- The offset of a body in the set `bodies` may be read by whoever holds `common.mu`. -/
def disc (σ : Type) : Disc (bufSig σ) where
  shared f := f = .offset
  memb c h := h ∈ c .bodies
  racyC _ := False
  excl _ _ h := h

theorem disc_mem (M : Mem (bufSig σ)) (h : Nat) : (disc σ).mem M h ↔ h ∈ (M (.c .bodies) : List Nat) := Iff.rfl

theorem bodies_b (M : Mem (bufSig σ)) (h : Nat) (f : BufB) (v) : (M.set (.b h f) v) (.c .bodies) = M (.c .bodies) := Mem.set_other _ _ (by simp)

theorem bodies_c (M : Mem (bufSig σ)) {f : BufC} (hf : f ≠ .bodies) (v) : (M.set (.c f) v) (.c .bodies) = M (.c .bodies) :=
  Mem.set_other _ _ (by simpa using Ne.symm hf)

theorem mem_drop (l : List Nat) {i h : Nat} (e : i ≠ h) : i ∈ l.filter (· ≠ h) ↔ i ∈ l := by simp [e]

theorem mem_add (l : List Nat) {i j : Nat} (e : j ≠ i) : j ∈ (if i ∈ l then l else l ++ [i]) ↔ j ∈ l := by
  split
  · rfl
  · simp [e]

section
variable {fin : Bool} {H : Held} {h : Nat} {M : Mem (bufSig σ)}

theorem safe_quit (o : Out) : Safe (disc σ) ⟨some h, false⟩ fin M (quit h o) := .unlock_body

theorem safe_done (o : Out) : Safe (disc σ) ⟨some h, true⟩ fin M (done h o) := .unlock_common fun _ _ => .unlock_body

theorem safe_put_c {f : BufC} {v k} (hf : f ≠ .bodies) (hc : H.c = true) (hk : Safe (disc σ) H fin (M.set (.c f) v) k) :
    Safe (disc σ) H fin M (.put (.c f) v k) :=
  .put_c hc id (fun i => .inl (by rw [disc_mem, disc_mem, bodies_c M hf])) hk

/-- Safe whatever happens to variables other than `bodies`. -/
def Cont (H : Held) (fin : Bool) (bodies : List Nat) (k : P σ) : Prop :=
  ∀ M : Mem (bufSig σ), M (.c .bodies) = bodies → Safe (disc σ) H fin M k

theorem safe_scan (k : Int → Int → P σ) (is : List Nat) (new n : Int) (his : ∀ i ∈ is, i ∈ (M (.c .bodies) : List Nat))
    (hk : ∀ new n, Safe (disc σ) ⟨some h, true⟩ fin M (k new n)) : Safe (disc σ) ⟨some h, true⟩ fin M (scan k is new n) := by
  induction is generalizing new n with
  | nil => exact hk _ _
  | cons i is ih =>
    have hi := his i (by simp)
    have his' : ∀ j ∈ is, j ∈ (M (.c .bodies) : List Nat) := fun j hj => his j (by simp [hj])
    exact .get_memb rfl rfl hi <| .ite (fun _ => ih _ _ his') fun _ => ih _ _ his'

theorem safe_updateStart (k : P σ) (hk : Cont ⟨some h, true⟩ fin (M (.c .bodies)) k) : Safe (disc σ) ⟨some h, true⟩ fin M (updateStart h k) := by
  refine .get_c rfl <| safe_scan _ _ _ _ (fun _ h => h) fun new n => .get_c rfl <| .ite (fun _ => safe_done _) fun _ => .ite (fun _ => safe_done _)
    fun _ => .get_c rfl ?_
  split
  · exact safe_done _
  · refine safe_put_c (by simp) rfl <| safe_put_c (by simp) rfl <| safe_put_c (by simp) rfl (hk _ ?_)
    rw [bodies_c _ (by simp), bodies_c _ (by simp), bodies_c _ (by simp)]

theorem safe_dropRef (k : P σ) (hk : Cont ⟨some h, true⟩ fin (M (.c .bodies)) k) : Safe (disc σ) ⟨some h, true⟩ fin M (dropRef h k) := by
  refine .get_c rfl <| safe_put_c (by simp) rfl <| .get_c rfl <| .ite (fun _ => safe_updateStart _ ?_) fun _ => hk _ ?_
  · rw [bodies_c _ (by simp)]; exact hk
  · rw [bodies_c _ (by simp)]

theorem safe_advance (o n : Int) (k : P σ) (hk : Cont ⟨some h, true⟩ fin (M (.c .bodies)) k) :
    Safe (disc σ) ⟨some h, true⟩ fin M (advance h o n k) :=
  .get_c rfl <| .get_c rfl <| .ite (fun _ => safe_done _) fun _ => .ite (fun _ => safe_done _) fun _ => .ite (fun _ => safe_done _) fun _ =>
    .ite (fun _ => safe_dropRef _ hk) fun _ => hk _ rfl

theorem safe_remaining (hh : h < M .next) : Safe (disc σ) .none false M (remaining h) :=
  .lock_body hh fun _ _ => .get_b rfl <| .ite (fun _ => safe_quit _) fun _ => .get_b rfl <| .ite (fun _ => safe_quit _) fun _ =>
    .lock_common fun _ => .get_c rfl <| .ite (fun _ => safe_done _) fun _ => .get_b rfl <| .get_c rfl <| safe_done _

theorem safe_readLoop (R : Rdr σ) (start : Int) (k : List Byte → P σ) (hk : ∀ buf M, Safe (disc σ) ⟨some h, true⟩ false M (k buf)) (fuel : Nat) :
    ∀ (buf : List Byte) (n : Int) (M : Mem (bufSig σ)), Safe (disc σ) ⟨some h, true⟩ false M (readLoop R h start k fuel buf n) := by
  induction fuel with
  | zero =>
    intro buf n M
    unfold readLoop
    exact .ite (fun _ => hk _ _) fun _ => trivial
  | succ fuel ih =>
    intro buf n M
    unfold readLoop
    refine .ite (fun _ => hk _ _) fun _ => .get_c rfl <| .ite (fun _ => safe_done _) fun _ => .get_c rfl <| safe_put_c (by simp) rfl ?_
    split
    · exact safe_done _
    · exact safe_done _
    · refine .ite (fun _ => safe_done _) fun _ => safe_put_c (by simp) rfl ?_
      split
      · exact safe_put_c (by simp) rfl <| safe_put_c (by simp) rfl <| hk _ _
      · exact ih _ _ _

theorem safe_fill (R : Rdr σ) (fuel : Nat) (start endB endO : Int) (k : Int → P σ) (hk : ∀ n M, Safe (disc σ) ⟨some h, true⟩ false M (k n)) :
    Safe (disc σ) ⟨some h, true⟩ false M (fill R fuel h start endB endO k) := by
  refine .get_c rfl <| .ite (fun _ => .get_c rfl <| .ite (fun _ => safe_done _) fun _ => .get_c rfl <| safe_put_c (by simp) rfl <|
    safe_readLoop R start _ (fun buf M => .get_c rfl <| .ite (fun _ => ?_) fun _ => hk _ _) _ _ _ _) fun _ => hk _ _
  exact safe_put_c (by simp) rfl <| safe_put_c (by simp) rfl <| hk _ _

theorem safe_deliver (k : Nat) (start b e : Int) (err : Option Err) : Safe (disc σ) ⟨some h, true⟩ false M (deliver h k start b e err) := by
  refine .get_c rfl ?_
  split
  · exact .put_b rfl (.inr (.inl rfl)) <| safe_advance _ _ _ fun _ _ => safe_done _
  · exact safe_done _

theorem safe_read (R : Rdr σ) (fuel k : Nat) (hh : h < M .next) : Safe (disc σ) .none false M (read R fuel h k) := by
  refine .lock_body hh fun _ _ => .get_b rfl <| .ite (fun _ => safe_quit _) fun _ => .lock_common fun _ => .get_b rfl <|
    .ite (fun _ => .get_c rfl <| safe_done _) fun _ => .get_c rfl <| .get_c rfl <| .get_b rfl <| .ite (fun _ => safe_done _) fun _ =>
    safe_fill R fuel _ _ _ _ fun n M => .ite (fun _ => .get_c rfl <| .put_b rfl (.inr (.inl rfl)) <| safe_deliver _ _ _ _ _) fun _ => safe_deliver _ _ _ _ _

theorem safe_closeEnd (e : Option Err) {bodies : List Nat} (hb : h ∉ bodies) : Cont (σ := σ) ⟨some h, true⟩ fin bodies (closeEnd h e) := by
  intro M hM
  refine .unlock_common fun M' hm => .put_b rfl (.inr (.inr ?_)) <| .put_b rfl (.inl (by simp [disc])) <| .put_b rfl (.inl (by simp [disc])) <| safe_quit _
  rw [hm ⟨_, rfl⟩, disc_mem, hM]
  exact hb

theorem safe_close (R : Rdr σ) (hh : h < M .next) : Safe (disc σ) .none false M (close R h) := by
  refine .lock_body hh fun _ _ => .get_b rfl <| .ite (fun _ => safe_quit _) fun _ => .lock_common fun M => .get_c rfl <|
    .put_c rfl id (fun i => ?_) <| .get_c rfl ?_
  · by_cases e : i = h
    · subst e; exact .inr (.inl rfl)
    · left
      rw [disc_mem, disc_mem, Mem.set_same]
      exact mem_drop _ e
  · rw [Mem.set_same]
    have hn : h ∉ (M (.c .bodies) : List Nat).filter (· ≠ h) := by simp
    generalize hK : M.set (.c .bodies) ((M (.c .bodies) : List Nat).filter (· ≠ h)) = K
    have hKb : K (.c .bodies) = (M (.c .bodies) : List Nat).filter (· ≠ h) := by rw [← hK, Mem.set_same]
    generalize (M (.c .bodies) : List Nat).filter (· ≠ h) = bs at *
    refine .ite (fun _ => .get_b rfl <| .get_c rfl <| .ite (fun _ => safe_dropRef _ ?_) fun _ => ?_) fun hz => ?_
    · rw [hKb]; exact safe_closeEnd _ hn
    · exact safe_closeEnd _ hn _ hKb
    · have hb0 : bs = [] := List.eq_nil_of_length_eq_zero (by omega)
      refine .get_c rfl <| safe_put_c (by simp) rfl <| safe_put_c (by simp) rfl <| .put_c rfl id (fun i => .inl ?_) <| safe_put_c (by simp) rfl <|
        safe_put_c (by simp) rfl <| safe_put_c (by simp) rfl <| .ite (fun _ => .get_c rfl <| safe_put_c (by simp) rfl <| ?_) fun _ => ?_
      · rw [disc_mem, disc_mem, Mem.set_same, bodies_c _ (by simp), bodies_c _ (by simp), hKb, hb0]
      · split
        · refine safe_closeEnd (bodies := []) _ (by simp) _ ?_
          rw [bodies_c _ (by simp), bodies_c _ (by simp), bodies_c _ (by simp), bodies_c _ (by simp), Mem.set_same]
        · exact safe_done _
      · refine safe_closeEnd (bodies := []) _ (by simp) _ ?_
        rw [bodies_c _ (by simp), bodies_c _ (by simp), bodies_c _ (by simp), Mem.set_same]

theorem safe_copy (hh : h < M .next) : Safe (disc σ) .none false M (copy h) := by
  refine .lock_body hh fun _ _ => .get_b rfl <| .ite (fun _ => safe_quit _) fun _ => .get_b rfl <| .get_b rfl <| .get_b rfl <|
    .lock_common fun M => .get_c rfl <| .ite (fun _ => safe_done _) fun _ => .get_next rfl <| .put_new rfl (Nat.le_refl _) <| .put_new rfl ?_ <| .put_new rfl ?_ <| .get_c rfl <|
    .put_c rfl id (fun j => ?_) <| .get_new rfl ?_ <| .get_c rfl <| .ite (fun _ => .get_c rfl <| safe_put_c (by simp) rfl <|
    .put_next rfl ?_ <| safe_done _) fun _ => .put_next rfl ?_ <| safe_done _
  · rw [Mem.next_b]; exact Nat.le_refl _
  · rw [Mem.next_b, Mem.next_b]; exact Nat.le_refl _
  · rw [disc_mem, disc_mem, Mem.set_same, Mem.next_b, Mem.next_b, Mem.next_b]
    by_cases e : j = M .next
    · subst e; exact .inr (.inr (Nat.le_refl _))
    · exact .inl (mem_add _ e)
  · rw [Mem.next_c, Mem.next_b, Mem.next_b, Mem.next_b]; exact Nat.le_refl _
  · rw [Mem.next_c, Mem.next_c, Mem.next_b, Mem.next_b, Mem.next_b]; exact Nat.le_succ _
  · rw [Mem.next_c, Mem.next_b, Mem.next_b, Mem.next_b]; exact Nat.le_succ _

theorem safe_unwrap (hh : h < M .next) : Safe (disc σ) .none false M (unwrap h) :=
  .lock_body hh fun _ _ => .get_b rfl <| .ite (fun _ => safe_quit _) fun _ => .lock_common fun _ => .get_c rfl <| safe_done _

end

theorem safe (R : Rdr σ) (fuel : Nat) (op : Op) (M : Mem (bufSig σ)) (hh : op.h < M .next) : Safe (disc σ) .none false M (prog R fuel op) := by
  cases op with
  | read h k => exact safe_read R fuel k hh
  | remaining h => exact safe_remaining hh
  | copy h => exact safe_copy hh
  | close h => exact safe_close R hh
  | unwrap h => exact safe_unwrap hh
  | readAt _ _ _ => exact rfl
  | seek _ _ _ => exact rfl
  | writeTo _ _ => exact rfl

/-! ## Running alone, the methods do what the sequential model says -/

def bodyOf (M : Mem (bufSig σ)) (h : Nat) : BufBody := { offset := M (.b h .offset), eof := M (.b h .eof), closed := M (.b h .closed) }

/-- The family as the sequential model sees it. -/
def abs (M : Mem (bufSig σ)) : BufSys σ where
  common := { hasR := M (.c .hasR), rdr := M (.c .rdr), err := M (.c .err), bodies := M (.c .bodies), bytes := M (.c .bytes),
              length := M (.c .length), start := M (.c .start), refcnt := M (.c .refcnt) }
  heap := heapOf bodyOf M

theorem loc (M : Mem (bufSig σ)) (h i : Nat) (f : BufB) (v) (e : i ≠ h) : bodyOf (M.set (.b h f) v) i = bodyOf M i := by
  simp [bodyOf, Mem.set, e]

theorem locn (M : Mem (bufSig σ)) (n : Nat) (i : Nat) : bodyOf (M.set .next n) i = bodyOf M i := by
  simp [bodyOf, Mem.set]

theorem offset (M : Mem (bufSig σ)) (h : Nat) (v : Int) : bodyOf (M.set (.b h .offset) v) h = { bodyOf M h with offset := v } := by
  simp [bodyOf, Mem.set]

theorem eof (M : Mem (bufSig σ)) (h : Nat) (v : Bool) : bodyOf (M.set (.b h .eof) v) h = { bodyOf M h with eof := v } := by
  simp [bodyOf, Mem.set]

theorem closed (M : Mem (bufSig σ)) (h : Nat) (v : Bool) : bodyOf (M.set (.b h .closed) v) h = { bodyOf M h with closed := v } := by
  simp [bodyOf, Mem.set]

theorem bodyOf_c (M : Mem (bufSig σ)) (f : BufC) (v) (h : Nat) : bodyOf (M.set (.c f) v) h = bodyOf M h := by
  simp [bodyOf, Mem.set]

theorem heap_c (M : Mem (bufSig σ)) (f : BufC) (v) : heapOf bodyOf (M.set (.c f) v) = heapOf bodyOf M := by
  rw [heapOf, heapOf, Mem.next_c]
  exact List.map_congr_left fun i _ => bodyOf_c M f v i

theorem abs_b (M : Mem (bufSig σ)) (h : Nat) (f : BufB) (v) :
    abs (M.set (.b h f) v) = { abs M with heap := (abs M).heap.set h (bodyOf (M.set (.b h f) v) h) } := by
  rw [abs, heapOf_b bodyOf loc]
  simp only [abs, BufSys.mk.injEq, BufCommon.mk.injEq, and_true]
  exact ⟨Mem.set_other _ _ (by simp), Mem.set_other _ _ (by simp), Mem.set_other _ _ (by simp), Mem.set_other _ _ (by simp),
    Mem.set_other _ _ (by simp), Mem.set_other _ _ (by simp), Mem.set_other _ _ (by simp), Mem.set_other _ _ (by simp)⟩

theorem abs_hasR (M : Mem (bufSig σ)) (v : Bool) :
    abs (M.set (.c .hasR) v) = { abs M with common := { (abs M).common with hasR := v } } := by
  rw [abs, heap_c]; rfl

theorem abs_rdr (M : Mem (bufSig σ)) (v : σ) :
    abs (M.set (.c .rdr) v) = { abs M with common := { (abs M).common with rdr := v } } := by
  rw [abs, heap_c]; rfl

theorem abs_err (M : Mem (bufSig σ)) (v : Option Err) :
    abs (M.set (.c .err) v) = { abs M with common := { (abs M).common with err := v } } := by
  rw [abs, heap_c]; rfl

theorem abs_bodies (M : Mem (bufSig σ)) (v : List Nat) :
    abs (M.set (.c .bodies) v) = { abs M with common := { (abs M).common with bodies := v } } := by
  rw [abs, heap_c]; rfl

theorem abs_bytes (M : Mem (bufSig σ)) (v : List Byte) :
    abs (M.set (.c .bytes) v) = { abs M with common := { (abs M).common with bytes := v } } := by
  rw [abs, heap_c]; rfl

theorem abs_length (M : Mem (bufSig σ)) (v : Int) :
    abs (M.set (.c .length) v) = { abs M with common := { (abs M).common with length := v } } := by
  rw [abs, heap_c]; rfl

theorem abs_start (M : Mem (bufSig σ)) (v : Int) :
    abs (M.set (.c .start) v) = { abs M with common := { (abs M).common with start := v } } := by
  rw [abs, heap_c]; rfl

theorem abs_refcnt (M : Mem (bufSig σ)) (v : Int) :
    abs (M.set (.c .refcnt) v) = { abs M with common := { (abs M).common with refcnt := v } } := by
  rw [abs, heap_c]; rfl

/-- The members exist. -/
def good (M : Mem (bufSig σ)) : Prop := ∀ i ∈ (M (.c .bodies) : List Nat), i < M .next

theorem exec_scan (k : Int → Int → P σ) (M : Mem (bufSig σ)) (is : List Nat) (his : ∀ i ∈ is, i < M .next) : ∀ new n : Int,
    (scan k is new n).exec M =
      (k ((is.filterMap fun i => ((abs M).heap[i]?).map (·.offset)).foldl BufSys.scan (new, n)).1
        ((is.filterMap fun i => ((abs M).heap[i]?).map (·.offset)).foldl BufSys.scan (new, n)).2).exec M := by
  induction is with
  | nil => intro new n; rfl
  | cons i is ih =>
    intro new n
    have hi : (abs M).heap[i]? = some (bodyOf M i) := heapOf_get bodyOf M (his i (by simp))
    have ih := ih fun j hj => his j (by simp [hj])
    have hs : ∀ new n, BufSys.scan (new, n) (M (.b i .offset)) =
        if M (.b i .offset) = (if n ≤ 0 ∨ (M (.b i .offset) : Int) < new then M (.b i .offset) else new) then
          ((if n ≤ 0 ∨ (M (.b i .offset) : Int) < new then M (.b i .offset) else new), (if n ≤ 0 ∨ (M (.b i .offset) : Int) < new then 0 else n) + 1)
        else ((if n ≤ 0 ∨ (M (.b i .offset) : Int) < new then M (.b i .offset) else new), (if n ≤ 0 ∨ (M (.b i .offset) : Int) < new then 0 else n)) := by
      intro new n
      simp only [BufSys.scan]
      by_cases hc : n ≤ 0 ∨ (M (.b i .offset) : Int) < new
      · simp only [if_pos hc]
      · simp only [if_neg hc]
    simp only [List.filterMap_cons, hi, Option.map_some, List.foldl_cons, scan, Prog.exec]
    rw [show (bodyOf M i).offset = M (.b i .offset) from rfl, hs]
    split <;> split <;> exact ih _ _

theorem exec_updateStart (h : Nat) (k : P σ) (M : Mem (bufSig σ)) (hg : good M) :
    ∃ M', abs M' = (abs M).updateStart.1 ∧ (∀ h f, M' (.b h f) = M (.b h f)) ∧ (updateStart h k).exec M =
      match (abs M).updateStart.2 with
      | some p => (M', .panic p)
      | none => k.exec M' := by
  have hoff : (abs M).offsets = (M (.c .bodies) : List Nat).filterMap fun i => ((abs M).heap[i]?).map (·.offset) := rfl
  have e1 : (abs M).common.start = M (.c .start) := rfl
  have e2 : (abs M).common.bytes = M (.c .bytes) := rfl
  simp only [updateStart, Prog.exec]
  rw [exec_scan _ M _ hg, ← hoff]
  simp only [BufSys.updateStart, Prog.exec, e1, e2]
  generalize (abs M).offsets.foldl BufSys.scan (0, 0) = r
  by_cases h1 : ¬ r.1 ≥ M (.c .start)
  · refine ⟨M, ?_⟩
    simp only [if_pos h1, done, quit, Prog.exec]
    simp
  · simp only [if_neg h1]
    by_cases h2 : ¬ r.2 ≥ 1
    · refine ⟨M, ?_⟩
      simp only [if_pos h2, done, quit, Prog.exec]
      simp
    · simp only [if_neg h2, Prog.exec]
      generalize goSlice (M (.c .bytes) : List Byte) (r.1 - M (.c .start)) (M (.c .bytes) : List Byte).length = g
      cases g with
      | none =>
        refine ⟨M, ?_⟩
        simp [done, quit, Prog.exec]
      | some bytes =>
        refine ⟨((M.set (.c .bytes) bytes).set (.c .start) r.1).set (.c .refcnt) r.2, ?_, ?_, rfl⟩
        · simp only [abs_bytes, abs_start, abs_refcnt]
        · intro h f
          rw [Mem.set_other _ _ (by simp), Mem.set_other _ _ (by simp), Mem.set_other _ _ (by simp)]

/-- The members exist, seen from the sequential model. -/
def Members (s : BufSys σ) : Prop := ∀ i ∈ s.common.bodies, i < s.heap.length

theorem good_iff (M : Mem (bufSig σ)) : good M ↔ Members (abs M) := by
  have : (abs M).heap.length = M .next := heapOf_len bodyOf M
  simp only [good, Members, this]; rfl

theorem exec_dropRef (h : Nat) (k : P σ) (M : Mem (bufSig σ)) (hg : good M) (s : BufSys σ)
    (hs : s = { abs M with common := { (abs M).common with refcnt := (abs M).common.refcnt - 1 } }) :
    ∃ M', abs M' = (if s.common.refcnt ≤ 0 then s.updateStart else (s, none)).1 ∧ (∀ h f, M' (.b h f) = M (.b h f)) ∧ (dropRef h k).exec M =
      match (if s.common.refcnt ≤ 0 then s.updateStart else (s, none)).2 with
      | some p => (M', .panic p)
      | none => k.exec M' := by
  have e1 : (abs M).common.refcnt = M (.c .refcnt) := rfl
  have e2 : abs (M.set (.c .refcnt) ((M (.c .refcnt) : Int) - 1 : Int)) = s := by rw [hs, abs_refcnt, e1]
  have e3 : s.common.refcnt = (M (.c .refcnt) : Int) - 1 := by rw [hs]; rfl
  have e4 : ∀ h f, (M.set (.c .refcnt) ((M (.c .refcnt) : Int) - 1 : Int)) (.b h f) = M (.b h f) := fun h f => Mem.set_other _ _ (by simp)
  have hg' : good (M.set (.c .refcnt) ((M (.c .refcnt) : Int) - 1 : Int)) := by
    rw [good_iff, e2, hs]; exact (good_iff M).1 hg
  simp only [dropRef, Prog.exec, Mem.set_same]
  rw [e3]
  by_cases hc : (M (.c .refcnt) : Int) - 1 ≤ 0
  · rw [if_pos hc, if_pos hc]
    obtain ⟨M', h1, h2, h3⟩ := exec_updateStart h k _ hg'
    rw [e2] at h1 h3
    exact ⟨M', h1, fun h f => (h2 h f).trans (e4 h f), h3⟩
  · rw [if_neg hc, if_neg hc]
    exact ⟨_, e2, e4, rfl⟩

theorem exec_advance (h : Nat) (a b : Int) (k : P σ) (M : Mem (bufSig σ)) (hg : good M) :
    ∃ M', abs M' = ((abs M).advance a b).1 ∧ (∀ h f, M' (.b h f) = M (.b h f)) ∧ (advance h a b k).exec M =
      match ((abs M).advance a b).2 with
      | some p => (M', .panic p)
      | none => k.exec M' := by
  have e1 : (abs M).common.start = M (.c .start) := rfl
  have e2 : (abs M).common.bytes = M (.c .bytes) := rfl
  simp only [advance, Prog.exec, BufSys.advance, e1, e2]
  by_cases h1 : ¬ a ≥ M (.c .start)
  · simp only [if_pos h1]; exact ⟨M, rfl, fun _ _ => rfl, rfl⟩
  by_cases h2 : ¬ b ≥ a
  · simp only [if_neg h1, if_pos h2]; exact ⟨M, rfl, fun _ _ => rfl, rfl⟩
  by_cases h3 : ¬ (M (.c .start) : Int) + (M (.c .bytes) : List Byte).length ≥ b
  · simp only [if_neg h1, if_neg h2, if_pos h3]; exact ⟨M, rfl, fun _ _ => rfl, rfl⟩
  by_cases h4 : a = M (.c .start) ∧ b ≠ M (.c .start)
  · simp only [if_neg h1, if_neg h2, if_neg h3, if_pos h4]
    exact exec_dropRef h k M hg _ rfl
  · simp only [if_neg h1, if_neg h2, if_neg h3, if_neg h4]; exact ⟨M, rfl, fun _ _ => rfl, rfl⟩

theorem exec_readLoop (R : Rdr σ) (h : Nat) (start : Int) (k : List Byte → P σ) (fuel : Nat) : ∀ (n : Int) (M : Mem (bufSig σ)),
    M (.c .start) = start →
    ∃ M', abs M' = { abs M with common := (BufSys.readLoop R fuel (abs M).common n).1 } ∧ (∀ h f, M' (.b h f) = M (.b h f)) ∧
      (readLoop R h start k fuel (M (.c .bytes)) n).exec M =
      match (BufSys.readLoop R fuel (abs M).common n).2 with
      | some o => (M', o)
      | none => (k (M' (.c .bytes))).exec M' := by
  induction fuel with
  | zero =>
    intro n M hst
    refine ⟨M, ?_, fun _ _ => rfl, ?_⟩ <;> rw [BufSys.readLoop] <;> by_cases hn : ¬ n > 0
    · rw [if_pos hn]
    · rw [if_neg hn]
    · rw [readLoop, if_pos hn, if_pos hn]
    · rw [readLoop, if_neg hn, if_neg hn]; rfl
  | succ fuel ih =>
    intro n M hst
    have e1 : (abs M).common.hasR = M (.c .hasR) := rfl
    have e2 : (abs M).common.rdr = M (.c .rdr) := rfl
    have e3 : (abs M).common.bytes = M (.c .bytes) := rfl
    have e4 : (abs M).common.start = start := hst
    rw [BufSys.readLoop, readLoop]
    by_cases hn : ¬ n > 0
    · rw [if_pos hn, if_pos hn]; exact ⟨M, rfl, fun _ _ => rfl, rfl⟩
    rw [if_neg hn, if_neg hn]
    by_cases hr : M (.c .hasR) = true
    rotate_left
    · have hr : M (.c .hasR) = false := Bool.eq_false_iff.2 hr
      simp only [Prog.exec, e1, hr]
      exact ⟨M, rfl, fun _ _ => rfl, rfl⟩
    simp only [Prog.exec, e1, hr, Bool.not_true, Bool.false_eq_true, if_false, e2]
    generalize hq : R.read (M (.c .rdr)) n.toNat = q
    obtain ⟨s', out⟩ := q
    have b1 : ∀ h f, (M.set (.c .rdr) s') (.b h f) = M (.b h f) := fun h f => Mem.set_other _ _ (by simp)
    have a1 : abs (M.set (.c .rdr) s') = { abs M with common := { (abs M).common with rdr := s', hasR := true } } := by
      rw [abs_rdr, ← hr, ← e1]
    cases out with
    | panics p => exact ⟨_, a1, b1, rfl⟩
    | negative => exact ⟨_, a1, b1, rfl⟩
    | got d err =>
      dsimp only
      by_cases hd : ¬ (d.length : Int) ≤ n
      · simp only [if_pos hd]
        exact ⟨_, a1, b1, rfl⟩
      simp only [if_neg hd, Prog.exec]
      generalize hN : (M.set (.c .rdr) s').set (.c .bytes) ((M (.c .bytes) : List Byte) ++ d) = N
      have hNa : abs N = { abs M with common := { (abs M).common with rdr := s', hasR := true, bytes := (abs M).common.bytes ++ d } } := by
        rw [← hN, abs_bytes, a1, e3]
      have hNb : ∀ h f, N (.b h f) = M (.b h f) := by
        intro h f; rw [← hN, Mem.set_other _ _ (by simp), b1]
      have hNy : N (.c .bytes) = (M (.c .bytes) : List Byte) ++ d := by rw [← hN, Mem.set_same]
      have hNs : N (.c .start) = start := by
        rw [← hN, Mem.set_other _ _ (by simp), Mem.set_other _ _ (by simp), hst]
      cases err with
      | some e =>
        simp only [Prog.exec]
        refine ⟨(N.set (.c .length) (start + ((M (.c .bytes) : List Byte) ++ d).length : Int)).set (.c .err) (some e), ?_, ?_, ?_⟩
        · rw [abs_err, abs_length, hNa]; subst hst; rfl
        · intro h f; rw [Mem.set_other _ _ (by simp), Mem.set_other _ _ (by simp), hNb]
        · rw [Mem.set_other _ _ (by simp), Mem.set_other _ _ (by simp), hNy]
      | none =>
        obtain ⟨M', h1, h2, h3⟩ := ih (n - d.length) N hNs
        rw [hNa] at h1 h3
        rw [hNy] at h3
        exact ⟨M', h1, fun h f => (h2 h f).trans (hNb h f), h3⟩

theorem start_readLoop (R : Rdr σ) (fuel : Nat) : ∀ (c : BufCommon σ) (n : Int), (BufSys.readLoop R fuel c n).1.start = c.start := by
  induction fuel with
  | zero => intro c n; rw [BufSys.readLoop]; split <;> rfl
  | succ fuel ih =>
    intro c n
    rw [BufSys.readLoop]
    repeat' (first | rfl | split | dsimp only)
    all_goals exact ih _ _

theorem bodies_readLoop (R : Rdr σ) (fuel : Nat) : ∀ (c : BufCommon σ) (n : Int), (BufSys.readLoop R fuel c n).1.bodies = c.bodies := by
  induction fuel with
  | zero => intro c n; rw [BufSys.readLoop]; split <;> rfl
  | succ fuel ih =>
    intro c n
    rw [BufSys.readLoop]
    repeat' (first | rfl | split | dsimp only)
    all_goals exact ih _ _

theorem start_fill (R : Rdr σ) (fuel : Nat) (c : BufCommon σ) (n : Int) : (BufSys.fill R fuel c n).1.start = c.start := by
  have := start_readLoop R fuel c
  rw [BufSys.fill]
  repeat' (first | rfl | exact this _ | split | dsimp only)

theorem bodies_fill (R : Rdr σ) (fuel : Nat) (c : BufCommon σ) (n : Int) : (BufSys.fill R fuel c n).1.bodies = c.bodies := by
  have := bodies_readLoop R fuel c
  rw [BufSys.fill]
  repeat' (first | rfl | exact this _ | split | dsimp only)

theorem exec_fill (R : Rdr σ) (fuel : Nat) (h : Nat) (endOffset : Int) (k : Int → P σ) (M : Mem (bufSig σ)) :
    ∃ M', abs M' = { abs M with common := (BufSys.fill R fuel (abs M).common endOffset).1 } ∧ (∀ h f, M' (.b h f) = M (.b h f)) ∧
      (fill R fuel h (M (.c .start)) ((M (.c .start) : Int) + (M (.c .bytes) : List Byte).length) endOffset k).exec M =
      match (BufSys.fill R fuel (abs M).common endOffset).2 with
      | some o => (M', o)
      | none => (k ((M (.c .start) : Int) + (M' (.c .bytes) : List Byte).length)).exec M' := by
  have e1 : (abs M).common.start = M (.c .start) := rfl
  have e2 : (abs M).common.bytes = M (.c .bytes) := rfl
  have e3 : (abs M).common.length = M (.c .length) := rfl
  have e4 : (abs M).common.err = M (.c .err) := rfl
  simp only [fill, BufSys.fill, Prog.exec, e1, e2, e3, e4]
  by_cases h1 : M (.c .err) = none ∧ endOffset > (M (.c .start) : Int) + (M (.c .bytes) : List Byte).length
  rotate_left
  · simp only [if_neg h1]; exact ⟨M, rfl, fun _ _ => rfl, rfl⟩
  simp only [if_pos h1, Prog.exec]
  by_cases h2 : (M (.c .length) : Int) ≥ 0 ∧ ¬ (M (.c .start) : Int) + (M (.c .bytes) : List Byte).length ≤ M (.c .length)
  · simp only [if_pos h2]; exact ⟨M, rfl, fun _ _ => rfl, rfl⟩
  simp only [if_neg h2, Prog.exec]
  rw [show M.set (.c .bytes) (M (.c .bytes)) = M from Mem.set_self ..]
  generalize hr : (M (.c .length) : Int) - ((M (.c .start) : Int) + (M (.c .bytes) : List Byte).length) = remain
  generalize BufSys.roundUp (endOffset - ((M (.c .start) : Int) + (M (.c .bytes) : List Byte).length)) = ru
  generalize hee : decide ((M (.c .length) : Int) ≥ 0 ∧ ru ≥ remain) = e
  obtain ⟨M', a1, a2, a3⟩ := exec_readLoop R h (M (.c .start)) (fun buf =>
        .get (.c .err) fun (err : Option Err) =>
        if e = true ∧ err = none then
          .put (.c .length) ((M (.c .start) : Int) + buf.length : Int) <|
          .put (.c .err) (some .eof) <|
          k ((M (.c .start) : Int) + buf.length)
        else k ((M (.c .start) : Int) + buf.length)) fuel (if e = true then remain else ru) M rfl
  simp only [hee] at *
  rw [a3]
  have hst := start_readLoop R fuel (abs M).common (if e = true then remain else ru)
  generalize BufSys.readLoop R fuel (abs M).common (if e = true then remain else ru) = r at *
  obtain ⟨c, o⟩ := r
  cases o with
  | some o => exact ⟨M', a1, a2, rfl⟩
  | none =>
    have b1 : c.err = M' (.c .err) := (congrArg (fun s => s.common.err) a1).symm
    have b2 : c.bytes = M' (.c .bytes) := (congrArg (fun s => s.common.bytes) a1).symm
    simp only [Prog.exec, b1] at *
    by_cases h3 : e = true ∧ M' (.c .err) = none
    · simp only [if_pos h3, Prog.exec]
      refine ⟨(M'.set (.c .length) ((M (.c .start) : Int) + (M' (.c .bytes) : List Byte).length : Int)).set (.c .err) (some .eof), ?_, ?_, ?_⟩
      · rw [abs_err, abs_length, a1]; simp only [hst, b2, e1]
      · intro h f; rw [Mem.set_other _ _ (by simp), Mem.set_other _ _ (by simp), a2]
      · rfl
    · simp only [if_neg h3]
      exact ⟨M', a1, a2, rfl⟩

theorem set_bodyOf (M : Mem (bufSig σ)) (h : Nat) : (abs M).heap.set h (bodyOf M h) = (abs M).heap := by
  apply List.ext_getElem?
  intro i
  by_cases e : h = i
  · subst e
    by_cases hi : h < M .next
    · simp [List.getElem?_set, abs, heapOf, hi]
    · simp [List.getElem?_set, abs, heapOf, hi]
  · simp [List.getElem?_set, e]

theorem members_set (s : BufSys σ) (h : Nat) (b : BufBody) (hm : Members s) : Members { s with heap := s.heap.set h b } := by
  intro i hi; have := hm i hi; simpa using this

/-- What `deliver` does, in the sequential model. -/
def deliverSeq (s : BufSys σ) (h k : Nat) (b : BufBody) (a e : Int) (err : Option Err) : BufSys σ × Out :=
  match goSlice (List.replicate k (0 : Byte)) 0 ((e - s.common.start) - (a - s.common.start)),
      goSlice s.common.bytes (a - s.common.start) (e - s.common.start) with
  | some _, some d =>
    match (BufSys.advance { s with heap := s.heap.set h { b with offset := e } } a e).2 with
    | some p => ((BufSys.advance { s with heap := s.heap.set h { b with offset := e } } a e).1, .panic p)
    | none => ((BufSys.advance { s with heap := s.heap.set h { b with offset := e } } a e).1, .read d err)
  | _, _ => (s, .panic .bounds)

theorem exec_deliver (h k : Nat) (b : BufBody) (a e : Int) (err : Option Err) (M : Mem (bufSig σ)) (hg : good M) (hb : bodyOf M h = b) :
    deliverSeq (abs M) h k b a e err =
      (abs ((deliver h k (M (.c .start)) a e err).exec M).1, ((deliver h k (M (.c .start)) a e err).exec M).2) := by
  have e1 : (abs M).common.start = M (.c .start) := rfl
  have e2 : (abs M).common.bytes = M (.c .bytes) := rfl
  simp only [deliver, deliverSeq, Prog.exec, e1, e2]
  generalize goSlice (List.replicate k (0 : Byte)) 0 ((e - M (.c .start)) - (a - M (.c .start))) = g1
  generalize goSlice (M (.c .bytes) : List Byte) (a - M (.c .start)) (e - M (.c .start)) = g2
  cases g1 with
  | none => rfl
  | some x =>
    cases g2 with
    | none => rfl
    | some d =>
      simp only [Prog.exec]
      have a1 : abs (M.set (.b h .offset) e) = { abs M with heap := (abs M).heap.set h { b with offset := e } } := by
        rw [abs_b, offset, hb]
      have hg' : good (M.set (.b h .offset) e) := by
        rw [good_iff, a1]; exact members_set _ _ _ ((good_iff M).1 hg)
      obtain ⟨M', h1, _, h3⟩ := exec_advance h a e (done h (.read d err)) (M.set (.b h .offset) e) hg'
      rw [a1] at h1 h3
      rw [h3]
      cases hq : (BufSys.advance { abs M with heap := (abs M).heap.set h { b with offset := e } } a e).2 <;> simp only [← h1] <;> rfl

theorem finishRead_eq (s : BufSys σ) (h k : Nat) (b : BufBody) (hs : s.heap.set h b = s.heap) : s.finishRead h b k =
    if b.offset + k > s.common.start + s.common.bytes.length then
      deliverSeq { s with heap := s.heap.set h { b with eof := true } } h k { b with eof := true } b.offset
        (s.common.start + s.common.bytes.length) s.common.err
    else deliverSeq s h k b b.offset (b.offset + k) none := by
  by_cases hc : b.offset + k > s.common.start + s.common.bytes.length
  · rw [if_pos hc]
    simp only [BufSys.finishRead, decide_eq_true hc, if_true, deliverSeq]
    generalize goSlice (List.replicate k (0 : Byte)) _ _ = g1
    generalize goSlice s.common.bytes _ _ = g2
    cases g1 <;> cases g2 <;> rfl
  · rw [if_neg hc]
    simp only [BufSys.finishRead, decide_eq_false hc, Bool.false_eq_true, if_false, deliverSeq, hs]
    generalize goSlice (List.replicate k (0 : Byte)) _ _ = g1
    generalize goSlice s.common.bytes _ _ = g2
    cases g1 <;> cases g2 <;> rfl

theorem seq_read (R : Rdr σ) (fuel : Nat) (h k : Nat) (M : Mem (bufSig σ)) (hg : good M) :
    (abs M).read R fuel h (bodyOf M h) k = (abs ((read R fuel h k).exec M).1, ((read R fuel h k).exec M).2) := by
  have e0 : (abs M).common.start = M (.c .start) := rfl
  have e1 : (bodyOf M h).closed = M (.b h .closed) := rfl
  have e2 : (bodyOf M h).eof = M (.b h .eof) := rfl
  have e3 : (bodyOf M h).offset = M (.b h .offset) := rfl
  simp only [BufSys.read, read, Prog.exec, e0, e1, e2, e3]
  by_cases h1 : M (.b h .closed) = true
  · rw [if_pos h1, if_pos h1]; rfl
  rw [if_neg h1, if_neg h1]
  simp only [Prog.exec]
  by_cases h2 : M (.b h .eof) = true
  · rw [if_pos h2, if_pos h2]; rfl
  rw [if_neg h2, if_neg h2]
  simp only [Prog.exec]
  by_cases h3 : ¬ (M (.b h .offset) : Int) ≥ M (.c .start)
  · simp only [if_pos h3]; rfl
  simp only [if_neg h3]
  obtain ⟨M', a1, a2, a3⟩ := exec_fill R fuel h ((M (.b h .offset) : Int) + k) (fun endBuffer =>
        if (M (.b h .offset) : Int) + k > endBuffer then
          .get (.c .err) fun (err : Option Err) =>
          .put (.b h .eof) true <|
          deliver h k (M (.c .start)) (M (.b h .offset)) endBuffer err
        else deliver h k (M (.c .start)) (M (.b h .offset)) ((M (.b h .offset) : Int) + k) none) M
  rw [a3]
  have b0 := start_fill R fuel (abs M).common ((M (.b h .offset) : Int) + k)
  have b1 := bodies_fill R fuel (abs M).common ((M (.b h .offset) : Int) + k)
  generalize BufSys.fill R fuel (abs M).common ((M (.b h .offset) : Int) + k) = r at *
  obtain ⟨c, o⟩ := r
  cases o with
  | some o => simp only [← a1]
  | none =>
    dsimp only at a1 b0 b1 ⊢
    have c0 : M (.c .start) = M' (.c .start) := (b0.symm.trans (congrArg (fun s => s.common.start) a1).symm)
    have hbo : bodyOf M' h = bodyOf M h := by simp only [bodyOf, a2]
    have hg' : good M' := by
      rw [good_iff, a1]; intro i hi; rw [b1] at hi; exact (good_iff M).1 hg i hi
    have hs' : (abs M').heap.set h (bodyOf M h) = (abs M').heap := by rw [← hbo]; exact set_bodyOf M' h
    have d1 : (abs M').common.start = M' (.c .start) := rfl
    have d2 : (abs M').common.bytes = M' (.c .bytes) := rfl
    have d3 : (abs M').common.err = M' (.c .err) := rfl
    rw [← a1, finishRead_eq _ _ _ _ hs', e3, d1, d2, d3, c0]
    by_cases h4 : (M (.b h .offset) : Int) + k > (M' (.c .start) : Int) + (M' (.c .bytes) : List Byte).length
    · rw [if_pos h4, if_pos h4]
      simp only [Prog.exec]
      have f1 : abs (M'.set (.b h .eof) true) = { abs M' with heap := (abs M').heap.set h { bodyOf M h with eof := true } } := by
        rw [abs_b, eof, hbo]
      have f2 : good (M'.set (.b h .eof) true) := by
        rw [good_iff, f1]; exact members_set _ _ _ ((good_iff M').1 hg')
      have f3 : (M'.set (.b h .eof) true) (.c .start) = M' (.c .start) := Mem.set_other _ _ (by simp)
      have := exec_deliver h k _ (M (.b h .offset)) ((M' (.c .start) : Int) + (M' (.c .bytes) : List Byte).length) (M' (.c .err))
        (M'.set (.b h .eof) true) f2 rfl
      rw [f1, f3, eof, hbo] at this
      exact this
    · rw [if_neg h4, if_neg h4]
      exact exec_deliver h k _ _ _ none M' hg' hbo

theorem abs_closeEnd (h : Nat) (e : Option Err) (M : Mem (bufSig σ)) :
    abs ((closeEnd h e).exec M).1 = { abs M with heap := (abs M).heap.set h { offset := 0, eof := false, closed := true } } := by
  simp only [closeEnd, quit, Prog.exec, abs_b, offset, eof, closed, List.set_set]

theorem seq_close (R : Rdr σ) (h : Nat) (M : Mem (bufSig σ)) (hg : good M) :
    (abs M).close R h (bodyOf M h) = (abs ((close R h).exec M).1, ((close R h).exec M).2) := by
  have e1 : (bodyOf M h).closed = M (.b h .closed) := rfl
  have e2 : (bodyOf M h).offset = M (.b h .offset) := rfl
  have e3 : (abs M).common.bodies = M (.c .bodies) := rfl
  have e4 : (abs M).common.start = M (.c .start) := rfl
  have e5 : (abs M).common.hasR = M (.c .hasR) := rfl
  have e6 : (abs M).common.rdr = M (.c .rdr) := rfl
  simp only [BufSys.close, close, Prog.exec, e1]
  by_cases h1 : M (.b h .closed) = true
  · rw [if_pos h1, if_pos h1]; rfl
  rw [if_neg h1, if_neg h1]
  simp only [BufSys.unref, Prog.exec, Mem.set_same, e2, e3, e4, e5, e6]
  generalize hbs : (M (.c .bodies) : List Nat).filter (· ≠ h) = bs
  have hN : abs (M.set (.c .bodies) bs) = { abs M with common := { (abs M).common with bodies := bs } } := abs_bodies M bs
  have f1 : (M.set (.c .bodies) bs) (.b h .offset) = M (.b h .offset) := Mem.set_other _ _ (by simp)
  have f2 : (M.set (.c .bodies) bs) (.c .start) = M (.c .start) := Mem.set_other _ _ (by simp)
  have f3 : (M.set (.c .bodies) bs) (.c .hasR) = M (.c .hasR) := Mem.set_other _ _ (by simp)
  have f4 : (M.set (.c .bodies) bs) (.c .rdr) = M (.c .rdr) := Mem.set_other _ _ (by simp)
  have hgN : good (M.set (.c .bodies) bs) := by
    rw [good_iff, hN]
    intro i hi
    exact (good_iff M).1 hg i (List.mem_filter.1 (hbs ▸ hi)).1
  by_cases h2 : bs.length > 0
  · simp only [if_pos h2, Prog.exec, f1, f2]
    by_cases h3 : M (.b h .offset) = M (.c .start)
    · simp only [if_pos h3]
      generalize hs : ({ abs M with common := { (abs M).common with
        hasR := M (.c .hasR), rdr := M (.c .rdr), start := M (.c .start), bodies := bs, refcnt := (abs M).common.refcnt - 1 } } : BufSys σ) = s
      obtain ⟨M', a1, a2, a3⟩ := exec_dropRef h (closeEnd h none) _ hgN s (by rw [hN, ← hs]; rfl)
      have hs' : (abs M).common.refcnt - 1 = s.common.refcnt := by rw [← hs]
      rw [a3, hs']
      by_cases h4 : s.common.refcnt ≤ 0
      · simp only [if_pos h4] at a1 ⊢
        generalize s.updateStart = u at *
        obtain ⟨u1, u2⟩ := u
        dsimp only at *
        subst a1
        cases u2 with
        | some p => rfl
        | none => simp only [abs_closeEnd]; rfl
      · simp only [if_neg h4] at a1 ⊢
        subst a1
        simp only [abs_closeEnd]; rfl
    · simp only [if_neg h3, abs_closeEnd, hN]; rfl
  · simp only [if_neg h2, Prog.exec, f3]
    have g1 : ((((((((M.set (.c .bodies) bs).set (.c .hasR) false).set (.c .err) none).set (.c .bodies) []).set (.c .bytes) []).set
        (.c .length) (0 : Int)).set (.c .start) (0 : Int)) (.c .rdr)) = M (.c .rdr) := by
      rw [← f4]; rfl
    cases hc : (M (.c .hasR) : Bool) && R.isCloser with
    | true =>
      rcases hx : (R.close (M (.c .rdr))).2 with e | p
      · simp only [hc, if_true, Prog.exec, g1, hx, abs_closeEnd, abs_rdr, abs_hasR, abs_err, abs_bodies, abs_bytes, abs_length, abs_start]
        rfl
      · simp only [hc, if_true, Prog.exec, g1, hx, done, quit, abs_rdr, abs_hasR, abs_err, abs_bodies, abs_bytes, abs_length, abs_start]
    | false =>
      simp only [hc, Bool.false_eq_true, if_false, abs_closeEnd, abs_hasR, abs_err, abs_bodies, abs_bytes, abs_length, abs_start]
      rfl

theorem abs_next (M : Mem (bufSig σ)) {i : Nat} (hi : M .next = i) :
    abs (M.set .next (i + 1)) = { abs M with heap := (abs M).heap ++ [bodyOf M i] } := by
  rw [abs, heapOf_next bodyOf locn M hi]
  rfl

theorem seq_copy (h : Nat) (M : Mem (bufSig σ)) :
    (abs M).copy (bodyOf M h) = (abs ((copy h).exec M).1, ((copy h).exec M).2) := by
  have e1 : (bodyOf M h).closed = M (.b h .closed) := rfl
  have e2 : (bodyOf M h).offset = M (.b h .offset) := rfl
  have e3 : (bodyOf M h).eof = M (.b h .eof) := rfl
  have e4 : (abs M).common.bodies = M (.c .bodies) := rfl
  have e5 : (abs M).common.start = M (.c .start) := rfl
  have e6 : (abs M).common.refcnt = M (.c .refcnt) := rfl
  simp only [BufSys.copy, copy, Prog.exec, e1, e2, e3]
  by_cases h1 : M (.b h .closed) = true
  · rw [if_pos h1, if_pos h1]; rfl
  rw [if_neg h1, if_neg h1]
  simp only [Prog.exec]
  have e7 : (abs M).common.hasR = M (.c .hasR) := rfl
  rw [e7]
  by_cases h0 : (!(M (.c .hasR) : Bool)) = true
  · rw [if_pos h0, if_pos h0]; rfl
  rw [if_neg h0, if_neg h0]
  simp only [Prog.exec]
  obtain ⟨i, hi⟩ : ∃ i : Nat, M .next = i := ⟨_, rfl⟩
  have hl : (abs M).heap.length = i := (heapOf_len bodyOf M).trans hi
  rw [hi]
  generalize hN : (((M.set (.b i .offset) (M (.b h .offset))).set (.b i .eof) (M (.b h .eof))).set (.b i .closed) (M (.b h .closed))) = N
  have n1 : bodyOf N i = bodyOf M h := by rw [← hN, closed, eof, offset]; rfl
  have n2 : abs N = abs M := by
    rw [← hN, abs_b, abs_b, abs_b]
    simp only [List.set_eq_of_length_le (Nat.le_of_eq hl)]
  have n3 : N .next = i := by rw [← hN, Mem.next_b, Mem.next_b, Mem.next_b, hi]
  have n4 : N (.c .bodies) = M (.c .bodies) := (congrArg (fun s => s.common.bodies) n2)
  have n5 : N (.c .start) = M (.c .start) := (congrArg (fun s => s.common.start) n2)
  have n6 : N (.c .refcnt) = M (.c .refcnt) := (congrArg (fun s => s.common.refcnt) n2)
  have n7 : N (.b i .offset) = M (.b h .offset) := congrArg BufBody.offset n1
  simp only [BufSys.ref, hl, e4, e5, e6]
  rw [n4]
  generalize (if i ∈ (M (.c .bodies) : List Nat) then (M (.c .bodies) : List Nat) else (M (.c .bodies) : List Nat) ++ [i]) = bs
  have m1 : (N.set (.c .bodies) bs) (.b i .offset) = M (.b h .offset) := by rw [Mem.set_other _ _ (by simp), n7]
  have m2 : (N.set (.c .bodies) bs) (.c .start) = M (.c .start) := by rw [Mem.set_other _ _ (by simp), n5]
  have m3 : (N.set (.c .bodies) bs) (.c .refcnt) = M (.c .refcnt) := by rw [Mem.set_other _ _ (by simp), n6]
  have m4 : (N.set (.c .bodies) bs) .next = i := by rw [Mem.next_c, n3]
  have m5 : bodyOf (N.set (.c .bodies) bs) i = bodyOf M h := by rw [bodyOf_c, n1]
  have m6 : abs (N.set (.c .bodies) bs) = { abs M with common := { (abs M).common with bodies := bs } } := by rw [abs_bodies, n2]
  rw [m1, m2]
  generalize N.set (.c .bodies) bs = K at *
  by_cases h2 : M (.b h .offset) = M (.c .start)
  · simp only [if_pos h2, Prog.exec, done, quit, m3]
    rw [abs_next (i := i) _ ((Mem.next_c ..).trans m4), bodyOf_c, abs_refcnt, m5, m6]
    rw [if_pos (show (bodyOf M h).offset = M (.c .start) from h2)]
    rfl
  · simp only [if_neg h2, Prog.exec, done, quit]
    rw [abs_next _ m4, m5, m6]
    rw [if_neg (show ¬ (bodyOf M h).offset = M (.c .start) from h2)]
    rfl

theorem seq (R : Rdr σ) (fuel : Nat) (op : Op) (M : Mem (bufSig σ)) (hh : op.h < M .next) (hg : good M) :
    BufSys.step R fuel (abs M) op = (abs ((prog R fuel op).exec M).1, ((prog R fuel op).exec M).2) := by
  rw [BufSys.step, show (abs M).heap[op.h]? = some (bodyOf M op.h) from heapOf_get bodyOf M hh]
  cases op with
  | read h k => exact seq_read R fuel h k M hg
  | copy h => exact seq_copy h M
  | close h => exact seq_close R h M hg
  | remaining h =>
    have e1 : (bodyOf M h).closed = M (.b h .closed) := rfl
    have e2 : (bodyOf M h).eof = M (.b h .eof) := rfl
    have e3 : (bodyOf M h).offset = M (.b h .offset) := rfl
    have e4 : (abs M).common.length = M (.c .length) := rfl
    simp only [Op.h, BufSys.bytesRemaining, prog, remaining, Prog.exec, e1, e2, e3, e4]
    by_cases h1 : M (.b h .closed) = true
    · simp only [if_pos h1]; rfl
    by_cases h2 : M (.b h .eof) = true
    · simp only [if_neg h1, if_pos h2, Prog.exec]; rfl
    by_cases h3 : (M (.c .length) : Int) < 0
    · simp only [if_neg h1, if_neg h2, if_pos h3, Prog.exec]; rfl
    simp only [if_neg h1, if_neg h2, if_neg h3, Prog.exec]; rfl
  | unwrap h =>
    have e1 : (bodyOf M h).closed = M (.b h .closed) := rfl
    simp only [Op.h, BufSys.unwrap, prog, unwrap, Prog.exec, e1]
    by_cases h1 : M (.b h .closed) = true
    · simp only [if_pos h1]; rfl
    · simp only [if_neg h1]; rfl
  | readAt h k off => rfl
  | seek h off wh => rfl
  | writeTo h w => rfl

theorem members_updateStart (s : BufSys σ) (hm : Members s) : Members s.updateStart.1 := by
  rw [BufSys.updateStart]
  repeat' (first | exact hm | split | dsimp only)

theorem members_advance (s : BufSys σ) (a b : Int) (hm : Members s) : Members (s.advance a b).1 := by
  have : ∀ c : BufCommon σ, c.bodies = s.common.bodies → Members { s with common := c } := by
    intro c hc i hi; exact hm i (hc ▸ hi)
  rw [BufSys.advance]
  repeat' (first | exact hm | exact members_updateStart _ (this _ rfl) | exact this _ rfl | split | dsimp only)

theorem members_step (R : Rdr σ) (fuel : Nat) (op : Op) (s : BufSys σ) (hm : Members s) : Members (BufSys.step R fuel s op).1 := by
  have hmc : ∀ c : BufCommon σ, c.bodies = s.common.bodies → Members { s with common := c } := by
    intro c hc i hi; exact hm i (hc ▸ hi)
  rw [BufSys.step]
  split
  · exact hm
  rename_i b hb
  cases op with
  | readAt h k off => exact hm
  | seek h off wh => exact hm
  | writeTo h w => exact hm
  | remaining h => exact hm
  | unwrap h => exact hm
  | read h k =>
    dsimp only [BufSys.read]
    split
    · exact hm
    split
    · exact hm
    split
    · exact hm
    have h1 := hmc _ (bodies_fill R fuel s.common (b.offset + k))
    split
    · exact h1
    generalize ({ s with common := (BufSys.fill R fuel s.common (b.offset + k)).1 } : BufSys σ) = t at *
    dsimp only [BufSys.finishRead]
    split
    · have h2 := members_advance _ b.offset (if decide (b.offset + k > t.common.start + t.common.bytes.length) = true then
          t.common.start + t.common.bytes.length else b.offset + k) (members_set { t with heap := t.heap.set h (if decide (b.offset + k > t.common.start + t.common.bytes.length) = true then { b with eof := true } else b) } h
            { (if decide (b.offset + k > t.common.start + t.common.bytes.length) = true then { b with eof := true } else b) with
              offset := if decide (b.offset + k > t.common.start + t.common.bytes.length) = true then
                t.common.start + t.common.bytes.length else b.offset + k } (members_set _ _ _ h1))
      split <;> exact h2
    · exact members_set _ _ _ h1
  | copy h =>
    dsimp only [BufSys.copy, BufSys.ref]
    split
    · exact hm
    split
    · exact hm
    have key : ∀ i ∈ (if s.heap.length ∈ s.common.bodies then s.common.bodies else s.common.bodies ++ [s.heap.length]), i < s.heap.length + 1 := by
      intro i hi
      split at hi
      · have := hm i hi; omega
      · rcases List.mem_append.1 hi with h | h
        · have := hm i h; omega
        · simp at h; omega
    intro i hi
    simp only [List.length_append, List.length_cons, List.length_nil]
    apply key
    dsimp only at hi
    split at hi <;> exact hi
  | close h =>
    have hf : ∀ c : BufCommon σ, c.bodies = s.common.bodies.filter (· ≠ h) → Members { s with common := c } := by
      intro c hc i hi
      rw [hc] at hi
      exact hm i (List.mem_filter.1 hi).1
    have hu : Members (BufSys.unref R s h b).1 := by
      rw [BufSys.unref]
      have hn : ∀ c : BufCommon σ, c.bodies = [] → Members { s with common := c } := by
        intro c hc i hi; rw [hc] at hi; simp at hi
      repeat' (first | exact hf _ rfl | exact hn _ rfl | exact members_updateStart _ (hf _ rfl) | split | dsimp only)
    dsimp only [BufSys.close]
    split
    · exact hm
    split
    · exact hu
    · exact members_set _ _ _ hu

def fam (R : Rdr σ) (fuel : Nat) : Fam (bufSig σ) (BufSys σ) where
  D := disc σ
  prog := prog R fuel
  step := BufSys.step R fuel
  abs := abs
  allowed _ := True
  safe op _ M hh := safe R fuel op M hh
  good := good
  good_step op _ M hh hg := by
    rw [good_iff, show abs ((prog R fuel op).exec M).1 = (BufSys.step R fuel (abs M) op).1 by rw [seq R fuel op M hh hg]]
    exact members_step R fuel op _ ((good_iff M).1 hg)
  seq op _ M hh hg := seq R fuel op M hh hg

theorem abs_init (rdr : σ) (n : Int) : abs (init rdr n) = BufSys.init rdr n := rfl

theorem good_init (rdr : σ) (n : Int) : good (init rdr n) := by
  rw [good_iff, abs_init]
  intro i hi
  simp [BufSys.init, BufSys.ref] at hi ⊢
  exact hi

end ConcBuf
end Verif
