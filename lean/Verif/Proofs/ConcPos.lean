import Verif.Proofs.ConcSim
import Verif.Model.ConcPos

/-!
# ReaderAt- and Seeker-backed bodies keep to the discipline
-/

set_option autoImplicit false

namespace Verif
namespace ConcPos
variable {σ : Type}

def bodyOf (M : Mem (posSig σ)) (h : Nat) : PosBody := { err := M (.b h .err), offset := M (.b h .offset), closed := M (.b h .closed) }

/-- The family as the sequential model sees it. -/
def abs (M : Mem (posSig σ)) : PosSys σ where
  common := { hasR := M (.c .hasR), rdr := M (.c .rdr), length := M (.c .length), refcnt := M (.c .refcnt) }
  heap := (List.range (M .next)).map (bodyOf M)

theorem bodyOf_c (M : Mem (posSig σ)) (f : PosC) (v) (h : Nat) : bodyOf (M.set (.c f) v) h = bodyOf M h := by
  simp [bodyOf, Mem.set]

theorem bodyOf_other (M : Mem (posSig σ)) (h i : Nat) (f : PosB) (v) (e : i ≠ h) : bodyOf (M.set (.b h f) v) i = bodyOf M i := by
  simp [bodyOf, Mem.set, e]

theorem abs_b (M : Mem (posSig σ)) (h : Nat) (f : PosB) (v) :
    abs (M.set (.b h f) v) = { abs M with heap := (abs M).heap.set h (bodyOf (M.set (.b h f) v) h) } := by
  have h1 : (M.set (.b h f) v) .next = M .next := Mem.set_other _ _ (by simp)
  simp only [abs, PosSys.mk.injEq, PosCommon.mk.injEq]
  refine ⟨⟨Mem.set_other _ _ (by simp), Mem.set_other _ _ (by simp), Mem.set_other _ _ (by simp), Mem.set_other _ _ (by simp)⟩, ?_⟩
  rw [h1]
  apply List.ext_getElem?
  intro i
  by_cases e : i = h
  · subst e
    by_cases hi : i < M .next <;> simp [List.getElem?_set, hi]
  · simp [List.getElem?_set, Ne.symm e]
    by_cases hi : i < M .next
    · simp [hi, bodyOf_other M h i f v e]
    · simp [hi]

theorem map_c (M : Mem (posSig σ)) (f : PosC) (v) :
    (List.range ((M.set (.c f) v) .next)).map (bodyOf (M.set (.c f) v)) = (abs M).heap := by
  have h1 : (M.set (.c f) v) .next = M .next := Mem.set_other _ _ (by simp)
  rw [h1, abs]
  exact List.map_congr_left fun i _ => bodyOf_c M f v i

theorem abs_hasR (M : Mem (posSig σ)) (v : Bool) :
    abs (M.set (.c .hasR) v) = { abs M with common := { (abs M).common with hasR := v } } := by
  rw [abs, map_c]; rfl

theorem abs_rdr (M : Mem (posSig σ)) (v : σ) :
    abs (M.set (.c .rdr) v) = { abs M with common := { (abs M).common with rdr := v } } := by
  rw [abs, map_c]; rfl

theorem abs_length (M : Mem (posSig σ)) (v : Int) :
    abs (M.set (.c .length) v) = { abs M with common := { (abs M).common with length := v } } := by
  rw [abs, map_c]; rfl

theorem abs_refcnt (M : Mem (posSig σ)) (v : Int) :
    abs (M.set (.c .refcnt) v) = { abs M with common := { (abs M).common with refcnt := v } } := by
  rw [abs, map_c]; rfl

theorem abs_next (M : Mem (posSig σ)) :
    abs (M.set .next (M .next + 1)) = { abs M with heap := (abs M).heap ++ [bodyOf M (M .next)] } := by
  have h1 : (M.set .next (M .next + 1)) .next = M .next + 1 := Mem.set_same _ .next _
  have h2 : bodyOf (M.set .next (M .next + 1)) = bodyOf M := by
    funext i
    simp [bodyOf, Mem.set]
  simp only [abs, h1, h2, List.range_succ, List.map_append, List.map_cons, List.map_nil]
  rfl

theorem get_heap (M : Mem (posSig σ)) {h : Nat} (hh : h < M .next) : (abs M).heap[h]? = some (bodyOf M h) := by
  simp [abs, hh]

theorem len_heap (M : Mem (posSig σ)) : (abs M).heap.length = M .next := by simp [abs]

/-- `readerAt`: running alone. -/
theorem exec_readerAtCall (R : Rdr σ) (x : Nat) (off : Int) (k : Res (List Byte × Option Err) → P σ) (M : Mem (posSig σ)) :
    ∃ M', (readerAtCall R x off k).exec M = (k (ReaderAtBody.commonReadAt R (abs M).common x off).2).exec M' ∧
      abs M' = { abs M with common := (ReaderAtBody.commonReadAt R (abs M).common x off).1 } ∧ ∀ h f, M' (.b h f) = M (.b h f) := by
  have hr : (abs M).common.rdr = M (.c .rdr) := rfl
  by_cases hh : M (.c .hasR) = true
  · have hh' : (abs M).common.hasR = true := hh
    refine ⟨M.set (.c .rdr) (R.readAt (M (.c .rdr)) x off).1, ?_, ?_, fun h f => Mem.set_other _ _ (by simp)⟩
    · simp only [readerAtCall, Prog.exec, hh, ReaderAtBody.commonReadAt, hh', Bool.not_true, Bool.false_eq_true, if_false, hr]
      cases (R.readAt (M (.c .rdr)) x off).2 with
      | panics p => rfl
      | negative => rfl
      | got d e => dsimp only; split <;> rfl
    · simp only [abs_rdr, ReaderAtBody.commonReadAt, hh', Bool.not_true, Bool.false_eq_true, if_false, hr]
      cases (R.readAt (M (.c .rdr)) x off).2 with
      | panics p => rfl
      | negative => rfl
      | got d e => dsimp only; split <;> rfl
  · have hh' : (abs M).common.hasR = false := Bool.eq_false_iff.2 hh
    replace hh : M (.c .hasR) = false := hh'
    refine ⟨M, ?_, ?_, fun _ _ => rfl⟩
    · simp [readerAtCall, Prog.exec, hh, ReaderAtBody.commonReadAt, hh']
    · simp [ReaderAtBody.commonReadAt, hh']

/-- `seeker`: running alone. -/
theorem exec_seekerCall (R : Rdr σ) (x : Nat) (off : Int) (k : Res (List Byte × Option Err) → P σ) (M : Mem (posSig σ)) :
    ∃ M', (seekerCall R x off k).exec M = (k (SeekerBody.commonReadAt R (abs M).common x off).2).exec M' ∧
      abs M' = { abs M with common := (SeekerBody.commonReadAt R (abs M).common x off).1 } ∧ ∀ h f, M' (.b h f) = M (.b h f) := by
  have hr : (abs M).common.rdr = M (.c .rdr) := rfl
  by_cases hh : M (.c .hasR) = true
  · have hh' : (abs M).common.hasR = true := hh
    rcases hq : (R.seek (M (.c .rdr)) off 0).2 with ⟨n, _ | e⟩ | p
    rotate_left
    · refine ⟨M.set (.c .rdr) (R.seek (M (.c .rdr)) off 0).1, ?_, ?_, fun h f => Mem.set_other _ _ (by simp)⟩
      · simp only [seekerCall, Prog.exec, hh, SeekerBody.commonReadAt, hh', Bool.not_true, Bool.false_eq_true, if_false, hr, hq]
      · simp only [abs_rdr, SeekerBody.commonReadAt, hh', Bool.not_true, Bool.false_eq_true, if_false, hr, hq]
    · refine ⟨M.set (.c .rdr) (R.seek (M (.c .rdr)) off 0).1, ?_, ?_, fun h f => Mem.set_other _ _ (by simp)⟩
      · simp only [seekerCall, Prog.exec, hh, SeekerBody.commonReadAt, hh', Bool.not_true, Bool.false_eq_true, if_false, hr, hq]
      · simp only [abs_rdr, SeekerBody.commonReadAt, hh', Bool.not_true, Bool.false_eq_true, if_false, hr, hq]
    · refine ⟨(M.set (.c .rdr) (R.seek (M (.c .rdr)) off 0).1).set (.c .rdr) (R.read (R.seek (M (.c .rdr)) off 0).1 x).1, ?_, ?_,
        fun h f => by rw [Mem.set_other _ _ (by simp), Mem.set_other _ _ (by simp)]⟩
      · simp only [seekerCall, Prog.exec, hh, SeekerBody.commonReadAt, hh', Bool.not_true, Bool.false_eq_true, if_false, hr, hq, Mem.set_same]
        cases (R.read (R.seek (M (.c .rdr)) off 0).1 x).2 with
        | panics p => rfl
        | negative => rfl
        | got d e => dsimp only; split <;> rfl
      · simp only [abs_rdr, SeekerBody.commonReadAt, hh', Bool.not_true, Bool.false_eq_true, if_false, hr, hq]
        cases (R.read (R.seek (M (.c .rdr)) off 0).1 x).2 with
        | panics p => rfl
        | negative => rfl
        | got d e => dsimp only; split <;> rfl
  · have hh' : (abs M).common.hasR = false := Bool.eq_false_iff.2 hh
    replace hh : M (.c .hasR) = false := hh'
    refine ⟨M, ?_, ?_, fun _ _ => rfl⟩
    · simp [seekerCall, Prog.exec, hh, SeekerBody.commonReadAt, hh']
    · simp [SeekerBody.commonReadAt, hh']

/-- What `Read` makes of the answer of `common.readAt`, in the sequential model. -/
def readFin (h : Nat) (b : PosBody) (offset : Int) (eof : Bool) (c : PosCommon σ) (s : PosSys σ) : Res (List Byte × Option Err) → PosSys σ × Out
  | .panic p => ({ s with common := c }, .panic p)
  | .hang => ({ s with common := c }, .hang)
  | .ret (d, err) =>
      let err := if eof && err.isNone then some .eof else err
      let offset := offset + d.length
      let b := { b with offset := offset }
      match err with
      | none => ({ common := c, heap := s.heap.set h b }, .read d none)
      | some e =>
        let b := { b with err := some e }
        let c := if offset < c.length then { c with length := offset } else c
        ({ common := c, heap := s.heap.set h b }, .read d (some e))

theorem exec_readEnd (h : Nat) (offset : Int) (eof : Bool) (r : Res (List Byte × Option Err)) {M M' : Mem (posSig σ)} {c : PosCommon σ}
    (hM : abs M' = { abs M with common := c }) (hb : ∀ h f, M' (.b h f) = M (.b h f)) :
    readFin h (bodyOf M h) offset eof c (abs M) r = (abs ((readEnd h offset eof r).exec M').1, ((readEnd h offset eof r).exec M').2) := by
  have hbo : bodyOf M' h = bodyOf M h := by simp [bodyOf, hb]
  cases r with
  | panic p => simp [readFin, readEnd, done, quit, Prog.exec, hM]
  | hang => simp [readFin, readEnd, done, quit, Prog.exec, hM]
  | ret v =>
    obtain ⟨d, e⟩ := v
    simp only [readFin, readEnd]
    have hbo1 : bodyOf (M'.set (.b h .offset) (offset + d.length)) h = { bodyOf M h with offset := offset + d.length } := by
      rw [← hbo]; simp [bodyOf, Mem.set]
    generalize (if (eof && e.isNone) = true then some Err.eof else e) = e'
    cases e' with
    | none => simp [done, quit, Prog.exec, abs_b, hM, hbo1]
    | some e =>
      have hbo2 : bodyOf ((M'.set (.b h .offset) (offset + d.length)).set (.b h .err) (some e)) h =
          { bodyOf M h with offset := offset + d.length, err := some e } := by
        rw [← hbo]; simp [bodyOf, Mem.set]
      have hl : M' (.c .length) = c.length := by
        have : (abs M').common.length = c.length := by rw [hM]
        exact this
      have hl' : ((M'.set (.b h .offset) (offset + d.length)).set (.b h .err) (some e)) (.c .length) = c.length := by
        rw [Mem.set_other _ _ (by simp), Mem.set_other _ _ (by simp), hl]
      simp only [Prog.exec, hl']
      split
      · simp [done, quit, Prog.exec, abs_b, abs_length, hM, hbo2]
      · simp [done, quit, Prog.exec, abs_b, hM, hbo2]


/-! ## Keeping to the discipline -/

/-- No field of a body is read under the family's lock alone; with `r`, `length` is also read without it. -/
def disc (σ : Type) (r : Bool) : Disc (posSig σ) where
  shared _ := False
  memb _ _ := False
  racyC f := r = true ∧ f = .length
  excl := fun ⟨_, h⟩ => h.elim

section
variable {r fin : Bool} {H : Held} {h : Nat} {M : Mem (posSig σ)}

theorem safe_quit (o : Out) : Safe (disc σ r) ⟨some h, false⟩ fin M (quit h o) := by simp [quit, Safe, Held.none]

theorem safe_done (o : Out) : Safe (disc σ r) ⟨some h, true⟩ fin M (done h o) := by simp [done, quit, Safe, Held.none]

theorem safe_ite {c : Prop} [Decidable c] {p q : P σ} (hp : Safe (disc σ r) H fin M p) (hq : Safe (disc σ r) H fin M q) :
    Safe (disc σ r) H fin M (if c then p else q) := by
  split <;> assumption

theorem safe_get_c {f : PosC} {k} (hc : H.c = true) (hk : Safe (disc σ r) H fin M (k (M (.c f)))) :
    Safe (disc σ r) H fin M (.get (.c f) k) := .inl ⟨hc, hk⟩

theorem safe_get_next {k} (hc : H.c = true) (hk : Safe (disc σ r) H fin M (k (M .next))) :
    Safe (disc σ r) H fin M (.get .next k) := .inl ⟨hc, hk⟩

theorem safe_get_b {f : PosB} {k} (hb : H.b = some h) (hk : Safe (disc σ r) H fin M (k (M (.b h f)))) :
    Safe (disc σ r) H fin M (.get (.b h f) k) := .inl ⟨.inl hb, hk⟩

theorem safe_put_c {f : PosC} {v k} (hf : f ≠ .length) (hc : H.c = true) (hk : Safe (disc σ r) H fin (M.set (.c f) v) k) :
    Safe (disc σ r) H fin M (.put (.c f) v k) :=
  ⟨⟨hc, fun _ => .inl Iff.rfl⟩, .inl ⟨fun h => hf h.2, hk⟩⟩

theorem safe_put_length {v k} (hc : H.c = true) (hk : ∀ fin, Safe (disc σ r) H fin (M.set (.c .length) v) k) :
    Safe (disc σ r) H false M (.put (.c .length) v k) := by
  refine ⟨⟨hc, fun _ => .inl Iff.rfl⟩, ?_⟩
  cases r with
  | true => exact .inr ⟨rfl, ⟨rfl, rfl⟩, hk true⟩
  | false => exact .inl ⟨fun h => by simp [IsRacy, disc] at h, hk false⟩

theorem safe_put_b {f : PosB} {v k} (hb : H.b = some h) (hk : Safe (disc σ r) H fin (M.set (.b h f) v) k) :
    Safe (disc σ r) H fin M (.put (.b h f) v k) :=
  ⟨.inl ⟨hb, .inl id⟩, .inl ⟨id, hk⟩⟩

theorem safe_put_new {i : Nat} {f : PosB} {v k} (hc : H.c = true) (hi : M .next ≤ i) (hk : Safe (disc σ r) H fin (M.set (.b i f) v) k) :
    Safe (disc σ r) H fin M (.put (.b i f) v k) :=
  ⟨.inr ⟨hc, hi⟩, .inl ⟨id, hk⟩⟩

theorem safe_lock_body {k} (hh : h < M .next) (hk : ∀ M : Mem (posSig σ), Safe (disc σ r) ⟨some h, false⟩ false M k) :
    Safe (disc σ r) .none false M (.lock (.body h) k) :=
  ⟨rfl, rfl, hh, fun M' _ => hk M'⟩

theorem safe_lock_common {k} (hk : ∀ M : Mem (posSig σ), Safe (disc σ r) ⟨some h, true⟩ false M k) :
    Safe (disc σ r) ⟨some h, false⟩ false M (.lock .common k) :=
  ⟨rfl, rfl, fun M' _ => hk M'⟩

theorem safe_unlock_common {k} (hk : ∀ M : Mem (posSig σ), Safe (disc σ r) ⟨some h, false⟩ true M k) :
    Safe (disc σ r) ⟨some h, true⟩ fin M (.unlock .common k) :=
  ⟨rfl, fun M' _ => hk M'⟩

theorem safe_readerAtCall (R : Rdr σ) (x : Nat) (off : Int) (k : Res (List Byte × Option Err) → P σ)
    (hk : ∀ M q, Safe (disc σ r) ⟨some h, true⟩ false M (k q)) : Safe (disc σ r) ⟨some h, true⟩ false M (readerAtCall R x off k) := by
  refine safe_get_c rfl ?_
  split
  · exact hk _ _
  · refine safe_get_c rfl (safe_put_c (by simp) rfl ?_)
    split
    · exact hk _ _
    · exact hk _ _
    · split <;> exact hk _ _

theorem safe_seekerCall (R : Rdr σ) (x : Nat) (off : Int) (k : Res (List Byte × Option Err) → P σ)
    (hk : ∀ M q, Safe (disc σ r) ⟨some h, true⟩ false M (k q)) : Safe (disc σ r) ⟨some h, true⟩ false M (seekerCall R x off k) := by
  refine safe_get_c rfl ?_
  split
  · exact hk _ _
  · refine safe_get_c rfl (safe_put_c (by simp) rfl ?_)
    split
    · exact hk _ _
    · exact hk _ _
    · refine safe_get_c rfl (safe_put_c (by simp) rfl ?_)
      split
      · exact hk _ _
      · exact hk _ _
      · split <;> exact hk _ _

theorem safe_readEnd (offset : Int) (eof : Bool) (q : Res (List Byte × Option Err)) :
    Safe (disc σ r) ⟨some h, true⟩ false M (readEnd h offset eof q) := by
  cases q with
  | panic p => exact safe_done _
  | hang => exact trivial
  | ret v =>
    obtain ⟨d, e⟩ := v
    simp only [readEnd]
    refine safe_put_b rfl ?_
    split
    · exact safe_done _
    · refine safe_put_b rfl (safe_get_c rfl ?_)
      split
      · exact safe_put_length rfl fun _ => safe_done _
      · exact safe_done _

theorem safe_readAtEnd (eof : Bool) (q : Res (List Byte × Option Err)) :
    Safe (disc σ r) ⟨some h, true⟩ false M (readAtEnd h eof q) := by
  cases q with
  | panic p => exact safe_done _
  | hang => exact trivial
  | ret v => exact safe_done _

abbrev Call (σ : Type) := Nat → Int → (Res (List Byte × Option Err) → P σ) → P σ

theorem safe_read (call : Call σ) (k : Nat) (hh : h < M .next)
    (hcall : ∀ M x off k, (∀ M q, Safe (disc σ r) ⟨some h, true⟩ false M (k q)) → Safe (disc σ r) ⟨some h, true⟩ false M (call x off k)) :
    Safe (disc σ r) .none false M (read call h k) := by
  refine safe_lock_body hh fun M => safe_get_b rfl ?_
  split
  · exact safe_quit _
  · refine safe_get_b rfl ?_
    split
    · exact safe_quit _
    · refine safe_lock_common fun M => safe_get_b rfl (safe_get_c rfl ?_)
      dsimp only
      generalize (if M (.b h .offset) > M (.c .length) then M (.c .length) else M (.b h .offset) : Int) = o
      generalize ((M (.c .length) : Int) - o) = a
      by_cases ha : a > 0
      · rw [if_pos ha]
        generalize goSlice (List.replicate k (0 : Byte)) 0 (if decide ((k : Int) > a) = true then a else (k : Int)) = g
        cases g with
        | none => exact safe_readEnd _ _ _
        | some p => exact hcall _ _ _ _ fun _ _ => safe_readEnd _ _ _
      · rw [if_neg ha]
        exact safe_readEnd _ _ _

theorem safe_readAt (call : Call σ) (k : Nat) (off : Int) (hh : h < M .next)
    (hcall : ∀ M x off k, (∀ M q, Safe (disc σ r) ⟨some h, true⟩ false M (k q)) → Safe (disc σ r) ⟨some h, true⟩ false M (call x off k)) :
    Safe (disc σ r) .none false M (readAt call h k off) := by
  refine safe_lock_body hh fun M => safe_get_b rfl ?_
  split
  · exact safe_quit _
  · split
    · exact safe_quit _
    · refine safe_lock_common fun M => safe_get_c rfl ?_
      dsimp only
      generalize (if off > M (.c .length) then M (.c .length) else off : Int) = o
      generalize ((M (.c .length) : Int) - o) = a
      by_cases ha : a > 0
      · rw [if_pos ha]
        generalize goSlice (List.replicate k (0 : Byte)) 0 (if decide ((k : Int) > a) = true then a else (k : Int)) = g
        cases g with
        | none => exact safe_readAtEnd _ _
        | some p => exact hcall _ _ _ _ fun _ _ => safe_readAtEnd _ _
      · rw [if_neg ha]
        exact safe_readAtEnd _ _

theorem safe_seek (off wh : Int) (hh : h < M .next) : Safe (disc σ r) .none false M (seek h off wh) := by
  refine safe_lock_body hh fun M => safe_get_b rfl ?_
  split
  · exact safe_quit _
  · refine safe_lock_common fun M => safe_get_c rfl (safe_unlock_common fun M => ?_)
    split
    · exact safe_quit _
    · split
      · exact safe_quit _
      · refine safe_get_b rfl ?_
        dsimp only
        refine safe_ite (safe_quit _) (safe_put_b rfl (safe_put_b rfl (safe_quit _)))

theorem safe_close (R : Rdr σ) (hh : h < M .next) : Safe (disc σ r) .none false M (close R h) := by
  refine safe_lock_body hh fun M => safe_get_b rfl ?_
  split
  · exact safe_quit _
  · refine safe_put_b rfl (safe_put_b rfl (safe_put_b rfl (safe_lock_common fun M => safe_get_c rfl
      (safe_put_c (by simp) rfl (safe_get_c rfl ?_)))))
    split
    · exact safe_done _
    · refine safe_get_c rfl ?_
      dsimp only
      split
      · refine safe_get_c rfl (safe_put_c (by simp) rfl ?_)
        split
        · exact safe_put_c (by simp) rfl (safe_put_length rfl fun _ => safe_put_c (by simp) rfl (safe_done _))
        · exact safe_done _
      · exact safe_put_c (by simp) rfl (safe_put_length rfl fun _ => safe_put_c (by simp) rfl (safe_done _))

theorem safe_copy (hh : h < M .next) : Safe (disc σ r) .none false M (copy h) := by
  refine safe_lock_body hh fun M => safe_get_b rfl ?_
  split
  · exact safe_quit _
  · refine safe_get_b rfl (safe_get_b rfl (safe_get_b rfl (safe_lock_common fun M => safe_get_c rfl
      (safe_put_c (by simp) rfl (safe_get_next rfl ?_)))))
    have e1 : (M.set (.c .refcnt) (M (.c .refcnt) + 1 : Int)) .next = M .next := Mem.set_other _ _ (by simp)
    refine safe_put_new rfl (Nat.le_refl _) (safe_put_new rfl ?_ (safe_put_new rfl ?_ ⟨⟨rfl, ?_⟩, .inr ⟨rfl, trivial, safe_done _⟩⟩))
    · rw [Mem.set_other _ _ (by simp)]; exact Nat.le_refl _
    · rw [Mem.set_other _ _ (by simp), Mem.set_other _ _ (by simp)]; exact Nat.le_refl _
    · rw [Mem.set_other _ _ (by simp), Mem.set_other _ _ (by simp), Mem.set_other _ _ (by simp)]; exact Nat.le_succ _

theorem safe_unwrap (hh : h < M .next) : Safe (disc σ r) .none false M (unwrap h) := by
  refine safe_lock_body hh fun M => safe_get_b rfl ?_
  split
  · exact safe_quit _
  · exact safe_lock_common fun M => safe_get_c rfl (safe_done _)

theorem safe_readerAtRemaining (hh : h < M .next) : Safe (disc σ r) .none false M (readerAtRemaining h) := by
  refine safe_lock_body hh fun M => safe_get_b rfl ?_
  split
  · exact safe_quit _
  · refine safe_lock_common fun M => safe_get_c rfl (safe_unlock_common fun M => safe_get_b rfl ?_)
    exact safe_ite (safe_quit _) (safe_quit _)

theorem safe_seekerRemaining (hh : h < M .next) : Safe (disc σ true) .none false M (seekerRemaining h) := by
  refine safe_lock_body hh fun M => safe_get_b rfl ?_
  split
  · exact safe_quit _
  · exact .inr ⟨rfl, ⟨.length, rfl, rfl, rfl⟩, fun v => safe_get_b rfl (safe_quit _)⟩

end

theorem safe_readerAt (R : Rdr σ) (op : Op) (M : Mem (posSig σ)) (hh : op.h < M .next) :
    Safe (disc σ false) .none false M (readerAtProg R op) := by
  cases op with
  | read h k => exact safe_read _ k hh fun _ _ _ _ => safe_readerAtCall R _ _ _
  | readAt h k off => exact safe_readAt _ k off hh fun _ _ _ _ => safe_readerAtCall R _ _ _
  | seek h off wh => exact safe_seek off wh hh
  | remaining h => exact safe_readerAtRemaining hh
  | copy h => exact safe_copy hh
  | close h => exact safe_close R hh
  | unwrap h => exact safe_unwrap hh
  | writeTo h w => exact rfl

theorem safe_seeker (R : Rdr σ) (op : Op) (M : Mem (posSig σ)) (hh : op.h < M .next) :
    Safe (disc σ true) .none false M (seekerProg R op) := by
  cases op with
  | read h k => exact safe_read _ k hh fun _ _ _ _ => safe_seekerCall R _ _ _
  | readAt h k off => exact safe_readAt _ k off hh fun _ _ _ _ => safe_seekerCall R _ _ _
  | seek h off wh => exact safe_seek off wh hh
  | remaining h => exact safe_seekerRemaining hh
  | copy h => exact safe_copy hh
  | close h => exact safe_close R hh
  | unwrap h => exact safe_unwrap hh
  | writeTo h w => exact rfl

/-! ## Running alone, the methods do what the sequential model says -/

theorem bodyOf_err (M : Mem (posSig σ)) (h : Nat) (v : Option Err) : bodyOf (M.set (.b h .err) v) h = { bodyOf M h with err := v } := by
  simp [bodyOf, Mem.set]

theorem bodyOf_offset (M : Mem (posSig σ)) (h : Nat) (v : Int) : bodyOf (M.set (.b h .offset) v) h = { bodyOf M h with offset := v } := by
  simp [bodyOf, Mem.set]

theorem bodyOf_closed (M : Mem (posSig σ)) (h : Nat) (v : Bool) : bodyOf (M.set (.b h .closed) v) h = { bodyOf M h with closed := v } := by
  simp [bodyOf, Mem.set]

theorem seq_close_readerAt (R : Rdr σ) (h : Nat) (M : Mem (posSig σ)) :
    ReaderAtBody.close R (abs M) h (bodyOf M h) = (abs ((close R h).exec M).1, ((close R h).exec M).2) := by
  have e1 : (abs M).common.hasR = M (.c .hasR) := rfl
  have e2 : (abs M).common.rdr = M (.c .rdr) := rfl
  have e3 : (abs M).common.refcnt = M (.c .refcnt) := rfl
  have e4 : (bodyOf M h).closed = M (.b h .closed) := rfl
  by_cases hc : M (.b h .closed) = true
  · simp only [close, Prog.exec, ReaderAtBody.close, e4, hc, if_true, quit]
  · by_cases hn : (1 : Int) < M (.c .refcnt)
    · have hn' : (0 : Int) < M (.c .refcnt) - 1 := by have : (1 : Int) < M (.c .refcnt) := hn; omega
      simp [close, Prog.exec, ReaderAtBody.close, ReaderAtBody.unref, e4, hc, done, quit, Mem.set_same, Mem.set_other, hn, hn', e1, e2, e3, abs_b,
          abs_refcnt, abs_length, abs_hasR, abs_rdr, bodyOf_err, bodyOf_offset, bodyOf_closed]
    · have hn' : ¬ (0 : Int) < M (.c .refcnt) - 1 := by have : ¬ (1 : Int) < M (.c .refcnt) := hn; omega
      cases hq : R.isCloser with
      | false => simp [close, Prog.exec, ReaderAtBody.close, ReaderAtBody.unref, e4, hc, done, quit, Mem.set_same, Mem.set_other, hn, hn', e1, e2, e3, abs_b,
          abs_refcnt, abs_length, abs_hasR, abs_rdr, bodyOf_err, bodyOf_offset, bodyOf_closed, hq]
      | true =>
        by_cases hr : M (.c .hasR) = true
        · rcases hx : (R.close (M (.c .rdr))).2 with e | p
          all_goals
            simp [close, Prog.exec, ReaderAtBody.close, ReaderAtBody.unref, e4, hc, done, quit, Mem.set_same, Mem.set_other, hn, hn', e1, e2, e3, abs_b,
              abs_refcnt, abs_length, abs_hasR, abs_rdr, bodyOf_err, bodyOf_offset, bodyOf_closed, hq, hr, hx]
        · simp [close, Prog.exec, ReaderAtBody.close, ReaderAtBody.unref, e4, hc, done, quit, Mem.set_same, Mem.set_other, hn, hn', e1, e2, e3, abs_b,
          abs_refcnt, abs_length, abs_hasR, abs_rdr, bodyOf_err, bodyOf_offset, bodyOf_closed, hq, hr]

theorem seq_close_seeker (R : Rdr σ) (h : Nat) (M : Mem (posSig σ)) :
    SeekerBody.close R (abs M) h (bodyOf M h) = (abs ((close R h).exec M).1, ((close R h).exec M).2) := by
  rw [← seq_close_readerAt]; rfl

theorem seq_copy_readerAt (h : Nat) (M : Mem (posSig σ)) :
    ReaderAtBody.copy (abs M) (bodyOf M h) = (abs ((copy h).exec M).1, ((copy h).exec M).2) := by
  have e4 : (bodyOf M h).closed = M (.b h .closed) := rfl
  by_cases hc : M (.b h .closed) = true
  · simp only [copy, Prog.exec, ReaderAtBody.copy, e4, hc, if_true, quit]
  · have e3 : (abs M).common.refcnt = M (.c .refcnt) := rfl
    have e5 : (bodyOf M h).err = M (.b h .err) := rfl
    have e6 : (bodyOf M h).offset = M (.b h .offset) := rfl
    have hnb : ∀ (K : Mem (posSig σ)) (i : Nat) (f : PosB) (v), (K.set (.b i f) v) .next = K .next := fun K i f v => Mem.set_other _ _ (by simp)
    have hnc : ∀ (K : Mem (posSig σ)) (f : PosC) (v), (K.set (.c f) v) .next = K .next := fun K f v => Mem.set_other _ _ (by simp)
    simp only [copy, Prog.exec, ReaderAtBody.copy, ReaderAtBody.ref, e4, done, quit]
    rw [if_neg hc, if_neg hc]
    simp only [Prog.exec]
    obtain ⟨i, hi⟩ : ∃ i : Nat, i = (M.set (.c .refcnt) (M (.c .refcnt) + 1 : Int)) .next := ⟨_, rfl⟩
    rw [← hi]
    rw [hnc] at hi
    generalize hK : (((M.set (.c .refcnt) (M (.c .refcnt) + 1 : Int)).set (.b i .err) (M (.b h .err))).set (.b i .offset)
      (M (.b h .offset))).set (.b i .closed) (M (.b h .closed)) = K
    have hKn : K .next = i := by rw [← hK, hi]; simp only [hnb, hnc]
    have hKa : abs K = { abs M with common := { (abs M).common with refcnt := M (.c .refcnt) + 1 } } := by
      rw [← hK, abs_b, abs_b, abs_b, abs_refcnt]
      simp only [List.set_set]
      rw [List.set_eq_of_length_le (by rw [len_heap, hi]; exact Nat.le_refl _)]
    have hKb : bodyOf K i = ⟨M (.b h .err), M (.b h .offset), M (.b h .closed)⟩ := by
      rw [← hK, bodyOf_closed, bodyOf_offset, bodyOf_err]
    rw [len_heap, ← hi]
    have hx : abs (K.set .next (i + 1)) = { abs K with heap := (abs K).heap ++ [bodyOf K i] } := by
      have := abs_next K
      rw [hKn] at this
      exact this
    rw [hx, hKa, hKb]
    rfl

theorem seq_copy_seeker (h : Nat) (M : Mem (posSig σ)) :
    SeekerBody.copy (abs M) (bodyOf M h) = (abs ((copy h).exec M).1, ((copy h).exec M).2) := by
  rw [← seq_copy_readerAt]; rfl

theorem seq_seek_readerAt (h : Nat) (off wh : Int) (M : Mem (posSig σ)) :
    ReaderAtBody.seek (abs M) h (bodyOf M h) off wh = (abs ((seek h off wh).exec M).1, ((seek h off wh).exec M).2) := by
  have e4 : (bodyOf M h).closed = M (.b h .closed) := rfl
  have e1 : (abs M).common.length = M (.c .length) := rfl
  have e2 : (bodyOf M h).offset = M (.b h .offset) := rfl
  by_cases hc : M (.b h .closed) = true
  · simp only [seek, Prog.exec, ReaderAtBody.seek, e4, hc, if_true, quit]
  · simp only [seek, Prog.exec, ReaderAtBody.seek, ReaderAtBody.commonRemaining, e4, hc, e1, e2, Bool.false_eq_true, if_false]
    by_cases h1 : wh = 0 ∧ off < 0
    · rw [if_pos h1, if_pos h1]; rfl
    · rw [if_neg h1, if_neg h1]
      by_cases h2 : wh ≠ 0 ∧ wh ≠ 1 ∧ wh ≠ 2
      · rw [if_pos h2, if_pos h2]; rfl
      · rw [if_neg h2, if_neg h2]
        simp only [Prog.exec]
        generalize (if wh = 0 then off else if wh = 1 then i64 (off + M (.b h .offset)) else i64 (off + M (.c .length)) : Int) = o
        by_cases h3 : o < 0
        · simp only [h3, if_true]; rfl
        · simp only [h3, if_false, Prog.exec, quit, abs_b, bodyOf_err, bodyOf_offset, List.set_set]
          rw [show (bodyOf M h).closed = false from Bool.eq_false_iff.2 hc]

theorem seq_seek_seeker (h : Nat) (off wh : Int) (M : Mem (posSig σ)) :
    SeekerBody.seek (abs M) h (bodyOf M h) off wh = (abs ((seek h off wh).exec M).1, ((seek h off wh).exec M).2) := by
  rw [← seq_seek_readerAt]; rfl

theorem read_eq_readerAt (R : Rdr σ) (s : PosSys σ) (h k : Nat) (b : PosBody) (hc : b.closed = false) (he : b.err = none) :
    ReaderAtBody.read R s h b k =
      (if s.common.length - (if b.offset > s.common.length then s.common.length else b.offset) > 0 then
        match goSlice (List.replicate k (0 : Byte)) 0
          (if decide ((k : Int) > s.common.length - (if b.offset > s.common.length then s.common.length else b.offset)) = true
            then s.common.length - (if b.offset > s.common.length then s.common.length else b.offset) else (k : Int)) with
        | none => readFin h b (if b.offset > s.common.length then s.common.length else b.offset)
            (decide ((k : Int) > s.common.length - (if b.offset > s.common.length then s.common.length else b.offset))) s.common s (.panic .bounds)
        | some p => readFin h b (if b.offset > s.common.length then s.common.length else b.offset)
            (decide ((k : Int) > s.common.length - (if b.offset > s.common.length then s.common.length else b.offset)))
            (ReaderAtBody.commonReadAt R s.common p.length (if b.offset > s.common.length then s.common.length else b.offset)).1 s
            (ReaderAtBody.commonReadAt R s.common p.length (if b.offset > s.common.length then s.common.length else b.offset)).2
      else readFin h b (if b.offset > s.common.length then s.common.length else b.offset)
            (decide ((k : Int) > s.common.length - (if b.offset > s.common.length then s.common.length else b.offset))) s.common s (.ret ([], none))) := by
  obtain ⟨be, bo, bc⟩ := b
  simp only at hc he
  subst hc he
  simp only [ReaderAtBody.read, Bool.false_eq_true, if_false]
  generalize (if bo > s.common.length then s.common.length else bo) = o
  generalize s.common.length - o = a
  generalize decide ((k : Int) > a) = eof
  by_cases ha : a > 0
  · rw [if_pos ha, if_pos ha]
    generalize goSlice (List.replicate k (0 : Byte)) 0 (if eof = true then a else (k : Int)) = g
    cases g with
    | none => rfl
    | some p =>
      dsimp only
      cases hq : (ReaderAtBody.commonReadAt R s.common p.length o).2 <;> rfl
  · rw [if_neg ha, if_neg ha]; rfl

theorem seq_read_readerAt (R : Rdr σ) (h k : Nat) (M : Mem (posSig σ)) :
    ReaderAtBody.read R (abs M) h (bodyOf M h) k = (abs ((read (readerAtCall R) h k).exec M).1, ((read (readerAtCall R) h k).exec M).2) := by
  by_cases hc : M (.b h .closed) = true
  · simp only [read, Prog.exec, ReaderAtBody.read, show (bodyOf M h).closed = M (.b h .closed) from rfl, hc, if_true, quit]
  · have hc' : (bodyOf M h).closed = false := Bool.eq_false_iff.2 hc
    simp only [read, Prog.exec, hc, Bool.false_eq_true, if_false]
    cases he : (M (.b h .err) : Option Err) with
    | some e => simp only [ReaderAtBody.read, hc', Bool.false_eq_true, if_false, show (bodyOf M h).err = some e from he, Prog.exec, quit]
    | none =>
      rw [read_eq_readerAt R _ _ _ _ hc' he]
      simp only [Prog.exec, show (abs M).common.length = M (.c .length) from rfl, show (bodyOf M h).offset = M (.b h .offset) from rfl]
      generalize (if M (.b h .offset) > M (.c .length) then M (.c .length) else M (.b h .offset) : Int) = o
      generalize ((M (.c .length) : Int) - o) = a
      generalize decide ((k : Int) > a) = eof
      by_cases ha : a > 0
      · rw [if_pos ha, if_pos ha]
        generalize goSlice (List.replicate k (0 : Byte)) 0 (if eof = true then a else (k : Int)) = g
        cases g with
        | none => exact exec_readEnd h o eof (.panic .bounds) (M := M) (M' := M) (c := (abs M).common) rfl fun _ _ => rfl
        | some p =>
          obtain ⟨M', hM', ha', hb'⟩ := exec_readerAtCall R p.length o (readEnd h o eof) M
          simp only [hM']
          exact exec_readEnd h o eof _ ha' hb'
      · rw [if_neg ha, if_neg ha]
        exact exec_readEnd h o eof (.ret ([], none)) (M := M) (M' := M) (c := (abs M).common) rfl fun _ _ => rfl

theorem read_eq_seeker (R : Rdr σ) (s : PosSys σ) (h k : Nat) (b : PosBody) (hc : b.closed = false) (he : b.err = none) :
    SeekerBody.read R s h b k =
      (if s.common.length - (if b.offset > s.common.length then s.common.length else b.offset) > 0 then
        match goSlice (List.replicate k (0 : Byte)) 0
          (if decide ((k : Int) > s.common.length - (if b.offset > s.common.length then s.common.length else b.offset)) = true
            then s.common.length - (if b.offset > s.common.length then s.common.length else b.offset) else (k : Int)) with
        | none => readFin h b (if b.offset > s.common.length then s.common.length else b.offset)
            (decide ((k : Int) > s.common.length - (if b.offset > s.common.length then s.common.length else b.offset))) s.common s (.panic .bounds)
        | some p => readFin h b (if b.offset > s.common.length then s.common.length else b.offset)
            (decide ((k : Int) > s.common.length - (if b.offset > s.common.length then s.common.length else b.offset)))
            (SeekerBody.commonReadAt R s.common p.length (if b.offset > s.common.length then s.common.length else b.offset)).1 s
            (SeekerBody.commonReadAt R s.common p.length (if b.offset > s.common.length then s.common.length else b.offset)).2
      else readFin h b (if b.offset > s.common.length then s.common.length else b.offset)
            (decide ((k : Int) > s.common.length - (if b.offset > s.common.length then s.common.length else b.offset))) s.common s (.ret ([], none))) := by
  obtain ⟨be, bo, bc⟩ := b
  simp only at hc he
  subst hc he
  simp only [SeekerBody.read, Bool.false_eq_true, if_false]
  generalize (if bo > s.common.length then s.common.length else bo) = o
  generalize s.common.length - o = a
  generalize decide ((k : Int) > a) = eof
  by_cases ha : a > 0
  · rw [if_pos ha, if_pos ha]
    generalize goSlice (List.replicate k (0 : Byte)) 0 (if eof = true then a else (k : Int)) = g
    cases g with
    | none => rfl
    | some p =>
      dsimp only
      cases hq : (SeekerBody.commonReadAt R s.common p.length o).2 <;> rfl
  · rw [if_neg ha, if_neg ha]; rfl

theorem seq_read_seeker (R : Rdr σ) (h k : Nat) (M : Mem (posSig σ)) :
    SeekerBody.read R (abs M) h (bodyOf M h) k = (abs ((read (seekerCall R) h k).exec M).1, ((read (seekerCall R) h k).exec M).2) := by
  by_cases hc : M (.b h .closed) = true
  · simp only [read, Prog.exec, SeekerBody.read, show (bodyOf M h).closed = M (.b h .closed) from rfl, hc, if_true, quit]
  · have hc' : (bodyOf M h).closed = false := Bool.eq_false_iff.2 hc
    simp only [read, Prog.exec, hc, Bool.false_eq_true, if_false]
    cases he : (M (.b h .err) : Option Err) with
    | some e => simp only [SeekerBody.read, hc', Bool.false_eq_true, if_false, show (bodyOf M h).err = some e from he, Prog.exec, quit]
    | none =>
      rw [read_eq_seeker R _ _ _ _ hc' he]
      simp only [Prog.exec, show (abs M).common.length = M (.c .length) from rfl, show (bodyOf M h).offset = M (.b h .offset) from rfl]
      generalize (if M (.b h .offset) > M (.c .length) then M (.c .length) else M (.b h .offset) : Int) = o
      generalize ((M (.c .length) : Int) - o) = a
      generalize decide ((k : Int) > a) = eof
      by_cases ha : a > 0
      · rw [if_pos ha, if_pos ha]
        generalize goSlice (List.replicate k (0 : Byte)) 0 (if eof = true then a else (k : Int)) = g
        cases g with
        | none => exact exec_readEnd h o eof (.panic .bounds) (M := M) (M' := M) (c := (abs M).common) rfl fun _ _ => rfl
        | some p =>
          obtain ⟨M', hM', ha', hb'⟩ := exec_seekerCall R p.length o (readEnd h o eof) M
          simp only [hM']
          exact exec_readEnd h o eof _ ha' hb'
      · rw [if_neg ha, if_neg ha]
        exact exec_readEnd h o eof (.ret ([], none)) (M := M) (M' := M) (c := (abs M).common) rfl fun _ _ => rfl

theorem seq_readAt_readerAt (R : Rdr σ) (h k : Nat) (off : Int) (M : Mem (posSig σ)) :
    ReaderAtBody.readAt R (abs M) (bodyOf M h) k off =
      (abs ((readAt (readerAtCall R) h k off).exec M).1, ((readAt (readerAtCall R) h k off).exec M).2) := by
  by_cases hc : M (.b h .closed) = true
  · simp only [readAt, Prog.exec, ReaderAtBody.readAt, show (bodyOf M h).closed = M (.b h .closed) from rfl, hc, if_true, quit]
  · have hc' : (bodyOf M h).closed = false := Bool.eq_false_iff.2 hc
    simp only [readAt, Prog.exec, hc, Bool.false_eq_true, if_false, ReaderAtBody.readAt, hc']
    by_cases hn : off < 0
    · simp only [hn, if_true, quit, Prog.exec]
    · simp only [hn, if_false, Prog.exec, show (abs M).common.length = M (.c .length) from rfl]
      generalize (if off > M (.c .length) then M (.c .length) else off : Int) = o
      generalize ((M (.c .length) : Int) - o) = a
      generalize decide ((k : Int) > a) = eof
      by_cases ha : a > 0
      · rw [if_pos ha, if_pos ha]
        generalize goSlice (List.replicate k (0 : Byte)) 0 (if eof = true then a else (k : Int)) = g
        cases g with
        | none => rfl
        | some p =>
          obtain ⟨M', hM', ha', -⟩ := exec_readerAtCall R p.length o (readAtEnd h eof) M
          simp only [hM']
          cases hq : (ReaderAtBody.commonReadAt R (abs M).common p.length o).2 <;> simp [readAtEnd, done, quit, Prog.exec, ha']
      · rw [if_neg ha, if_neg ha]
        rfl

theorem seq_readAt_seeker (R : Rdr σ) (h k : Nat) (off : Int) (M : Mem (posSig σ)) :
    SeekerBody.readAt R (abs M) (bodyOf M h) k off =
      (abs ((readAt (seekerCall R) h k off).exec M).1, ((readAt (seekerCall R) h k off).exec M).2) := by
  by_cases hc : M (.b h .closed) = true
  · simp only [readAt, Prog.exec, SeekerBody.readAt, show (bodyOf M h).closed = M (.b h .closed) from rfl, hc, if_true, quit]
  · have hc' : (bodyOf M h).closed = false := Bool.eq_false_iff.2 hc
    simp only [readAt, Prog.exec, hc, Bool.false_eq_true, if_false, SeekerBody.readAt, hc']
    by_cases hn : off < 0
    · simp only [hn, if_true, quit, Prog.exec]
    · simp only [hn, if_false, Prog.exec, show (abs M).common.length = M (.c .length) from rfl]
      generalize (if off > M (.c .length) then M (.c .length) else off : Int) = o
      generalize ((M (.c .length) : Int) - o) = a
      generalize decide ((k : Int) > a) = eof
      by_cases ha : a > 0
      · rw [if_pos ha, if_pos ha]
        generalize goSlice (List.replicate k (0 : Byte)) 0 (if eof = true then a else (k : Int)) = g
        cases g with
        | none => rfl
        | some p =>
          obtain ⟨M', hM', ha', -⟩ := exec_seekerCall R p.length o (readAtEnd h eof) M
          simp only [hM']
          cases hq : (SeekerBody.commonReadAt R (abs M).common p.length o).2 <;> simp [readAtEnd, done, quit, Prog.exec, ha']
      · rw [if_neg ha, if_neg ha]
        rfl

theorem seq_unwrap_readerAt (h : Nat) (M : Mem (posSig σ)) :
    (abs M, ReaderAtBody.unwrap (abs M) (bodyOf M h)) = (abs ((unwrap h).exec M).1, ((unwrap h).exec M).2) := by
  by_cases hc : M (.b h .closed) = true
  · simp only [unwrap, Prog.exec, ReaderAtBody.unwrap, show (bodyOf M h).closed = M (.b h .closed) from rfl, hc, if_true, quit]
  · have hc' : (bodyOf M h).closed = false := Bool.eq_false_iff.2 hc
    simp only [unwrap, Prog.exec, hc, Bool.false_eq_true, if_false, ReaderAtBody.unwrap, hc', done, quit]
    rfl

theorem seq_unwrap_seeker (h : Nat) (M : Mem (posSig σ)) :
    (abs M, SeekerBody.unwrap (abs M) (bodyOf M h)) = (abs ((unwrap h).exec M).1, ((unwrap h).exec M).2) :=
  seq_unwrap_readerAt h M

theorem seq_remaining_readerAt (h : Nat) (M : Mem (posSig σ)) :
    (abs M, Out.remaining (ReaderAtBody.bytesRemaining (abs M) (bodyOf M h))) =
      (abs ((readerAtRemaining h).exec M).1, ((readerAtRemaining h).exec M).2) := by
  by_cases hc : M (.b h .closed) = true
  · simp only [readerAtRemaining, Prog.exec, ReaderAtBody.bytesRemaining, show (bodyOf M h).closed = M (.b h .closed) from rfl, hc, if_true, quit]
  · have hc' : (bodyOf M h).closed = false := Bool.eq_false_iff.2 hc
    simp only [readerAtRemaining, Prog.exec, hc, Bool.false_eq_true, if_false, ReaderAtBody.bytesRemaining, hc', ReaderAtBody.commonRemaining,
      show (abs M).common.length = M (.c .length) from rfl, show (bodyOf M h).offset = M (.b h .offset) from rfl]
    by_cases hl : (M (.b h .offset) : Int) ≥ M (.c .length)
    · rw [if_pos hl, if_pos hl]; rfl
    · rw [if_neg hl, if_neg hl]; rfl

theorem seq_remaining_seeker (h : Nat) (M : Mem (posSig σ)) :
    (abs M, Out.remaining (SeekerBody.bytesRemaining (abs M) (bodyOf M h))) =
      (abs ((seekerRemaining h).exec M).1, ((seekerRemaining h).exec M).2) := by
  by_cases hc : M (.b h .closed) = true
  · simp only [seekerRemaining, Prog.exec, SeekerBody.bytesRemaining, show (bodyOf M h).closed = M (.b h .closed) from rfl, hc, if_true, quit]
  · have hc' : (bodyOf M h).closed = false := Bool.eq_false_iff.2 hc
    simp only [seekerRemaining, Prog.exec, hc, Bool.false_eq_true, if_false, SeekerBody.bytesRemaining, hc']
    rfl

theorem seq_readerAt (R : Rdr σ) (op : Op) (M : Mem (posSig σ)) (hh : op.h < M .next) :
    ReaderAtBody.step R (abs M) op = (abs ((readerAtProg R op).exec M).1, ((readerAtProg R op).exec M).2) := by
  rw [ReaderAtBody.step, get_heap M hh]
  cases op with
  | read h k => exact seq_read_readerAt R h k M
  | readAt h k off => exact seq_readAt_readerAt R h k off M
  | seek h off wh => exact seq_seek_readerAt h off wh M
  | remaining h => exact seq_remaining_readerAt h M
  | copy h => exact seq_copy_readerAt h M
  | close h => exact seq_close_readerAt R h M
  | unwrap h => exact seq_unwrap_readerAt h M
  | writeTo h w => rfl

theorem seq_seeker (R : Rdr σ) (op : Op) (M : Mem (posSig σ)) (hh : op.h < M .next) :
    SeekerBody.step R (abs M) op = (abs ((seekerProg R op).exec M).1, ((seekerProg R op).exec M).2) := by
  rw [SeekerBody.step, get_heap M hh]
  cases op with
  | read h k => exact seq_read_seeker R h k M
  | readAt h k off => exact seq_readAt_seeker R h k off M
  | seek h off wh => exact seq_seek_seeker h off wh M
  | remaining h => exact seq_remaining_seeker h M
  | copy h => exact seq_copy_seeker h M
  | close h => exact seq_close_seeker R h M
  | unwrap h => exact seq_unwrap_seeker h M
  | writeTo h w => rfl

def readerAtFam (R : Rdr σ) : Fam (posSig σ) (PosSys σ) where
  D := disc σ false
  prog := readerAtProg R
  step := ReaderAtBody.step R
  abs := abs
  allowed _ := True
  safe op _ M hh := safe_readerAt R op M hh
  good _ := True
  good_step _ _ _ _ _ := trivial
  seq op _ M hh _ := seq_readerAt R op M hh

def seekerFam (R : Rdr σ) : Fam (posSig σ) (PosSys σ) where
  D := disc σ true
  prog := seekerProg R
  step := SeekerBody.step R
  abs := abs
  allowed _ := True
  safe op _ M hh := safe_seeker R op M hh
  good _ := True
  good_step _ _ _ _ _ := trivial
  seq op _ M hh _ := seq_seeker R op M hh

/-- Seeker-backed bodies when nobody calls `BytesRemaining`. -/
def seekerFam' (R : Rdr σ) : Fam (posSig σ) (PosSys σ) where
  D := disc σ false
  prog := seekerProg R
  step := SeekerBody.step R
  abs := abs
  allowed op := ∀ h, op ≠ .remaining h
  safe op ha M hh := by
    cases op with
    | read h k => exact safe_read _ k hh fun _ _ _ _ => safe_seekerCall R _ _ _
    | readAt h k off => exact safe_readAt _ k off hh fun _ _ _ _ => safe_seekerCall R _ _ _
    | seek h off wh => exact safe_seek off wh hh
    | remaining h => exact absurd rfl (ha h)
    | copy h => exact safe_copy hh
    | close h => exact safe_close R hh
    | unwrap h => exact safe_unwrap hh
    | writeTo h w => exact rfl
  good _ := True
  good_step _ _ _ _ _ := trivial
  seq op _ M hh _ := seq_seeker R op M hh

theorem abs_init_readerAt (rdr : σ) (n : Int) : abs (init rdr n) = ReaderAtBody.init rdr n := rfl

theorem abs_init_seeker (rdr : σ) (n : Int) : abs (init rdr n) = SeekerBody.init rdr n := rfl

end ConcPos
end Verif
