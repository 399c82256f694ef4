import Verif.Proofs.ConcSafe
import Verif.Model.ConcMem

/-!
# Empty and byte-slice bodies keep to the discipline
-/

set_option autoImplicit false

namespace Verif

/-- Nothing is shared. -/
def privDisc (Γ : Sig) : Disc Γ where
  shared _ := False
  memb _ _ := False
  racyC _ := False
  excl := fun ⟨_, h⟩ => h.elim

/-! ## Lists of bodies in memory -/

section
variable {Γ : Sig} {β : Type} (bodyOf : Mem Γ → Nat → β)

/-- The bodies that exist. -/
def heapOf (M : Mem Γ) : List β := (List.range (M .next)).map (bodyOf M)

theorem heapOf_get (M : Mem Γ) {h : Nat} (hh : h < M .next) : (heapOf bodyOf M)[h]? = some (bodyOf M h) := by simp [heapOf, hh]

theorem heapOf_len (M : Mem Γ) : (heapOf bodyOf M).length = M .next := by simp [heapOf]

variable (hloc : ∀ (M : Mem Γ) (h i : Nat) (f : Γ.BF) (v), i ≠ h → bodyOf (M.set (.b h f) v) i = bodyOf M i)
include hloc

theorem heapOf_b (M : Mem Γ) (h : Nat) (f : Γ.BF) (v) :
    heapOf bodyOf (M.set (.b h f) v) = (heapOf bodyOf M).set h (bodyOf (M.set (.b h f) v) h) := by
  simp only [heapOf, Mem.next_b]
  apply List.ext_getElem?
  intro i
  by_cases e : i = h
  · subst e
    by_cases hi : i < M .next <;> simp [List.getElem?_set, hi]
  · simp [List.getElem?_set, Ne.symm e]
    by_cases hi : i < M .next
    · simp [hi, hloc M h i f v e]
    · simp [hi]

omit hloc in
theorem heapOf_next (hn : ∀ (M : Mem Γ) (n : Nat) (i : Nat), bodyOf (M.set .next n) i = bodyOf M i) (M : Mem Γ) {i : Nat} (hi : M .next = i) :
    heapOf bodyOf (M.set .next (i + 1)) = heapOf bodyOf M ++ [bodyOf M i] := by
  subst hi
  have h1 : (M.set .next (M .next + 1)) .next = M .next + 1 := Mem.set_same _ .next _
  have h2 : bodyOf (M.set .next (M .next + 1)) = bodyOf M := by funext i; exact hn _ _ _
  simp only [heapOf, h1, h2, List.range_succ, List.map_append, List.map_cons, List.map_nil]

/-- Fields of a body that does not exist yet. -/
theorem heapOf_new (M : Mem Γ) {i : Nat} (hi : M .next ≤ i) (f : Γ.BF) (v) : heapOf bodyOf (M.set (.b i f) v) = heapOf bodyOf M := by
  rw [heapOf_b bodyOf hloc, List.set_eq_of_length_le]
  rw [heapOf_len]; exact hi

end

/-! ## emptyBody -/

namespace ConcEmpty

def bodyOf (M : Mem emptySig) (h : Nat) : EmptyBody := { eof := M (.b h .eof), closed := M (.b h .closed) }

abbrev abs (M : Mem emptySig) : List EmptyBody := heapOf bodyOf M

theorem loc (M : Mem emptySig) (h i : Nat) (f : EmptyF) (v) (e : i ≠ h) : bodyOf (M.set (.b h f) v) i = bodyOf M i := by
  simp [bodyOf, Mem.set, e]

theorem locn (M : Mem emptySig) (n : Nat) (i : Nat) : bodyOf (M.set .next n) i = bodyOf M i := by
  simp [bodyOf, Mem.set]

theorem eof (M : Mem emptySig) (h : Nat) (v : Bool) : bodyOf (M.set (.b h .eof) v) h = { bodyOf M h with eof := v } := by
  simp [bodyOf, Mem.set]

theorem closed (M : Mem emptySig) (h : Nat) (v : Bool) : bodyOf (M.set (.b h .closed) v) h = { bodyOf M h with closed := v } := by
  simp [bodyOf, Mem.set]

theorem safe (op : Op) (M : Mem emptySig) (hh : op.h < M .next) : Safe (privDisc _) .none false M (prog op) := by
  cases op with
  | read h k =>
    exact .lock_body hh fun M _ => .get_b rfl <| .ite (fun _ => .unlock_body) fun _ => .get_b rfl <|
      .ite (fun _ => .put_b rfl (.inl id) .unlock_body) fun _ => .unlock_body
  | readAt h k off =>
    exact .lock_body hh fun M _ => .get_b rfl <| .ite (fun _ => .unlock_body) fun _ => .ite (fun _ => .unlock_body) fun _ => .unlock_body
  | seek h off wh =>
    exact .lock_body hh fun M _ => .get_b rfl <| .ite (fun _ => .unlock_body) fun _ => .ite (fun _ => .unlock_body) fun _ =>
      .ite (fun _ => .unlock_body) fun _ => .ite (fun _ => .unlock_body) fun _ => .put_b rfl (.inl id) .unlock_body
  | remaining h => exact rfl
  | copy h =>
    refine .lock_body hh fun M _ => .get_b rfl <| .ite (fun _ => .unlock_body) fun _ => .get_b rfl <| .lock_common fun M => .get_next rfl <|
      .put_new rfl (Nat.le_refl _) <| .put_new rfl ?_ <| .put_next rfl ?_ <| .unlock_common fun _ _ => .unlock_body
    · rw [Mem.next_b]; exact Nat.le_refl _
    · rw [Mem.next_b, Mem.next_b]; exact Nat.le_succ _
  | close h =>
    exact .lock_body hh fun M _ => .get_b rfl <| .ite (fun _ => .unlock_body) fun _ => .put_b rfl (.inl id) .unlock_body
  | unwrap h => exact rfl
  | writeTo h w =>
    exact .lock_body hh fun M _ => .get_b rfl <| .ite (fun _ => .unlock_body) fun _ => .unlock_body

/-- Nothing changes. -/
theorem set_bodyOf (M : Mem emptySig) (h : Nat) : (abs M).set h (bodyOf M h) = abs M := by
  by_cases hh : h < M .next
  · have := heapOf_get bodyOf M hh
    apply List.ext_getElem?
    intro i
    by_cases e : i = h
    · subst e; rw [List.getElem?_set_self', this]; rfl
    · rw [List.getElem?_set_ne (Ne.symm e)]
  · exact List.set_eq_of_length_le (by rw [heapOf_len]; exact Nat.le_of_not_lt hh)

theorem seq (op : Op) (M : Mem emptySig) (hh : op.h < M .next) :
    EmptyBody.step (abs M) op = (abs ((prog op).exec M).1, ((prog op).exec M).2) := by
  rw [EmptyBody.step, heapOf_get bodyOf M hh]
  have hset := set_bodyOf M op.h
  have hb : ∀ (f : EmptyF) (v), abs (M.set (.b op.h f) v) = (abs M).set op.h (bodyOf (M.set (.b op.h f) v) op.h) := heapOf_b bodyOf loc M op.h
  have he := eof M op.h
  have hcl := closed M op.h
  have ec : M (.b op.h .closed) = (bodyOf M op.h).closed := rfl
  have ee : M (.b op.h .eof) = (bodyOf M op.h).eof := rfl
  generalize bodyOf M op.h = b at *
  obtain ⟨e, c⟩ := b
  cases op with
  | read h k =>
    simp only [Op.h] at *
    cases c with
    | true => simp [prog, read, Prog.exec, quit, EmptyBody.read, ec, hset]
    | false =>
      by_cases h1 : (e || decide (k > 0)) = true
      · simp only [prog, read, Prog.exec, quit, EmptyBody.read, ec, ee, h1, if_true, Bool.false_eq_true, if_false, hb, he]
      · simp only [prog, read, Prog.exec, quit, EmptyBody.read, ec, ee, h1, Bool.false_eq_true, if_false, hset]
  | readAt h k off =>
    simp only [Op.h] at *
    cases c with
    | true => simp [prog, readAt, Prog.exec, quit, EmptyBody.readAt, ec]
    | false => by_cases hk : k > 0 <;> simp [prog, readAt, Prog.exec, quit, EmptyBody.readAt, ec, hk]
  | seek h off wh =>
    simp only [Op.h] at *
    cases c with
    | true => simp [prog, seek, Prog.exec, quit, EmptyBody.seek, ec, hset]
    | false =>
      simp only [prog, seek, Prog.exec, EmptyBody.seek, ec, Bool.false_eq_true, if_false]
      by_cases h1 : wh = 0 ∧ off < 0
      · simp only [h1, and_self, if_true, quit, Prog.exec, hset]
      · rw [if_neg h1, if_neg h1]
        by_cases h2 : wh ≠ 0 ∧ wh ≠ 1 ∧ wh ≠ 2
        · rw [if_pos h2, if_pos h2]; simp only [quit, Prog.exec, hset]
        · rw [if_neg h2, if_neg h2]
          by_cases h3 : off < 0
          · simp only [h3, if_true, quit, Prog.exec, hset]
          · simp only [h3, if_false, quit, Prog.exec, hb, he]
  | remaining h => rfl
  | copy h =>
    simp only [Op.h] at *
    cases c with
    | true => simp [prog, copy, Prog.exec, quit, ec]
    | false =>
      simp only [prog, copy, Prog.exec, quit, ec, ee, Bool.false_eq_true, if_false]
      have hn : ((M.set (.b (M .next) .eof) e).set (.b (M .next) .closed) false) .next = M .next := by rw [Mem.next_b, Mem.next_b]
      unfold abs
      rw [heapOf_next bodyOf locn _ hn, heapOf_new bodyOf loc _ (by rw [Mem.next_b]; exact Nat.le_refl _),
        heapOf_new bodyOf loc _ (Nat.le_refl _), closed, eof, heapOf_len]
  | close h =>
    simp only [Op.h] at *
    cases c with
    | true => simp [prog, close, Prog.exec, quit, EmptyBody.close, ec, hset]
    | false => simp [prog, close, Prog.exec, quit, EmptyBody.close, ec, hb, hcl]
  | unwrap h => rfl
  | writeTo h w =>
    simp only [Op.h] at *
    cases c <;> simp [prog, writeTo, Prog.exec, quit, EmptyBody.writeTo, ec]

def fam : Fam emptySig (List EmptyBody) where
  D := privDisc _
  prog := prog
  step := EmptyBody.step
  abs := abs
  allowed _ := True
  safe op _ M hh := safe op M hh
  good _ := True
  good_step _ _ _ _ _ := trivial
  seq op _ M hh _ := seq op M hh

theorem abs_init : abs init = [{}] := rfl

end ConcEmpty

/-! ## bytesBody -/

namespace ConcBytes

def bodyOf (M : Mem bytesSig) (h : Nat) : BytesBody :=
  { data := M (.b h .data), offset := M (.b h .offset), eof := M (.b h .eof), closed := M (.b h .closed) }

abbrev abs (M : Mem bytesSig) : List BytesBody := heapOf bodyOf M

theorem loc (M : Mem bytesSig) (h i : Nat) (f : BytesF) (v) (e : i ≠ h) : bodyOf (M.set (.b h f) v) i = bodyOf M i := by
  simp [bodyOf, Mem.set, e]

theorem locn (M : Mem bytesSig) (n : Nat) (i : Nat) : bodyOf (M.set .next n) i = bodyOf M i := by
  simp [bodyOf, Mem.set]

theorem data (M : Mem bytesSig) (h : Nat) (v : List Byte) : bodyOf (M.set (.b h .data) v) h = { bodyOf M h with data := v } := by
  simp [bodyOf, Mem.set]

theorem offset (M : Mem bytesSig) (h : Nat) (v : Int) : bodyOf (M.set (.b h .offset) v) h = { bodyOf M h with offset := v } := by
  simp [bodyOf, Mem.set]

theorem eof (M : Mem bytesSig) (h : Nat) (v : Bool) : bodyOf (M.set (.b h .eof) v) h = { bodyOf M h with eof := v } := by
  simp [bodyOf, Mem.set]

theorem closed (M : Mem bytesSig) (h : Nat) (v : Bool) : bodyOf (M.set (.b h .closed) v) h = { bodyOf M h with closed := v } := by
  simp [bodyOf, Mem.set]

theorem safe (op : Op) (M : Mem bytesSig) (hh : op.h < M .next) : Safe (privDisc _) .none false M (prog op) := by
  cases op with
  | read h k =>
    refine .lock_body hh fun M _ => .get_b rfl <| .ite (fun _ => .unlock_body) fun _ => .get_b rfl <| .ite (fun _ => .unlock_body) fun _ =>
      .get_b rfl <| .get_b rfl ?_
    dsimp only
    split
    · exact .put_b rfl (.inl id) <| .put_b rfl (.inl id) .unlock_body
    · exact .unlock_body
  | readAt h k off =>
    refine .lock_body hh fun M _ => .get_b rfl <| .ite (fun _ => .unlock_body) fun _ => .ite (fun _ => .unlock_body) fun _ => .get_b rfl ?_
    dsimp only
    split <;> exact .unlock_body
  | seek h off wh =>
    exact .lock_body hh fun M _ => .get_b rfl <| .ite (fun _ => .unlock_body) fun _ => .get_b rfl <| .ite (fun _ => .unlock_body) fun _ =>
      .ite (fun _ => .unlock_body) fun _ => .get_b rfl <| .ite (fun _ => .unlock_body) fun _ => .put_b rfl (.inl id) <|
      .put_b rfl (.inl id) .unlock_body
  | remaining h =>
    exact .lock_body hh fun M _ => .get_b rfl <| .ite (fun _ => .unlock_body) fun _ => .get_b rfl <| .get_b rfl .unlock_body
  | copy h =>
    refine .lock_body hh fun M _ => .get_b rfl <| .ite (fun _ => .unlock_body) fun _ => .get_b rfl <| .get_b rfl <| .get_b rfl <| .get_b rfl <|
      .lock_common fun M => .get_next rfl <|
      .put_new rfl (Nat.le_refl _) <| .put_new rfl ?_ <| .put_new rfl ?_ <| .put_new rfl ?_ <| .put_next rfl ?_ <|
      .unlock_common fun _ _ => .unlock_body
    · rw [Mem.next_b]; exact Nat.le_refl _
    · rw [Mem.next_b, Mem.next_b]; exact Nat.le_refl _
    · rw [Mem.next_b, Mem.next_b, Mem.next_b]; exact Nat.le_refl _
    · rw [Mem.next_b, Mem.next_b, Mem.next_b, Mem.next_b]; exact Nat.le_succ _
  | close h =>
    exact .lock_body hh fun M _ => .get_b rfl <| .ite (fun _ => .unlock_body) fun _ => .put_b rfl (.inl id) <| .put_b rfl (.inl id) <|
      .put_b rfl (.inl id) <| .put_b rfl (.inl id) .unlock_body
  | unwrap h => exact rfl
  | writeTo h w =>
    refine .lock_body hh fun M _ => .get_b rfl <| .ite (fun _ => .unlock_body) fun _ => .get_b rfl <| .ite (fun _ => .unlock_body) fun _ =>
      .get_b rfl <| .get_b rfl ?_
    dsimp only
    split
    · exact .unlock_body
    · split
      · exact .unlock_body
      · exact .ite (fun _ => .unlock_body) fun _ => .ite (fun _ => .unlock_body) fun _ => .get_b rfl <| .put_b rfl (.inl id) <|
          .put_b rfl (.inl id) .unlock_body

/-- Nothing changes. -/
theorem set_bodyOf (M : Mem bytesSig) (h : Nat) : (abs M).set h (bodyOf M h) = abs M := by
  by_cases hh : h < M .next
  · have := heapOf_get bodyOf M hh
    apply List.ext_getElem?
    intro i
    by_cases e : i = h
    · subst e; rw [List.getElem?_set_self', this]; rfl
    · rw [List.getElem?_set_ne (Ne.symm e)]
  · exact List.set_eq_of_length_le (by rw [heapOf_len]; exact Nat.le_of_not_lt hh)

theorem seq (op : Op) (M : Mem bytesSig) (hh : op.h < M .next) :
    BytesBody.step (abs M) op = (abs ((prog op).exec M).1, ((prog op).exec M).2) := by
  rw [BytesBody.step, heapOf_get bodyOf M hh]
  have hset := set_bodyOf M op.h
  have hb : ∀ (M : Mem bytesSig) (f : BytesF) (v), abs (M.set (.b op.h f) v) = (abs M).set op.h (bodyOf (M.set (.b op.h f) v) op.h) :=
    fun M => heapOf_b bodyOf loc M op.h
  have hd : M (.b op.h .data) = (bodyOf M op.h).data := rfl
  have ho : M (.b op.h .offset) = (bodyOf M op.h).offset := rfl
  have ec : M (.b op.h .closed) = (bodyOf M op.h).closed := rfl
  have ee : M (.b op.h .eof) = (bodyOf M op.h).eof := rfl
  generalize hbo : bodyOf M op.h = b at *
  obtain ⟨d, o, e, c⟩ := b
  cases op with
  | read h k =>
    simp only [Op.h] at *
    cases c with
    | true => simp [prog, read, Prog.exec, quit, BytesBody.read, ec, hset]
    | false =>
      cases e with
      | true => simp [prog, read, Prog.exec, quit, BytesBody.read, ec, ee, hset]
      | false =>
        simp only [prog, read, Prog.exec, BytesBody.read, ec, ee, hd, ho, Bool.false_eq_true, if_false]
        generalize (d.length : Int) - o = a
        generalize decide ((k : Int) > a) = eo
        generalize (if eo = true then a else (k : Int)) = n
        generalize goSlice (List.replicate k (0 : Byte)) 0 n = g1
        generalize goSlice d o (o + n) = g2
        cases g1 with
        | none => simp only [quit, Prog.exec, hset]
        | some x =>
          cases g2 with
          | none => simp only [quit, Prog.exec, hset]
          | some y => simp only [quit, Prog.exec, hb, eof, offset, hbo, List.set_set]
  | readAt h k off =>
    simp only [Op.h] at *
    cases c with
    | true => simp [prog, readAt, Prog.exec, quit, BytesBody.readAt, ec]
    | false =>
      simp only [prog, readAt, Prog.exec, BytesBody.readAt, ec, hd, Bool.false_eq_true, if_false]
      by_cases h1 : off < 0
      · simp only [h1, if_true, quit, Prog.exec]
      · simp only [h1, if_false, Prog.exec, hd]
        generalize (if off > (d.length : Int) then (d.length : Int) else off) = q
        generalize (d.length : Int) - q = a
        generalize decide ((k : Int) > a) = eo
        generalize (if eo = true then a else (k : Int)) = n
        generalize goSlice (List.replicate k (0 : Byte)) 0 n = g1
        generalize goSlice d q (q + n) = g2
        cases g1 with
        | none => simp only [quit, Prog.exec]
        | some x =>
          cases g2 with
          | none => simp only [quit, Prog.exec]
          | some y => simp only [quit, Prog.exec]
  | seek h off wh =>
    simp only [Op.h] at *
    cases c with
    | true => simp [prog, seek, Prog.exec, quit, BytesBody.seek, ec, hset]
    | false =>
      simp only [prog, seek, Prog.exec, BytesBody.seek, ec, hd, Bool.false_eq_true, if_false]
      by_cases h1 : wh = 0 ∧ off < 0
      · simp only [h1, and_self, if_true, quit, Prog.exec, hset]
      · rw [if_neg h1, if_neg h1]
        by_cases h2 : wh ≠ 0 ∧ wh ≠ 1 ∧ wh ≠ 2
        · rw [if_pos h2, if_pos h2]; simp only [quit, Prog.exec, hset]
        · rw [if_neg h2, if_neg h2]
          simp only [Prog.exec, ho]
          generalize (if wh = 0 then off else if wh = 1 then i64 (off + o) else i64 (off + d.length)) = q
          by_cases h3 : q < 0
          · simp only [h3, if_true, quit, Prog.exec, hset]
          · simp only [h3, if_false, quit, Prog.exec, hb, eof, offset, hbo, List.set_set]
  | remaining h =>
    simp only [Op.h] at *
    cases c <;> simp [prog, remaining, Prog.exec, quit, BytesBody.bytesRemaining, ec, hd, ho]
  | copy h =>
    simp only [Op.h] at *
    cases c with
    | true => simp [prog, copy, Prog.exec, quit, ec]
    | false =>
      simp only [prog, copy, Prog.exec, quit, ec, ee, hd, ho, Bool.false_eq_true, if_false]
      obtain ⟨i, hi⟩ : ∃ i : Nat, M .next = i := ⟨_, rfl⟩
      rw [hi]
      have hn : ((((M.set (.b i .data) d).set (.b i .offset) o).set (.b i .eof) e).set (.b i .closed) false) .next = i := by
        rw [Mem.next_b, Mem.next_b, Mem.next_b, Mem.next_b]; exact hi
      unfold abs
      rw [heapOf_next bodyOf locn _ hn]
      rw [heapOf_new bodyOf loc _ (by rw [Mem.next_b, Mem.next_b, Mem.next_b, hi]; exact Nat.le_refl _),
        heapOf_new bodyOf loc _ (by rw [Mem.next_b, Mem.next_b, hi]; exact Nat.le_refl _),
        heapOf_new bodyOf loc _ (by rw [Mem.next_b, hi]; exact Nat.le_refl _),
        heapOf_new bodyOf loc _ (by rw [hi]; exact Nat.le_refl _), closed, eof, offset, data, heapOf_len, hi]
      rfl
  | close h =>
    simp only [Op.h] at *
    cases c with
    | true => simp [prog, close, Prog.exec, quit, BytesBody.close, ec, hset]
    | false => simp [prog, close, Prog.exec, quit, BytesBody.close, ec, hb, data, offset, eof, closed]
  | unwrap h => rfl
  | writeTo h w =>
    simp only [Op.h] at *
    cases c with
    | true => simp [prog, writeTo, Prog.exec, quit, BytesBody.writeTo, ec, hset]
    | false =>
      cases e with
      | true => simp [prog, writeTo, Prog.exec, quit, BytesBody.writeTo, ec, ee, hset]
      | false =>
        simp only [prog, writeTo, Prog.exec, BytesBody.writeTo, ec, ee, hd, ho, Bool.false_eq_true, if_false]
        generalize goSlice d o d.length = g
        cases g with
        | none => simp only [quit, Prog.exec, hset]
        | some x =>
          rcases hw : w x with ⟨n, err⟩ | p
          · by_cases h1 : ¬ n ≥ 0
            · simp only [hw, h1, not_false_eq_true, if_true, quit, Prog.exec, hset]
            · by_cases h2 : ¬ n ≤ (d.length : Int) - o
              · simp only [hw, h1, h2, not_false_eq_true, if_true, if_false, quit, Prog.exec, hset]
              · simp only [hw, h1, h2, if_false, quit, Prog.exec, ho, hb, eof, offset, hbo, List.set_set]
          · simp only [hw, quit, Prog.exec, hset]

def fam : Fam bytesSig (List BytesBody) where
  D := privDisc _
  prog := prog
  step := BytesBody.step
  abs := abs
  allowed _ := True
  safe op _ M hh := safe op M hh
  good _ := True
  good_step _ _ _ _ _ := trivial
  seq op _ M hh _ := seq op M hh

theorem abs_init (d : List Byte) : abs (init d) = [{ data := d }] := rfl

end ConcBytes
end Verif
