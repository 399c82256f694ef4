import Verif.Model.SliceBytes
import Verif.Proofs.SlicePos

/-! # Bodies over byte slices: the model with slices follows the model with lists -/

set_option autoImplicit false

namespace Verif
namespace SBytesBody

/-- The slice replaced by its bytes, which are what they are in this memory. -/
def abs (m : BMem) (b : SBytesBody) : BytesBody := { data := m.bytes b.data, offset := b.offset, eof := b.eof, closed := b.closed }

/-- How a call on the model with slices relates to that on the model with lists. -/
structure BytesOK (s : List SBytesBody) (m : BMem) (p : BSlice) (r : BMem × List SBytesBody × MOut) (q : List BytesBody × Out) : Prop where
  heap : r.2.1.map (abs m) = q.1
  read : ∀ d e, q.2 = .read d e → r.2.2 = .read (d.length : Int) e ∧ d.length ≤ p.len ∧ r.1 = m.store p d
  other : (∀ d e, q.2 ≠ .read d e) → r.2.2 = .other q.2 ∧ r.1 = m
  slices : ∀ b ∈ r.2.1, b.data = .nil ∨ ∃ b0 ∈ s, b.data = b0.data

theorem BytesOK.still (s s' : List SBytesBody) (m : BMem) (p : BSlice) (t : List BytesBody) (o : Out) (ho : ∀ d e, o ≠ .read d e)
    (hh : s'.map (abs m) = t) (hs : ∀ b ∈ s', b.data = .nil ∨ ∃ b0 ∈ s, b.data = b0.data) : BytesOK s m p (m, s', .other o) (t, o) :=
  ⟨hh, fun d e h => absurd h (ho d e), fun _ => ⟨rfl, rfl⟩, hs⟩

/-- The copying in `Read` and `ReadAt`. -/
theorem copy_ok (m : BMem) (p data : BSlice) (n i : Int) (hp : p.Valid m) (hd : data.Valid m) (hn : n ≤ p.len) (hi : i + n ≤ data.len) :
    (p.sub 0 n = none ↔ goSlice (List.replicate p.len (0 : Byte)) 0 n = none) ∧
    ((data.sub i (i + n)).map m.bytes = goSlice (m.bytes data) i (i + n)) ∧
    ∀ dst src, p.sub 0 n = some dst → data.sub i (i + n) = some src →
      ((m.bytes src).length : Int) = n ∧ m.copy dst src = m.store p (m.bytes src) := by
  have hpl := hp.1
  refine ⟨?_, (BMem.sub_bytes m data i (i + n) hd hi).symm, ?_⟩
  · unfold BSlice.sub goSlice
    simp only [List.length_replicate]
    constructor
    · intro h; split at h
      · cases h
      · rename_i hc; rw [if_neg (fun h' => hc ⟨h'.1, h'.2.1, by omega⟩)]
    · intro h; split at h
      · cases h
      · rename_i hc; rw [if_neg (fun h' => hc ⟨h'.1, h'.2.1, by omega⟩)]
  · intro dst src h1 h2
    obtain ⟨v1, a1, l1, o1, c1⟩ := BMem.sub_valid _ _ _ _ _ hp h1
    obtain ⟨v2, a2, l2, o2, c2⟩ := BMem.sub_valid _ _ _ _ _ hd h2
    have hl := BMem.length_bytes m src v2
    refine ⟨by omega, ?_⟩
    exact BMem.store_sub m p dst (m.bytes src) a1 (by rw [o1]; simp) (by omega) (by omega)

theorem mem_set_data (s : List SBytesBody) (h : Nat) (b b' : SBytesBody) (hb : s[h]? = some b) (hd : b'.data = b.data ∨ b'.data = .nil) :
    ∀ c ∈ s.set h b', c.data = .nil ∨ ∃ b0 ∈ s, c.data = b0.data := by
  intro c hc
  rcases List.mem_or_eq_of_mem_set hc with h1 | h1
  · exact .inr ⟨c, h1, rfl⟩
  · subst h1
    rcases hd with hd | hd
    · exact .inr ⟨b, List.mem_of_getElem? hb, hd⟩
    · exact .inl hd

theorem step_bytes (s : List SBytesBody) (x : MCall) (hx : x.Ok) (hs : ∀ b ∈ s, b.data.Valid x.mem) :
    BytesOK s x.mem x.p (step s x) (BytesBody.step (s.map (abs x.mem)) x.op) := by
  have same : ∀ b ∈ s, b.data = .nil ∨ ∃ b0 ∈ s, b.data = b0.data := fun b hb => .inr ⟨b, hb, rfl⟩
  unfold step BytesBody.step
  cases hb : s[x.op.h]? with
  | none =>
    simp only [List.getElem?_map, hb, Option.map_none]
    exact .still _ _ _ _ _ _ (by simp) rfl same
  | some b =>
    simp only [List.getElem?_map, hb, Option.map_some]
    have hbm := List.mem_of_getElem? hb
    have hdv := hs b hbm
    have hlen : ((abs x.mem b).data.length : Int) = b.data.len := by simp only [abs]; rw [BMem.length_bytes _ _ hdv]
    have e1 : (abs x.mem b).offset = b.offset := rfl
    have e2 : (abs x.mem b).eof = b.eof := rfl
    have e3 : (abs x.mem b).closed = b.closed := rfl
    have e4 : (abs x.mem b).data = x.mem.bytes b.data := rfl
    cases hop : x.op with
    | read h k =>
      rw [hop] at hb
      rw [hx.read h k hop]
      simp only
      have hself : (s.set h b).map (abs x.mem) = (s.map (abs x.mem)).set h (abs x.mem b) := List.map_set
      unfold read BytesBody.read
      simp only [e1, e2, e3, hlen]
      by_cases hc : b.closed = true
      · simp only [hc, if_true]
        refine ⟨hself, ?_, fun hn => absurd rfl (hn _ _), mem_set_data s h b b hb (.inl rfl)⟩
        intro d e hd; simp only [Out.read.injEq] at hd; obtain ⟨rfl, rfl⟩ := hd
        exact ⟨rfl, Nat.zero_le _, (BMem.store_nil _ _).symm⟩
      simp only [hc, Bool.false_eq_true, if_false]
      by_cases he : b.eof = true
      · simp only [he, if_true]
        refine ⟨hself, ?_, fun hn => absurd rfl (hn _ _), mem_set_data s h b b hb (.inl rfl)⟩
        intro d e hd; simp only [Out.read.injEq] at hd; obtain ⟨rfl, rfl⟩ := hd
        exact ⟨rfl, Nat.zero_le _, (BMem.store_nil _ _).symm⟩
      simp only [he, Bool.false_eq_true, if_false]
      generalize heof : decide ((x.p.len : Int) > (b.data.len : Int) - b.offset) = eof
      have hn : (if eof = true then (b.data.len : Int) - b.offset else x.p.len) ≤ x.p.len ∧
          b.offset + (if eof = true then (b.data.len : Int) - b.offset else x.p.len) ≤ b.data.len := by
        cases eof with
        | true => have := of_decide_eq_true heof; simp only [if_true]; omega
        | false => have := of_decide_eq_false heof; simp only [Bool.false_eq_true, if_false]; omega
      generalize (if eof = true then (b.data.len : Int) - b.offset else x.p.len) = n at hn ⊢
      obtain ⟨c1, c2, c3⟩ := copy_ok x.mem x.p b.data n b.offset hx.valid hdv hn.1 hn.2
      rw [e4, ← c2]
      cases h1 : x.p.sub 0 n with
      | none =>
        rw [c1.1 h1]
        simp only
        exact .still _ _ _ _ _ _ (by simp) hself (mem_set_data s h b b hb (.inl rfl))
      | some dst =>
        cases h2 : goSlice (List.replicate x.p.len (0 : Byte)) 0 n with
        | none => rw [c1.2 h2] at h1; cases h1
        | some z =>
          cases h3 : b.data.sub b.offset (b.offset + n) with
          | none =>
            simp only [Option.map_none]
            exact .still _ _ _ _ _ _ (by simp) hself (mem_set_data s h b b hb (.inl rfl))
          | some src =>
            simp only [Option.map_some]
            obtain ⟨k1, k2⟩ := c3 dst src h1 h3
            rw [k2]
            refine ⟨?_, ?_, fun hn => absurd rfl (hn _ _), mem_set_data s h b _ hb (.inl rfl)⟩
            · rw [List.map_set]; rfl
            · intro d e hd; simp only [Out.read.injEq] at hd; obtain ⟨rfl, rfl⟩ := hd
              exact ⟨by rw [k1], by omega, rfl⟩
    | readAt h k off =>
      rw [hx.readAt h k off hop]
      simp only
      unfold readAt BytesBody.readAt
      simp only [e3, hlen]
      by_cases hc : b.closed = true
      · simp only [hc, if_true]
        refine ⟨rfl, ?_, fun hn => absurd rfl (hn _ _), same⟩
        intro d e hd; simp only [Out.read.injEq] at hd; obtain ⟨rfl, rfl⟩ := hd
        exact ⟨rfl, Nat.zero_le _, (BMem.store_nil _ _).symm⟩
      simp only [hc, Bool.false_eq_true, if_false]
      by_cases ho : off < 0
      · simp only [ho, if_true]
        refine ⟨rfl, ?_, fun hn => absurd rfl (hn _ _), same⟩
        intro d e hd; simp only [Out.read.injEq] at hd; obtain ⟨rfl, rfl⟩ := hd
        exact ⟨rfl, Nat.zero_le _, (BMem.store_nil _ _).symm⟩
      simp only [ho, if_false]
      generalize (if off > (b.data.len : Int) then (b.data.len : Int) else off) = i
      generalize heof : decide ((x.p.len : Int) > (b.data.len : Int) - i) = eof
      have hn : (if eof = true then (b.data.len : Int) - i else x.p.len) ≤ x.p.len ∧
          i + (if eof = true then (b.data.len : Int) - i else x.p.len) ≤ b.data.len := by
        cases eof with
        | true => have := of_decide_eq_true heof; simp only [if_true]; omega
        | false => have := of_decide_eq_false heof; simp only [Bool.false_eq_true, if_false]; omega
      generalize (if eof = true then (b.data.len : Int) - i else x.p.len) = n at hn ⊢
      obtain ⟨c1, c2, c3⟩ := copy_ok x.mem x.p b.data n i hx.valid hdv hn.1 hn.2
      rw [e4, ← c2]
      cases h1 : x.p.sub 0 n with
      | none =>
        rw [c1.1 h1]
        simp only
        exact .still _ _ _ _ _ _ (by simp) rfl same
      | some dst =>
        cases h2 : goSlice (List.replicate x.p.len (0 : Byte)) 0 n with
        | none => rw [c1.2 h2] at h1; cases h1
        | some z =>
          cases h3 : b.data.sub i (i + n) with
          | none =>
            simp only [Option.map_none]
            exact .still _ _ _ _ _ _ (by simp) rfl same
          | some src =>
            simp only [Option.map_some]
            obtain ⟨k1, k2⟩ := c3 dst src h1 h3
            rw [k2]
            refine ⟨rfl, ?_, fun hn => absurd rfl (hn _ _), same⟩
            intro d e hd; simp only [Out.read.injEq] at hd; obtain ⟨rfl, rfl⟩ := hd
            exact ⟨by rw [k1], by omega, rfl⟩
    | seek h off wh =>
      rw [hop] at hb
      simp only
      have key : abs x.mem (b.seek off wh).1 = ((abs x.mem b).seek off wh).1 ∧ (b.seek off wh).2 = ((abs x.mem b).seek off wh).2 ∧
          (∀ d e, (b.seek off wh).2 ≠ .read d e) ∧ (b.seek off wh).1.data = b.data := by
        unfold seek BytesBody.seek
        simp only [e1, e3, hlen]
        refine ⟨?_, ?_, ?_, ?_⟩
        · repeat' (first | rfl | split)
        · repeat' (first | rfl | split)
        · intro d e h; repeat' (first | (cases h; done) | split at h)
        · repeat' (first | rfl | split)
      rw [← key.2.1]
      exact .still _ _ _ _ _ _ key.2.2.1 (by rw [List.map_set, key.1]) (mem_set_data s h b _ hb (.inl key.2.2.2))
    | remaining h =>
      have key : (abs x.mem b).bytesRemaining = b.bytesRemaining := by
        unfold BytesBody.bytesRemaining bytesRemaining
        simp only [e1, e3, hlen]
      simp only [key]
      exact .still _ _ _ _ _ _ (by simp) rfl same
    | writeTo h f =>
      rw [hop] at hb
      simp only
      have key : abs x.mem (b.writeTo x.mem f).1 = ((abs x.mem b).writeTo f).1 ∧ (b.writeTo x.mem f).2.1 = ((abs x.mem b).writeTo f).2 ∧
          (∀ d e, (b.writeTo x.mem f).2.1 ≠ .read d e) ∧ (b.writeTo x.mem f).1.data = b.data := by
        unfold writeTo BytesBody.writeTo
        simp only [e1, e2, e3, hlen]
        by_cases hc : b.closed = true
        · simp [hc]
        by_cases he : b.eof = true
        · simp [hc, he]
        simp only [hc, he, Bool.false_eq_true, if_false]
        rw [e4, BMem.sub_bytes _ _ _ _ hdv (Int.le_refl _)]
        cases b.data.sub b.offset b.data.len with
        | none => simp
        | some t =>
          simp only [Option.map_some]
          rcases f (x.mem.bytes t) with ⟨n, err⟩ | p
          · refine ⟨?_, ?_, ?_, ?_⟩
            · dsimp only; repeat' (first | rfl | split)
            · dsimp only; repeat' (first | rfl | split)
            · intro d e h; dsimp only at h; repeat' (first | (cases h; done) | split at h)
            · dsimp only; repeat' (first | rfl | split)
          · exact ⟨rfl, rfl, by simp, rfl⟩
      rw [← key.2.1]
      exact .still _ _ _ _ _ _ key.2.2.1 (by rw [List.map_set, key.1]) (mem_set_data s h b _ hb (.inl key.2.2.2))
    | copy h =>
      simp only [e3]
      by_cases hc : b.closed = true
      · simp only [hc, if_true]
        exact .still _ _ _ _ _ _ (by simp) rfl same
      · simp only [hc, Bool.false_eq_true, if_false, List.length_map]
        refine .still _ _ _ _ _ _ (by simp) (by simp [dupe, BytesBody.dupe, abs]) ?_
        intro c hc
        rcases List.mem_append.1 hc with h1 | h1
        · exact same c h1
        · rw [List.mem_singleton] at h1
          exact .inr ⟨b, hbm, by rw [h1]; rfl⟩
    | close h =>
      rw [hop] at hb
      simp only
      have key : abs x.mem (b.close).1 = ((abs x.mem b).close).1 ∧ (b.close).2 = ((abs x.mem b).close).2 ∧
          (∀ d e, (b.close).2 ≠ .read d e) ∧ ((b.close).1.data = b.data ∨ (b.close).1.data = .nil) := by
        unfold close BytesBody.close
        simp only [e3]
        by_cases hc : b.closed = true
        · simp [hc]
        · simp [hc, abs, BMem.bytes_nil]
      rw [← key.2.1]
      exact .still _ _ _ _ _ _ key.2.2.1 (by rw [List.map_set, key.1]) (mem_set_data s h b _ hb key.2.2.2)
    | unwrap h => exact .still _ _ _ _ _ _ (by simp) rfl same

end SBytesBody
end Verif
