import Verif.Spec.Memory
import Verif.Proofs.SliceBuf
import Verif.Proofs.SlicePos
import Verif.Proofs.SliceBytes
import Verif.Props.Buffered
import Verif.Props.Positional

/-!
# Memory (C54)

Bodies touch no memory of their callers but the part of the slice passed that the returned number covers; and what is in the memory does not matter for what
they return.
-/

set_option autoImplicit false

namespace Verif
variable {σ : Type}

/-! ## Stream-backed bodies -/

/-- The calls are ones that a client can make: it does not have the arrays of the family, so it cannot change them or pass them. -/
def SBufSys.LegalRun (R : Rdr σ) (w : Scratch σ) (fuel : Nat) : SBufSys σ → List MCall → Prop
  | _, [] => True
  | s, x :: xs => s.Legal x ∧ x.op.Small ∧ LegalRun R w fuel (s.step R w fuel x).1 xs

theorem SameOut_seen (m : BMem) (p : BSlice) (o : MOut) (q : Out) (h : SBufSys.SameOut m p o q) :
    o.seen m p = q ∧ (∀ n e, o = .read n e → n = (q.delivered.length : Int)) := by
  cases o with
  | read n e =>
    cases q with
    | read d e' =>
      obtain ⟨rfl, rfl, -, h4⟩ := h
      refine ⟨by simp only [MOut.seen, Int.toNat_natCast, h4], ?_⟩
      intro n e' he
      injection he with h1 h2
      rw [← h1]; rfl
    | _ => exact absurd h (by simp [SBufSys.SameOut])
  | other o =>
    refine ⟨?_, by intro n e h; cases h⟩
    cases o <;> simp_all [SBufSys.SameOut, MOut.seen]

/-- One call. -/
theorem SBufSys.step_real (R : Rdr σ) [R.CloseOk] (w : Scratch σ) (fuel : Nat) (L : Int) (s : SBufSys σ) (hi : s.Inv) (hr : s.Real L) (x : MCall)
    (hx : s.Legal x) (hs : x.op.Small) :
    (s.step R w fuel x).1.Inv ∧ (s.step R w fuel x).1.Real L ∧ (s.step R w fuel x).1.abs = (s.abs.step R fuel x.op).1 ∧
    TouchesOnly s.own x (s.step R w fuel x).1.mem (s.step R w fuel x).2 (s.abs.step R fuel x.op).2 ∧
    (∀ a ∈ s.own, a ∈ (s.step R w fuel x).1.own) ∧ (∀ a ∈ (s.step R w fuel x).1.own, a ∉ s.own → x.mem.length ≤ a) := by
  have key := step_abs R w fuel s x hi hx (fun h k b hop hb hc => real_small hi hr h k b hb hc (by rw [hop] at hs; exact hs))
  obtain ⟨d, d1, d2, d3, d4⟩ := key.frame
  have hnl := real_not_late R fuel hr x.op hs
  obtain ⟨s1, s2⟩ := SameOut_seen _ _ _ _ key.out
  have hd : d = (s.abs.step R fuel x.op).2.delivered := by
    cases hq : (s.abs.step R fuel x.op).2 with
    | read d' e => exact d3 d' e hq
    | _ => exact d4 (by intro d' e; rw [hq]; simp) hnl
  refine ⟨key.inv, ?_, key.abs, ⟨s1, s2, hd ▸ d1, key.length, hd ▸ d2⟩, key.kept, key.fresh⟩
  obtain ⟨t, hw, ht⟩ := hr
  obtain ⟨ext, S⟩ := buf_step R fuel L t hw x.op hs
  exact ⟨_, S.inv, by rw [key.abs, ht, step_erase]⟩

theorem SBufSys.init_real (m : BMem) (st : σ) (L : Int) : (SBufSys.init m st L).Inv ∧ (SBufSys.init m st L).Real L :=
  ⟨⟨BSlice.nil_valid _, .inl rfl, (fun a ha => nomatch ha), Int.le_refl _⟩, BufSys.init ⟨st, []⟩ L, init_winv st L, rfl⟩

theorem SBufSys.run_real (R : Rdr σ) [R.CloseOk] (w : Scratch σ) (fuel : Nat) (L : Int) (xs : List MCall) : ∀ (s : SBufSys σ), s.Inv → s.Real L →
    s.LegalRun R w fuel xs →
    (run (SBufSys.step R w fuel) s xs).1.Inv ∧ (run (SBufSys.step R w fuel) s xs).1.Real L ∧
    (run (SBufSys.step R w fuel) s xs).1.abs = (run (BufSys.step R fuel) s.abs (xs.map MCall.op)).1 := by
  induction xs with
  | nil => intro s hi hr _; exact ⟨hi, hr, rfl⟩
  | cons x xs ih =>
    intro s hi hr hl
    obtain ⟨h1, h2, h3, -⟩ := step_real R w fuel L s hi hr x hl.1 hl.2.1
    have := ih _ h1 h2 hl.2.2
    rw [run_cons, List.map_cons, run_cons]
    rw [h3] at this
    exact this

theorem SBufSys.legalRun_append (R : Rdr σ) (w : Scratch σ) (fuel : Nat) (xs ys : List MCall) : ∀ s : SBufSys σ, s.LegalRun R w fuel (xs ++ ys) →
    s.LegalRun R w fuel xs ∧ (run (SBufSys.step R w fuel) s xs).1.LegalRun R w fuel ys := by
  induction xs with
  | nil => intro s h; exact ⟨trivial, h⟩
  | cons x xs ih =>
    intro s h
    obtain ⟨h1, h2, h3⟩ := h
    obtain ⟨h4, h5⟩ := ih _ h3
    rw [run_cons]
    exact ⟨⟨h1, h2, h4⟩, h5⟩

/-- **C54.**  After any history, any call on a stream-backed Body returns what it returns in the model where slices are lists, and changes no memory of the
caller except the bytes that it delivers at the front of the slice passed.  This is so however the Reader uses the slices it is handed (`w`), whatever the
client does to its own memory between calls, and whether the call succeeds, fails, panics or hangs. -/
theorem C54_buffered (R : Rdr σ) [R.CloseOk] (w : Scratch σ) (fuel : Nat) (m : BMem) (st : σ) (L : Int) (xs : List MCall) (x : MCall)
    (hl : (SBufSys.init m st L).LegalRun R w fuel (xs ++ [x])) :
    TouchesOnly (run (SBufSys.step R w fuel) (SBufSys.init m st L) xs).1.own x
      ((run (SBufSys.step R w fuel) (SBufSys.init m st L) xs).1.step R w fuel x).1.mem
      ((run (SBufSys.step R w fuel) (SBufSys.init m st L) xs).1.step R w fuel x).2
      ((run (BufSys.step R fuel) (BufSys.init st L) (xs.map MCall.op)).1.step R fuel x.op).2 := by
  obtain ⟨l1, l2⟩ := SBufSys.legalRun_append R w fuel xs [x] _ hl
  obtain ⟨i1, i2⟩ := SBufSys.init_real m st L
  obtain ⟨h1, h2, h3⟩ := SBufSys.run_real R w fuel L xs _ i1 i2 l1
  obtain ⟨-, -, -, h4, -⟩ := SBufSys.step_real R w fuel L _ h1 h2 x l2.1 l2.2.1
  rw [h3] at h4
  exact h4

/-- The arrays that the family has for itself are new ones: it never keeps a slice that a caller passed. -/
theorem C54_keeps_nothing (R : Rdr σ) [R.CloseOk] (w : Scratch σ) (fuel : Nat) (m : BMem) (st : σ) (L : Int) (xs : List MCall) (x : MCall)
    (hl : (SBufSys.init m st L).LegalRun R w fuel (xs ++ [x])) :
    (SBufSys.init m st L).own = [] ∧
    ∀ a ∈ ((run (SBufSys.step R w fuel) (SBufSys.init m st L) xs).1.step R w fuel x).1.own,
      a ∈ (run (SBufSys.step R w fuel) (SBufSys.init m st L) xs).1.own ∨ x.mem.length ≤ a := by
  obtain ⟨l1, l2⟩ := SBufSys.legalRun_append R w fuel xs [x] _ hl
  obtain ⟨i1, i2⟩ := SBufSys.init_real m st L
  obtain ⟨h1, h2, h3⟩ := SBufSys.run_real R w fuel L xs _ i1 i2 l1
  obtain ⟨-, -, -, -, -, h4⟩ := SBufSys.step_real R w fuel L _ h1 h2 x l2.1 l2.2.1
  refine ⟨rfl, fun a ha => ?_⟩
  by_cases h : a ∈ (run (SBufSys.step R w fuel) (SBufSys.init m st L) xs).1.own
  · exact .inl h
  · exact .inr (h4 a ha h)

/-- A Reader that fills the rest of what it is handed with 99s, a client with two arrays that reads 3 of 5 bytes into the middle of the second one, and a
copy that reads the same bytes from the buffer.  The family's own arrays are the third (a buffer of 4 KiB or less) and so on. -/
example :
    let w : Scratch (List RResp) := fun _ l => List.replicate l.length 99
    let s := (SBufSys.init [[7, 7], [1, 2, 3, 4, 5, 6]] [.got [10, 11, 12] none, .got [13, 14] (some .eof)] (-1) : SBufSys (List RResp))
    let a := (s.step (scripted true) w 10 ⟨s.mem, .copy 0, .nil⟩).1
    let b := a.step (scripted true) w 10 ⟨a.mem, .read 0 3, ⟨1, 1, 3, 5⟩⟩
    let c := b.1.step (scripted true) w 10 ⟨b.1.mem, .read 1 1, ⟨0, 0, 1, 2⟩⟩
    b.2 = .read 3 none ∧ b.1.mem.take 2 = [[7, 7], [1, 10, 11, 12, 5, 6]] ∧
    c.2 = .read 1 none ∧ c.1.mem.take 2 = [[10, 7], [1, 10, 11, 12, 5, 6]] ∧ (∀ i ∈ c.1.own, 2 ≤ i) ∧ c.1.own ≠ [] := by
  decide +kernel

/-! ## Bodies over a ReaderAt or a Seeker -/

/-- **C54.**  In every state, a call on a Body over a ReaderAt does and returns what it does in the model where slices are lists; of the caller's memory it
changes only what is inside the slice passed; and if the Reader leaves alone what it does not fill, only the bytes that the number covers. -/
theorem C54_readerAt (R : Rdr σ) (w : Scratch σ) (s : PosSys σ) (x : MCall) (hx : x.Ok) :
    (ReaderAtBody.stepInto R w s x).2.1 = (ReaderAtBody.step R s x.op).1 ∧
    TouchesWithin x (ReaderAtBody.stepInto R w s x).1 (ReaderAtBody.stepInto R w s x).2.2 (ReaderAtBody.step R s x.op).2 ∧
    (w.Quiet → (∀ y, (ReaderAtBody.step R s x.op).2 ≠ .panic y) →
      TouchesOnly [] x (ReaderAtBody.stepInto R w s x).1 (ReaderAtBody.stepInto R w s x).2.2 (ReaderAtBody.step R s x.op).2) :=
  ⟨(ReaderAtBody.step_into R w s x hx).sys, CallOK.touches _ x hx.valid _ _ (ReaderAtBody.step_into R w s x hx)⟩

/-- **C54**, for Bodies over a Seeker. -/
theorem C54_seeker (R : Rdr σ) (w : Scratch σ) (s : PosSys σ) (x : MCall) (hx : x.Ok) :
    (SeekerBody.stepInto R w s x).2.1 = (SeekerBody.step R s x.op).1 ∧
    TouchesWithin x (SeekerBody.stepInto R w s x).1 (SeekerBody.stepInto R w s x).2.2 (SeekerBody.step R s x.op).2 ∧
    (w.Quiet → (∀ y, (SeekerBody.step R s x.op).2 ≠ .panic y) →
      TouchesOnly [] x (SeekerBody.stepInto R w s x).1 (SeekerBody.stepInto R w s x).2.2 (SeekerBody.step R s x.op).2) :=
  ⟨(SeekerBody.step_into R w s x hx).sys, CallOK.touches _ x hx.valid _ _ (SeekerBody.step_into R w s x hx)⟩

/-- A slice of 4 bytes and 3 bytes of content from there on: 3 are delivered, and a Reader that scribbles cannot reach the fourth, since it is lent only the
part of the slice that the content can fill. -/
example :
    let w : Scratch Nat := fun _ l => List.replicate l.length 99
    let r := ReaderAtBody.stepInto (fileRdr [1, 2, 3, 4, 5]) w (ReaderAtBody.init 0 5) ⟨[[0, 0, 0, 0, 0, 0]], .readAt 0 4 2, ⟨0, 1, 4, 5⟩⟩
    r.1 = [[0, 3, 4, 5, 0, 0]] ∧ r.2.2 = .read 3 (some .eof) := by
  decide +kernel

/-- The same Reader, with less content than it was said to have: now the rest is not as it was, but still inside the slice. -/
example :
    let w : Scratch Nat := fun _ l => List.replicate l.length 99
    let r := ReaderAtBody.stepInto (fileRdr [1, 2, 3, 4, 5]) w (ReaderAtBody.init 0 100) ⟨[[0, 0, 0, 0, 0, 0]], .readAt 0 4 2, ⟨0, 1, 4, 5⟩⟩
    r.1 = [[0, 3, 4, 5, 99, 0]] ∧ r.2.2 = .read 3 (some .eof) := by
  decide +kernel

/-! ## Bodies over byte slices -/

/-- **C54.**  In every state, and whatever the bytes behind the Bodies are by now, a call on a Body made by `FromBytes` (or on a copy) does and returns what it
does in the model where slices are lists, for the bytes that are there when the call is made; and it changes only the bytes that it delivers.  The slice
passed may be anywhere, also inside the data. -/
theorem C54_bytes (s : List SBytesBody) (x : MCall) (hx : x.Ok) (hs : ∀ b ∈ s, b.data.Valid x.mem) :
    (SBytesBody.step s x).2.1.map (SBytesBody.abs x.mem) = (BytesBody.step (s.map (SBytesBody.abs x.mem)) x.op).1 ∧
    TouchesOnly [] x (SBytesBody.step s x).1 (SBytesBody.step s x).2.2 (BytesBody.step (s.map (SBytesBody.abs x.mem)) x.op).2 := by
  have h := SBytesBody.step_bytes s x hx hs
  refine ⟨h.heap, ?_⟩
  cases hq : (BytesBody.step (s.map (SBytesBody.abs x.mem)) x.op).2 with
  | read d e =>
    obtain ⟨h1, h2, h3⟩ := h.read d e hq
    rw [h1, h3]
    refine ⟨?_, ?_, h2, by rw [BMem.length_store]; exact Nat.le_refl _, fun _ _ _ => rfl⟩
    · simp only [MOut.seen, Int.toNat_natCast, BMem.bytes_store_take x.mem x.p d hx.valid h2]
    · intro n e' he
      injection he with h4 _
      rw [← h4]; rfl
  | _ =>
    obtain ⟨h1, h2⟩ := h.other (by intro d e; rw [hq]; simp)
    rw [h1, h2, hq]
    exact ⟨rfl, (by intro n e h; cases h), Nat.zero_le _, Nat.le_refl _, fun a _ _ => by
      show x.mem[a]? = (x.mem.store x.p [])[a]?
      rw [BMem.store_nil]⟩

/-- One call, and then what is there for the next one. -/
def SBytesBody.next (s : List SBytesBody) (x : MCall) : List SBytesBody × (BMem × MOut) := ((step s x).2.1, (step s x).1, (step s x).2.2)

/-- No call makes a copy of the bytes: a Body has the slice that `FromBytes` got, or, once closed, none. -/
theorem C54_shares (data : BSlice) (xs : List MCall) (hx : ∀ x ∈ xs, x.Ok ∧ data.Valid x.mem) :
    ∀ b ∈ (run SBytesBody.next (SBytesBody.init data) xs).1, b.data = data ∨ b.data = .nil := by
  have key : ∀ (xs : List MCall) (s : List SBytesBody), (∀ x ∈ xs, x.Ok ∧ data.Valid x.mem) → (∀ b ∈ s, b.data = data ∨ b.data = .nil) →
      ∀ b ∈ (run SBytesBody.next s xs).1, b.data = data ∨ b.data = .nil := by
    intro xs
    induction xs with
    | nil => intro s _ hs; exact hs
    | cons x xs ih =>
      intro s hx hs
      rw [run_cons]
      refine ih _ (fun y hy => hx y (List.mem_cons_of_mem _ hy)) ?_
      obtain ⟨x1, x2⟩ := hx x List.mem_cons_self
      have hv : ∀ b ∈ s, b.data.Valid x.mem := by
        intro b hb
        rcases hs b hb with h | h <;> rw [h]
        · exact x2
        · exact BSlice.nil_valid _
      intro b hb
      rcases (SBytesBody.step_bytes s x x1 hv).slices b hb with h | ⟨b0, h1, h2⟩
      · exact .inr h
      · rw [h2]; exact hs b0 h1
  exact key xs _ hx (by intro b hb; rw [SBytesBody.init, List.mem_singleton] at hb; rw [hb]; exact .inl rfl)

/-- The slice that `WriteTo` hands to the Writer is a part of the slice that `FromBytes` got, namely what the Body has not been read yet of it. -/
theorem C54_lends (m : BMem) (b : SBytesBody) (f : WriteFn) (d : BSlice) (h : (b.writeTo m f).2.2 = some d) :
    d.arr = b.data.arr ∧ (d.off : Int) = b.data.off + b.offset ∧ (d.off + d.len : Int) = b.data.off + b.data.len ∧ d.off + d.cap = b.data.off + b.data.cap := by
  unfold SBytesBody.writeTo at h
  split at h
  · cases h
  split at h
  · cases h
  simp only at h
  split at h
  · cases h
  rename_i t ht
  have hd : t = d := by
    repeat' (first | (injection h; done) | split at h)
  subst hd
  unfold BSlice.sub at ht
  split at ht
  · rename_i hc
    injection ht with ht
    subst ht
    exact ⟨rfl, by simp only; omega, by simp only; omega, by simp only; omega⟩
  · cases ht

/-- **C54.**  As long as the client leaves the bytes that it gave to `FromBytes` as they are, the Body and its copies behave, in any history, as in the model
where slices are lists. -/
theorem C54_as_lists (data : BSlice) (C : List Byte) (xs : List MCall) (hx : ∀ x ∈ xs, x.Ok ∧ data.Valid x.mem ∧ x.mem.bytes data = C) :
    ((run SBytesBody.next (SBytesBody.init data) xs).2.zip xs).map (fun o => o.1.2.seen o.1.1 o.2.p) =
      (run BytesBody.step [{ data := C }] (xs.map MCall.op)).2 := by
  have key : ∀ (xs : List MCall) (s : List SBytesBody) (t : List BytesBody), (∀ x ∈ xs, x.Ok ∧ data.Valid x.mem ∧ x.mem.bytes data = C) →
      (∀ b ∈ s, b.data = data ∨ b.data = .nil) → (∀ m : BMem, m.bytes data = C → s.map (SBytesBody.abs m) = t) →
      ((run SBytesBody.next s xs).2.zip xs).map (fun o => o.1.2.seen o.1.1 o.2.p) = (run BytesBody.step t (xs.map MCall.op)).2 := by
    intro xs
    induction xs with
    | nil => intro s t _ _ _; rfl
    | cons x xs ih =>
      intro s t hx hs ht
      obtain ⟨x1, x2, x3⟩ := hx x List.mem_cons_self
      have hv : ∀ b ∈ s, b.data.Valid x.mem := by
        intro b hb
        rcases hs b hb with h | h <;> rw [h]
        · exact x2
        · exact BSlice.nil_valid _
      have hs' : ∀ b ∈ (SBytesBody.next s x).1, b.data = data ∨ b.data = .nil := by
        intro b hb
        rcases (SBytesBody.step_bytes s x x1 hv).slices b hb with h | ⟨b0, h1, h2⟩
        · exact .inr h
        · rw [h2]; exact hs b0 h1
      obtain ⟨k1, k2⟩ := C54_bytes s x x1 hv
      rw [ht _ x3] at k1 k2
      rw [run_cons, List.map_cons, run_cons]
      simp only [List.zip_cons_cons, List.map_cons]
      have k3 := k2.seen
      refine List.cons_eq_cons.2 ⟨k3, ih _ _ (fun y hy => hx y (List.mem_cons_of_mem _ hy)) hs' ?_⟩
      intro m hm
      rw [← k1]
      refine List.map_congr_left (fun b hb => ?_)
      simp only [SBytesBody.abs, BytesBody.mk.injEq, and_true]
      rcases hs' b hb with h | h <;> rw [h]
      · rw [hm, x3]
      · rw [BMem.bytes_nil, BMem.bytes_nil]
  refine key xs _ _ hx (by intro b hb; rw [SBytesBody.init, List.mem_singleton] at hb; rw [hb]; exact .inl rfl) ?_
  intro m hm
  simp [SBytesBody.init, SBytesBody.abs, hm]

/-- Two bytes read into the middle of an array. -/
example :
    let s := SBytesBody.init ⟨0, 1, 3, 4⟩
    let a := SBytesBody.next s ⟨[[9, 1, 2, 3, 9], [0, 0, 0, 0]], .read 0 2, ⟨1, 1, 2, 3⟩⟩
    a.2.1 = [[9, 1, 2, 3, 9], [0, 1, 2, 0]] ∧ a.2.2 = .read 2 none := by
  decide +kernel

/-- `FromBytes` does not copy: what the client later writes to its slice is what is read, also from copies. -/
example :
    let s := (SBytesBody.next (SBytesBody.init ⟨0, 0, 3, 3⟩) ⟨[[1, 2, 3], [0, 0]], .copy 0, .nil⟩).1
    let a := SBytesBody.next s ⟨[[5, 6, 3], [0, 0]], .read 1 2, ⟨1, 0, 2, 2⟩⟩
    a.2.1 = [[5, 6, 3], [5, 6]] ∧ a.2.2 = .read 2 none := by
  decide +kernel

/-- Reading a Body into its own bytes: the call returns the bytes that were there, and a copy reads the new ones. -/
example :
    let s := (SBytesBody.next (SBytesBody.init ⟨0, 0, 4, 4⟩) ⟨[[1, 2, 3, 4]], .copy 0, .nil⟩).1
    let a := SBytesBody.next s ⟨[[1, 2, 3, 4]], .read 0 3, ⟨0, 1, 3, 3⟩⟩
    let b := SBytesBody.next a.1 ⟨a.2.1 ++ [[0, 0, 0, 0, 0]], .read 1 5, ⟨1, 0, 5, 5⟩⟩
    a.2.1 = [[1, 1, 2, 3]] ∧ a.2.2 = .read 3 none ∧ b.2.1 = [[1, 1, 2, 3], [1, 1, 2, 3, 0]] ∧ b.2.2 = .read 4 (some .eof) := by
  decide +kernel

end Verif
