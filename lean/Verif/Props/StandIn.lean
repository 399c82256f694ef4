import Verif.Model.Mock
import Verif.Proofs.Morph

/-!
# C53: a MockReader can stand in for a Reader

Record the calls that a Body makes on some Reader, script a MockReader with them, and nobody can tell the difference.
-/

set_option autoImplicit false

namespace Verif
variable {σ : Type}

/-- Building a Body from a Reader, and using it (and its copies): the Reader afterwards, and what was observed. -/
def Rdr.play (R : Rdr σ) (fuel : Nat) (st : σ) (length : Int) (ops : List Op) : σ × Res (Except Err (List Out)) :=
  let r := fromReaderAndLength R st length
  match r.2 with
  | .panic p => (r.1, .panic p)
  | .hang => (r.1, .hang)
  | .ret (.error e) => (r.1, .ret (.error e))
  | .ret (.ok s) => let q := run (ReaderFam.step R fuel) s ops; (q.1.rdr, .ret (.ok q.2))

/-- The expectation that scripts a recorded call (a `Stat` that failed without a size returned no `FileInfo`; a negative count, which
`ExpectRead` refuses, takes an `Expectation` written inside the package, whose fields are not exported); none for answers that cannot be scripted (panics, and counts above `len(p)`). -/
def Call.exp : Call → Option Expectation
  | .read n (.got d e) =>
    match Expectation.read { len := n, at_ := fun i => d[i]?.getD 0 } d.length e with
    | .ret x => some x
    | _ => none
  | .read n .negative => some { op := .read, input0 := { len := n }, output0 := -1, hasOutput := true }
  | .readAt n off .negative => some { op := .readAt, input0 := { len := n }, input1 := off, output0 := -1, hasOutput := true }
  | .readAt n off (.got d e) =>
    match Expectation.readAt { len := n, at_ := fun i => d[i]?.getD 0 } off d.length e with
    | .ret x => some x
    | _ => none
  | .seek off wh (.ok (m, e)) => some (.seek off wh m e)
  | .stat (.ok (m, some e)) => some (.stat (if m = 0 then none else some { size := m }) (some e))
  | .stat (.ok (m, none)) => some (.stat (some { size := m }) none)
  | .close (.ok e) => some (.close e)
  | _ => none

/-- Which answers those are. -/
theorem C53_scriptable (c : Call) :
    c.exp = none ↔
      match c with
      | .read n (.got d _) => d.length > n
      | .readAt n _ (.got d _) => d.length > n
      | .read _ .negative | .readAt _ _ .negative | .seek _ _ (.ok _) | .stat (.ok _) | .close (.ok _) => False
      | _ => True := by
  cases c with
  | read n r =>
    cases r with
    | got d e => by_cases h : d.length ≤ n <;> simp [Call.exp, Expectation.read, h]; omega
    | _ => simp [Call.exp]
  | readAt n off r =>
    cases r with
    | got d e => by_cases h : d.length ≤ n <;> simp [Call.exp, Expectation.readAt, h]; omega
    | _ => simp [Call.exp]
  | seek off wh r => rcases r with ⟨m, e⟩ | p <;> simp [Call.exp]
  | stat r => rcases r with ⟨m, _ | e⟩ | p <;> simp [Call.exp]
  | close r => rcases r with e | p <;> simp [Call.exp]

theorem play_morph {τ : Type} {R₁ : Rdr σ} {R₂ : Rdr τ} {f : σ → τ} {P : σ → Prop} (M : R₁.Morph R₂ f P) (fuel : Nat) (st : σ) (n : Int) (ops : List Op)
    (hP : P (R₁.play fuel st n ops).1) : R₂.play fuel (f st) n ops = (f (R₁.play fuel st n ops).1, (R₁.play fuel st n ops).2) := by
  unfold Rdr.play at hP ⊢
  have key := fromReaderAndLength_morph M st n
  have hst : ∀ s, (fromReaderAndLength R₁ st n).2 = .ret (.ok s) → s.rdr = (fromReaderAndLength R₁ st n).1 := by
    intro s hs
    unfold fromReaderAndLength at hs ⊢
    rcases hm : measure R₁ st n with ⟨s', ⟨e | m⟩ | p | _⟩ <;> rw [hm] at hs <;> dsimp only at hs ⊢
    · simp at hs
    · by_cases h1 : (R₁.isReaderAt && decide (m ≥ 0)) = true
      · simp only [if_pos h1] at hs ⊢
        simp only [Res.ret.injEq, Except.ok.injEq] at hs; subst hs; rfl
      · simp only [if_neg h1] at hs ⊢
        by_cases h2 : (R₁.isSeeker && decide (m ≥ 0)) = true
        · simp only [if_pos h2] at hs ⊢
          simp only [Res.ret.injEq, Except.ok.injEq] at hs; subst hs; rfl
        · simp only [if_neg h2] at hs ⊢
          simp only [Res.ret.injEq, Except.ok.injEq] at hs; subst hs; rfl
    · simp at hs
    · simp at hs
  rcases hr : fromReaderAndLength R₁ st n with ⟨s', ⟨e | s⟩ | p | _⟩ <;> rw [hr] at hP key <;> dsimp only at hP key ⊢
  · rw [(key hP).2]
  · obtain ⟨h1, h2⟩ := fam_run_morph M fuel ops s hP
    have := hst s (by rw [hr])
    rw [hr] at this
    rw [this] at h1
    rw [(key h1).2]
    dsimp only
    rw [h2]
    refine congrArg (·, _) ?_
    cases (run (ReaderFam.step R₁ fuel) s ops).1 <;> rfl
  · rw [(key hP).2]
  · rw [(key hP).2]

/-- **C53.** Keeping a record of the calls changes nothing. -/
theorem C53_record (R : Rdr σ) (fuel : Nat) (st : σ) (n : Int) (ops : List Op) :
    (R.record.play fuel ⟨st, []⟩ n ops).1.inner = (R.play fuel st n ops).1 ∧
    (R.record.play fuel ⟨st, []⟩ n ops).2 = (R.play fuel st n ops).2 := by
  have M : R.record.Morph R Rec.inner (fun _ => True) :=
    { read := fun _ _ _ => ⟨trivial, rfl⟩, readAt := fun _ _ _ _ => ⟨trivial, rfl⟩, seek := fun _ _ _ _ => ⟨trivial, rfl⟩,
      stat := fun _ _ => ⟨trivial, rfl⟩, close := fun _ _ => ⟨trivial, rfl⟩, isReaderAt := rfl, isSeeker := rfl, isFile := rfl, isCloser := rfl }
  have := play_morph M fuel ⟨st, []⟩ n ops trivial
  simp only at this
  rw [this]
  exact ⟨rfl, rfl⟩

theorem Buf.take_of_list (d : List Byte) (n : Nat) : (Buf.take { len := n, at_ := fun i => d[i]?.getD 0 } d.length) = d := by
  unfold Buf.take
  apply List.ext_getElem?
  intro i
  by_cases h : i < d.length <;> simp [h]

/-- The MockReader follows the recording. -/
theorem mock_morph (R : Rdr σ) (hc : R.isCloser = true) (F : List Call) (es : List Expectation) (hF : F.map Call.exp = es.map some) :
    R.record.Morph (wrapper R.isFile R.isSeeker R.isReaderAt) (fun s => some ⟨es, s.log.length⟩) (fun s => s.log <+: F) := by
  have cut : ∀ (l : List Call) (c : Call), l ++ [c] <+: F → l <+: F ∧
      ∃ e, c.exp = some e ∧ MockPtr.next (some ⟨es, l.length⟩) = (some ⟨es, l.length + 1⟩, l.length, e) := by
    intro l c h
    refine ⟨(List.prefix_append l [c]).trans h, ?_⟩
    obtain ⟨t, rfl⟩ := h
    have h1 : (es.map some)[l.length]? = some c.exp := by rw [← hF]; simp
    rw [List.getElem?_map] at h1
    cases he : es[l.length]? with
    | none => rw [he] at h1; simp at h1
    | some e =>
      rw [he] at h1
      simp only [Option.map_some, Option.some.injEq] at h1
      refine ⟨e, h1.symm, ?_⟩
      have hlt : ¬ l.length ≥ es.length := by
        intro hge; rw [List.getElem?_eq_none hge] at he; simp at he
      simp only [MockPtr.next, if_neg hlt, he]; rfl
  constructor
  · intro s n h
    obtain ⟨h1, e, h2, h3⟩ := cut _ _ h
    refine ⟨h1, ?_⟩
    simp only [wrapper, MockPtr.read, h3, Rdr.record, List.length_append, List.length_singleton]
    rcases hr : R.read s.inner n with ⟨s', ⟨d, er⟩ | _ | p⟩ <;> rw [hr] at h2 <;> simp only [Call.exp, reduceCtorEq] at h2
    · by_cases hl : d.length ≤ n
      · simp [Expectation.read, hl] at h2
        subst h2
        by_cases h0 : d.length = 0
        · have : d = [] := List.eq_nil_of_length_eq_zero h0
          subst this
          simp [Expectation.isMatch, MockPtr.deliver, MRes.toRead]
        · have h0' : 0 < d.length := by omega
          simp [Expectation.isMatch, MockPtr.deliver, MRes.toRead, h0', hl, Buf.take_of_list]
      · simp [Expectation.read, hl] at h2
    · simp only [Option.some.injEq] at h2
      subst h2
      simp [Expectation.isMatch, MockPtr.deliver, MRes.toRead]
  · intro s n off h
    obtain ⟨h1, e, h2, h3⟩ := cut _ _ h
    refine ⟨h1, ?_⟩
    simp only [wrapper, MockPtr.readAt, h3, Rdr.record, List.length_append, List.length_singleton]
    rcases hr : R.readAt s.inner n off with ⟨s', ⟨d, er⟩ | _ | p⟩ <;> rw [hr] at h2 <;> simp only [Call.exp, reduceCtorEq] at h2
    · by_cases hl : d.length ≤ n
      · simp [Expectation.readAt, hl] at h2
        subst h2
        by_cases h0 : d.length = 0
        · have : d = [] := List.eq_nil_of_length_eq_zero h0
          subst this
          simp [Expectation.isMatch, MockPtr.deliver, MRes.toRead]
        · have h0' : 0 < d.length := by omega
          simp [Expectation.isMatch, MockPtr.deliver, MRes.toRead, h0', hl, Buf.take_of_list]
      · simp [Expectation.readAt, hl] at h2
    · simp only [Option.some.injEq] at h2
      subst h2
      simp [Expectation.isMatch, MockPtr.deliver, MRes.toRead]
  · intro s off wh h
    obtain ⟨h1, e, h2, h3⟩ := cut _ _ h
    refine ⟨h1, ?_⟩
    simp only [wrapper, MockPtr.seek, h3, Rdr.record, List.length_append, List.length_singleton]
    rcases hr : R.seek s.inner off wh with ⟨s', ⟨m, er⟩ | p⟩ <;> rw [hr] at h2 <;> simp [Call.exp] at h2
    subst h2
    simp [Expectation.isMatch, Expectation.seek, MRes.toX]
  · intro s h
    obtain ⟨h1, e, h2, h3⟩ := cut _ _ h
    refine ⟨h1, ?_⟩
    simp only [wrapper, MockPtr.stat, h3, Rdr.record, List.length_append, List.length_singleton]
    rcases hr : R.stat s.inner with ⟨s', ⟨m, _ | er⟩ | p⟩ <;> rw [hr] at h2 <;> simp [Call.exp] at h2
    · subst h2
      simp [Expectation.isMatch, Expectation.stat, MRes.toStat]
    · subst h2
      by_cases hm : m = 0 <;> simp [Expectation.isMatch, Expectation.stat, MRes.toStat, hm]
  · intro s h
    obtain ⟨h1, e, h2, h3⟩ := cut _ _ h
    refine ⟨h1, ?_⟩
    simp only [wrapper, MockPtr.close, h3, Rdr.record, List.length_append, List.length_singleton]
    rcases hr : R.close s.inner with ⟨s', er | p⟩ <;> rw [hr] at h2 <;> simp [Call.exp] at h2
    subst h2
    simp [Expectation.isMatch, Expectation.close, MRes.toX]
  · rfl
  · rfl
  · rfl
  · exact hc.symm

/-- **C53.** A MockReader scripted with the calls that were made on a Reader gives the same observations, and its script is used up. -/
theorem C53_stand_in (R : Rdr σ) (hc : R.isCloser = true) (fuel : Nat) (st : σ) (n : Int) (ops : List Op) (es : List Expectation)
    (h : (R.record.play fuel ⟨st, []⟩ n ops).1.log.map Call.exp = es.map some) :
    (wrapper R.isFile R.isSeeker R.isReaderAt).play fuel (some (Mock.new es)) n ops = (some ⟨es, es.length⟩, (R.play fuel st n ops).2) := by
  have M := mock_morph R hc _ es h
  have := play_morph M fuel ⟨st, []⟩ n ops (List.prefix_rfl)
  have hlen := congrArg List.length h
  simp only [List.length_map] at hlen
  simp only [List.length_nil] at this
  rw [show (some (Mock.new es) : MockPtr) = some ⟨es, 0⟩ from rfl, this, (C53_record R fuel st n ops).2, hlen]

/-! ### Examples -/

/-- A stream of the bytes 1, 2, 3, …, 6, in pieces of at most two bytes; the state is how many are left. -/
def sixBytes : Rdr Nat where
  read s k := if s = 0 then (0, .got [] (some .eof)) else
    let m := min (min s k) 2
    (s - m, .got ((List.range m).map fun i => UInt8.ofNat (7 - s + i)) none)
  readAt s _ _ := (s, .panics .badArg)
  seek s _ _ := (s, .panics .badArg)
  stat s := (s, .ok (6, none))
  close s := (s, .ok (some (.ext 1)))
  isReaderAt := false
  isSeeker := false
  isFile := true
  isCloser := true

/-- Its length is found by `Stat`; one Body reads four bytes, a copy of it the rest; both are closed. -/
def sixOps : List Op := [.read 0 4, .copy 0, .read 1 5, .close 0, .read 1 1, .close 1]

/-- The observations, if there are any. -/
def outs : Res (Except Err (List Out)) → Option (List Out)
  | .ret (.ok l) => some l
  | _ => none

theorem of_outs {r : Res (Except Err (List Out))} {l : List Out} (h : outs r = some l) : r = .ret (.ok l) := by
  rcases r with ⟨e | l'⟩ | p | _ <;> simp [outs] at h
  rw [h]

/-- What is observed of it. -/
theorem six_outs : (sixBytes.play 10 6 (-1) sixOps).2 =
    .ret (.ok [.read [1, 2, 3, 4] none, .copied 1, .read [5, 6] (some .eof), .closed none, .read [] (some .eof), .closed (some (.ext 1))]) :=
  of_outs (by decide +kernel)

/-- The calls that were made on the Reader. -/
example : (sixBytes.record.play 10 ⟨6, []⟩ (-1) sixOps).1.log =
    [.stat (.ok (6, none)), .read 6 (.got [1, 2] none), .read 4 (.got [3, 4] none), .read 2 (.got [5, 6] none), .close (.ok (some (.ext 1)))] := by
  decide +kernel

/-- All of them can be scripted, and the script takes the place of the Reader. -/
example : ∃ es, es.length = 5 ∧ (wrapper true false false).play 10 (some (Mock.new es)) (-1) sixOps =
    (some ⟨es, 5⟩, .ret (.ok [.read [1, 2, 3, 4] none, .copied 1, .read [5, 6] (some .eof), .closed none, .read [] (some .eof),
      .closed (some (.ext 1))])) := by
  have hlog : (sixBytes.record.play 10 ⟨6, []⟩ (-1) sixOps).1.log =
    [.stat (.ok (6, none)), .read 6 (.got [1, 2] none), .read 4 (.got [3, 4] none), .read 2 (.got [5, 6] none), .close (.ok (some (.ext 1)))] := by
    decide +kernel
  let x (n : Nat) (d : List Byte) : Expectation :=
    { op := .read, input0 := { len := n, at_ := fun i => d[i]?.getD 0 }, output0 := d.length, output2 := none, hasOutput := true }
  let es : List Expectation := [.stat (some { size := 6 }) none, x 6 [1, 2], x 4 [3, 4], x 2 [5, 6], .close (some (.ext 1))]
  refine ⟨es, rfl, ?_⟩
  have := C53_stand_in sixBytes rfl 10 6 (-1) sixOps es (by rw [hlog]; rfl)
  rw [six_outs] at this
  exact this

/-- A Reader that first returns a byte, then a negative count. -/
def negRdr : Rdr Nat where
  read s _ := if s = 0 then (1, .got [9] none) else (2, .negative)
  readAt s _ _ := (s, .panics .badArg)
  seek s _ _ := (s, .panics .badArg)
  stat s := (s, .panics .badArg)
  close s := (s, .ok none)
  isReaderAt := false
  isSeeker := false
  isFile := false
  isCloser := true

/-- A negative count can be scripted too: the Body panics as it does with the Reader. -/
example : ∃ es, es.length = 2 ∧ (wrapper false false false).play 10 (some (Mock.new es)) (-1) [.read 0 2] =
    (some ⟨es, 2⟩, .ret (.ok [.panic .badReader])) := by
  have hlog : (negRdr.record.play 10 ⟨0, []⟩ (-1) [.read 0 2]).1.log = [.read 65536 (.got [9] none), .read 65535 .negative] := by
    decide +kernel
  let x : Expectation :=
    { op := .read, input0 := { len := 65536, at_ := fun i => [9][i]?.getD 0 }, output0 := 1, output2 := none, hasOutput := true }
  let es : List Expectation := [x, { op := .read, input0 := { len := 65535 }, output0 := -1, hasOutput := true }]
  refine ⟨es, rfl, ?_⟩
  have := C53_stand_in negRdr rfl 10 0 (-1) [.read 0 2] es (by rw [hlog]; rfl)
  rw [of_outs (r := (negRdr.play 10 0 (-1) [.read 0 2]).2) (l := [.panic .badReader]) (by decide +kernel)] at this
  exact this

end Verif
