import Verif.Model.Mock
import Verif.Spec.Mock

/-! # C52: a MockReader follows its script and accepts nothing else -/

set_option autoImplicit false

namespace Verif
open Spec

/-- A line of a script, as written by the constructors of expectations. -/
inductive Scripted : Expectation → Request × Answer FileInfo → Prop
  | mark (s : GoStr) : Scripted (.mark s) (.mark s, .marked)
  | stat (fi : Option FileInfo) (err : Option Err) : Scripted (.stat fi err) (.stat, .stat fi err)
  | read (p : Buf) (n : Int) (err : Option Err) (e : Expectation) (h : Expectation.read p n err = .ret e) :
      Scripted e (.read p.len, .read (p.take n.toNat) err)
  | readAt (p : Buf) (off n : Int) (err : Option Err) (e : Expectation) (h : Expectation.readAt p off n err = .ret e) :
      Scripted e (.readAt p.len off, .read (p.take n.toNat) err)
  | seek (off wh n : Int) (err : Option Err) : Scripted (.seek off wh n err) (.seek off wh, .seek n err)
  | close (err : Option Err) : Scripted (.close err) (.close, .closed err)

/-- The expectation that a call is compared with the script as (`actual`). -/
def Spec.Request.actual : Request → Expectation
  | .mark s => { op := .mark, input3 := s }
  | .stat => { op := .stat }
  | .read k => { op := .read, input0 := { len := k } }
  | .readAt k off => { op := .readAt, input0 := { len := k }, input1 := off }
  | .seek off wh => { op := .seek, input1 := off, input2 := wh }
  | .close => { op := .close }

/-- What is seen of a call: the verdict (`none`: a run-time panic, or a count that is not the number of bytes copied), and what an
`ExpectationFailedError` says was expected and came instead. -/
structure Seen where
  verdict : Option (Verdict FileInfo)
  expect : Expectation := {}
  actual : Expectation := {}

/-- What is seen of a call that ended like this. -/
def MRes.seen {α : Type} (f : α → Option (Answer FileInfo)) : MRes α → Seen
  | .ok a => { verdict := (f a).map .answered }
  | .failed i e a => { verdict := some (.rejected i), expect := e, actual := a }
  | .bounds => { verdict := none }

/-- The answer of a `Read` or `ReadAt`. -/
def readAnswer : Int × List Byte × Option Err → Option (Answer FileInfo)
  | (n, d, e) => if n = d.length then some (.read d e) else none

/-- A call on a MockReader. -/
def MockPtr.call (m : MockPtr) : Request → MockPtr × Seen
  | .mark s => let r := m.mark s; (r.1, r.2.seen fun _ => some .marked)
  | .stat => let r := m.stat; (r.1, r.2.seen fun a => some (.stat a.1 a.2))
  | .read k => let r := m.read k; (r.1, r.2.seen readAnswer)
  | .readAt k off => let r := m.readAt k off; (r.1, r.2.seen readAnswer)
  | .seek off wh => let r := m.seek off wh; (r.1, r.2.seen fun a => some (.seek a.1 a.2))
  | .close => let r := m.close; (r.1, r.2.seen fun a => some (.closed a))

/-- **C52.** Counts that a Reader must not return cannot be scripted. -/
theorem C52_counts (p : Buf) (off n : Int) (err : Option Err) :
    ((∃ e, Expectation.read p n err = .ret e) ↔ 0 ≤ n ∧ n ≤ p.len) ∧
    ((∃ e, Expectation.readAt p off n err = .ret e) ↔ 0 ≤ n ∧ n ≤ p.len) ∧
    (Expectation.read p n err = .panic .badArg ↔ ¬ (0 ≤ n ∧ n ≤ p.len)) ∧
    (Expectation.readAt p off n err = .panic .badArg ↔ ¬ (0 ≤ n ∧ n ≤ p.len)) := by
  unfold Expectation.read Expectation.readAt
  by_cases h0 : n ≥ 0 <;> by_cases h1 : n ≤ p.len <;> simp [h0, h1] <;> omega

example : Expectation.read { len := 4 } 5 none = .panic .badArg := (C52_counts { len := 4 } 0 5 none).2.2.1.2 (by decide)

theorem Buf.length_take (p : Buf) (n : Nat) : (p.take n).length = n := by simp [Buf.take]

/-- One call of a MockReader that has not come to its end. -/
theorem call_line (es : List Expectation) (i : Nat) (e : Expectation) (r : Request) (a : Answer FileInfo) (c : Request)
    (he : es[i]? = some e) (hs : Scripted e (r, a)) :
    (MockPtr.call (some ⟨es, i⟩) c).1 = some ⟨es, i + 1⟩ ∧
    (MockPtr.call (some ⟨es, i⟩) c).2.verdict = some (if r = c then .answered a else .rejected i) ∧
    (r ≠ c → (MockPtr.call (some ⟨es, i⟩) c).2.expect = e ∧ (MockPtr.call (some ⟨es, i⟩) c).2.actual = c.actual) := by
  have hi : ¬ i ≥ es.length := by
    intro h; rw [List.getElem?_eq_none h] at he; simp at he
  have hn : MockPtr.next (some ⟨es, i⟩) = (some ⟨es, i + 1⟩, i, e) := by
    simp only [MockPtr.next, if_neg hi, he]; rfl
  have key : ∀ (p : Buf) (n : Int) (err : Option Err) (op : MockOp) (off : Int), 0 ≤ n → n ≤ p.len →
      (MockPtr.deliver { op := op, input0 := p, input1 := off, output0 := n, output2 := err, hasOutput := true } { len := p.len }).seen readAnswer =
        { verdict := some (.answered (.read (p.take n.toNat) err)) } := by
    intro p n err op off h0 h1
    unfold MockPtr.deliver
    by_cases hp : n > 0
    · simp only [if_pos hp, h1, and_self, if_true, MRes.seen, readAnswer, Buf.length_take]
      rw [if_pos (by omega)]; rfl
    · have : n = 0 := by omega
      subst this
      simp [MRes.seen, readAnswer, Buf.take]
  cases hs with
  | mark s =>
    cases c <;> simp [MockPtr.call, MockPtr.mark, MockPtr.stat, MockPtr.read, MockPtr.readAt, MockPtr.seek, MockPtr.close, hn, Expectation.isMatch,
      Expectation.mark, MRes.seen, Request.actual]
    rename_i s'
    by_cases h : s = s' <;> simp [h]
  | stat fi err =>
    cases c <;> simp [MockPtr.call, MockPtr.mark, MockPtr.stat, MockPtr.read, MockPtr.readAt, MockPtr.seek, MockPtr.close, hn, Expectation.isMatch,
      Expectation.stat, MRes.seen, Request.actual]
  | read p n err e h =>
    have hb : 0 ≤ n ∧ n ≤ p.len := (C52_counts p 0 n err).1.1 ⟨e, h⟩
    unfold Expectation.read at h
    simp only [ge_iff_le, hb.1, hb.2, not_true_eq_false, if_false, Res.ret.injEq] at h
    subst h
    cases c <;> simp [MockPtr.call, MockPtr.mark, MockPtr.stat, MockPtr.read, MockPtr.readAt, MockPtr.seek, MockPtr.close, hn, Expectation.isMatch,
      MRes.seen, Request.actual]
    rename_i k
    by_cases hk : p.len = k
    · subst hk
      have := congrArg Seen.verdict (key p n err .read 0 hb.1 hb.2)
      simpa [MRes.seen] using this
    · simp [hk]
  | readAt p off n err e h =>
    have hb : 0 ≤ n ∧ n ≤ p.len := (C52_counts p off n err).2.1.1 ⟨e, h⟩
    unfold Expectation.readAt at h
    simp only [ge_iff_le, hb.1, hb.2, not_true_eq_false, if_false, Res.ret.injEq] at h
    subst h
    cases c <;> simp [MockPtr.call, MockPtr.mark, MockPtr.stat, MockPtr.read, MockPtr.readAt, MockPtr.seek, MockPtr.close, hn, Expectation.isMatch,
      MRes.seen, Request.actual]
    rename_i k off'
    by_cases hk : p.len = k
    · subst hk
      by_cases ho : off = off'
      · subst ho
        have := congrArg Seen.verdict (key p n err .readAt off hb.1 hb.2)
        simpa [MRes.seen] using this
      · simp [ho]
    · simp [hk]
  | seek off wh n err =>
    cases c <;> simp [MockPtr.call, MockPtr.mark, MockPtr.stat, MockPtr.read, MockPtr.readAt, MockPtr.seek, MockPtr.close, hn, Expectation.isMatch,
      Expectation.seek, MRes.seen, Request.actual]
    rename_i off' wh'
    by_cases h1 : off = off' <;> by_cases h2 : wh = wh' <;> simp [h1, h2]
  | close err =>
    cases c <;> simp [MockPtr.call, MockPtr.mark, MockPtr.stat, MockPtr.read, MockPtr.readAt, MockPtr.seek, MockPtr.close, hn, Expectation.isMatch,
      Expectation.close, MRes.seen, Request.actual]

/-- One call of a MockReader that has come to its end. -/
theorem call_end (es : List Expectation) (i : Nat) (c : Request) (hi : es.length ≤ i) :
    MockPtr.call (some ⟨es, i⟩) c = (some ⟨es, i⟩, { verdict := some (.rejected es.length), actual := c.actual }) := by
  have hn : MockPtr.next (some ⟨es, i⟩) = (some ⟨es, i⟩, es.length, {}) := by simp [MockPtr.next, hi]
  cases c <;> simp [MockPtr.call, MockPtr.mark, MockPtr.stat, MockPtr.read, MockPtr.readAt, MockPtr.seek, MockPtr.close, hn, Expectation.isMatch,
    MRes.seen, Request.actual]

/-- A script, line by line. -/
def ScriptedAll (es : List Expectation) (lines : List (Request × Answer FileInfo)) : Prop :=
  es.length = lines.length ∧ ∀ (i : Nat) (e : Expectation) (l : Request × Answer FileInfo), es[i]? = some e → lines[i]? = some l → Scripted e l

theorem script_from (es : List Expectation) (lines : List (Request × Answer FileInfo)) (h : ScriptedAll es lines)
    (calls : List Request) (i : Nat) (hi : i ≤ es.length) :
    (run MockPtr.call (some ⟨es, i⟩) calls).1 = some ⟨es, min (i + calls.length) es.length⟩ ∧
    (run MockPtr.call (some ⟨es, i⟩) calls).2.map Seen.verdict = (calls.mapIdx fun j c => verdictAt lines (i + j) c).map some := by
  have hl : es.length = lines.length := h.1
  induction calls generalizing i with
  | nil => simp [run]; omega
  | cons c calls ih =>
    simp only [run, List.map_cons, List.length_cons, List.mapIdx_cons, Nat.add_zero]
    by_cases hlt : i < es.length
    · have hlt' : i < lines.length := by omega
      have hs : Scripted es[i] lines[i] := h.2 i _ _ (by simp [hlt]) (by simp [hlt'])
      obtain ⟨h1, h2, -⟩ := call_line es i es[i] lines[i].1 lines[i].2 c (by simp [hlt]) hs
      have := ih (i + 1) (by omega)
      rw [h1, h2, this.1, this.2]
      simp [verdictAt, hlt', Nat.add_assoc, Nat.add_comm 1]
    · have hle : es.length ≤ i := by omega
      have := ih i hi
      rw [call_end es i c hle, this.1, this.2]
      refine ⟨by congr 2; omega, ?_⟩
      have e1 : ∀ j c, verdictAt lines (i + j) c = .rejected lines.length := by
        intro j c
        have : lines[i + j]? = none := by simp; omega
        simp [verdictAt, this]
      have e0 := e1 0 c
      simp only [Nat.add_zero] at e0
      simp only [e1, e0, hl]

/-- **C52.** A new MockReader plays its script: the `i`-th call gets the `i`-th scripted answer if it is the `i`-th scripted call, and
otherwise panics with an `ExpectationFailedError` naming that place; so does every call after the end of the script. -/
theorem C52_script (es : List Expectation) (lines : List (Request × Answer FileInfo)) (h : ScriptedAll es lines) (calls : List Request) :
    (run MockPtr.call (some (Mock.new es)) calls).2.map Seen.verdict = (plays lines calls).map some ∧
    (run MockPtr.call (some (Mock.new es)) calls).1 = some ⟨es, min calls.length es.length⟩ := by
  have := script_from es lines h calls 0 (by omega)
  simp only [Nat.zero_add] at this
  exact ⟨this.2, this.1⟩

/-- **C52.** Nothing panics exactly when the calls are the script or its beginning, in order. -/
theorem C52_accepts (es : List Expectation) (lines : List (Request × Answer FileInfo)) (h : ScriptedAll es lines) (calls : List Request) :
    (∀ s ∈ (run MockPtr.call (some (Mock.new es)) calls).2, ∃ a, s.verdict = some (.answered a)) ↔ calls <+: lines.map Prod.fst := by
  have h1 := (C52_script es lines h calls).1
  have h2 : (∀ s ∈ (run MockPtr.call (some (Mock.new es)) calls).2, ∃ a, s.verdict = some (.answered a)) ↔
      ∀ v ∈ plays lines calls, ∃ a, v = .answered a := by
    constructor
    · intro hs v hv
      have : some v ∈ (plays lines calls).map some := List.mem_map_of_mem hv
      rw [← h1] at this
      obtain ⟨s, hs1, hs2⟩ := List.mem_map.1 this
      obtain ⟨a, ha⟩ := hs s hs1
      exact ⟨a, by rw [hs2] at ha; simpa using ha⟩
    · intro hv s hs
      have : s.verdict ∈ (run MockPtr.call (some (Mock.new es)) calls).2.map Seen.verdict := List.mem_map_of_mem hs
      rw [h1] at this
      obtain ⟨v, hv1, hv2⟩ := List.mem_map.1 this
      obtain ⟨a, rfl⟩ := hv v hv1
      exact ⟨a, hv2.symm⟩
  rw [h2, List.prefix_iff_getElem?]
  constructor
  · intro hv i hi
    have hm : (plays lines calls)[i]? = some (verdictAt lines i calls[i]) := by
      simp only [plays, List.getElem?_mapIdx, List.getElem?_eq_getElem hi, Option.map_some]
    obtain ⟨a, ha⟩ := hv _ (List.mem_of_getElem? hm)
    unfold verdictAt at ha
    cases hl : lines[i]? with
    | none => rw [hl] at ha; simp at ha
    | some ra =>
      rw [hl] at ha
      dsimp only at ha
      split at ha
      · rename_i hr; simp [List.getElem?_map, hl, hr]
      · simp at ha
  · intro hp v hv
    obtain ⟨i, hi⟩ := List.mem_iff_getElem?.1 hv
    simp only [plays, List.getElem?_mapIdx] at hi
    cases hc : calls[i]? with
    | none => rw [hc] at hi; simp at hi
    | some c =>
      rw [hc] at hi
      obtain ⟨hlt, rfl⟩ := List.getElem?_eq_some_iff.1 hc
      have := hp i hlt
      rw [List.getElem?_map] at this
      cases hl : lines[i]? with
      | none => rw [hl] at this; simp at this
      | some ra =>
        rw [hl] at this
        simp at this
        simp [verdictAt, hl, this] at hi
        exact ⟨ra.2, hi.symm⟩

/-- **C52.** What the `ExpectationFailedError` says: the line of the script (or none, after its end) and the call. -/
theorem C52_report (es : List Expectation) (lines : List (Request × Answer FileInfo)) (h : ScriptedAll es lines) (i j : Nat)
    (hi : i ≤ es.length) (c : Request) (hr : (MockPtr.call (some ⟨es, i⟩) c).2.verdict = some (.rejected j)) :
    j = i ∧ (MockPtr.call (some ⟨es, i⟩) c).2.expect = es[i]?.getD {} ∧ (MockPtr.call (some ⟨es, i⟩) c).2.actual = c.actual := by
  by_cases hlt : i < es.length
  · have hlt' : i < lines.length := by have := h.1; omega
    have hs : Scripted es[i] lines[i] := h.2 i _ _ (by simp [hlt]) (by simp [hlt'])
    obtain ⟨-, h2, h3⟩ := call_line es i es[i] lines[i].1 lines[i].2 c (by simp [hlt]) hs
    rw [h2] at hr
    by_cases hrc : lines[i].1 = c
    · simp [hrc] at hr
    · simp only [if_neg hrc, Option.some.injEq, Verdict.rejected.injEq] at hr
      refine ⟨hr.symm, ?_, (h3 hrc).2⟩
      rw [(h3 hrc).1]; simp [hlt]
  · rw [call_end es i c (by omega)] at hr ⊢
    simp only [Option.some.injEq, Verdict.rejected.injEq] at hr
    refine ⟨by omega, ?_, rfl⟩
    simp [List.getElem?_eq_none (show es.length ≤ i by omega)]

/-- **C52.** A nil MockReader ignores marks, and rejects everything else. -/
theorem C52_nil (c : Request) : (MockPtr.call none c).1 = none ∧
    (MockPtr.call none c).2.verdict = some (match c with | .mark _ => .answered .marked | _ => .rejected 0) := by
  cases c <;> simp [MockPtr.call, MockPtr.mark, MockPtr.stat, MockPtr.read, MockPtr.readAt, MockPtr.seek, MockPtr.close, MockPtr.next,
    Expectation.isMatch, MRes.seen]

example : (MockPtr.call none (.seek 0 2)).2.verdict = some (.rejected 0) := (C52_nil (.seek 0 2)).2

/-! ### A script -/

def abc : Buf := { len := 3, at_ := fun i => if i = 0 then 97 else if i = 1 then 98 else 99 }

/-- `Stat`, a `Read` of three bytes that returns two, a mark, `Close`. -/
def fourLines : List Expectation :=
  [.stat (some { size := 2 }) none, { op := .read, input0 := abc, output0 := 2, output2 := some .eof, hasOutput := true }, .mark (lit "x"), .close none]

def fourAnswers : List (Request × Answer FileInfo) :=
  [(.stat, .stat (some { size := 2 }) none), (.read 3, .read [97, 98] (some .eof)), (.mark (lit "x"), .marked), (.close, .closed none)]

theorem fourLines_scripted : ScriptedAll fourLines fourAnswers := by
  refine ⟨rfl, ?_⟩
  intro i e l he hl
  match i with
  | 0 => cases he; cases hl; exact .stat _ _
  | 1 => cases he; cases hl; exact .read abc 2 (some .eof) _ rfl
  | 2 => cases he; cases hl; exact .mark _
  | 3 => cases he; cases hl; exact .close _
  | n + 4 => simp [fourLines] at he

/-- A run in which the second call is wrong (`Read` of 4 bytes instead of 3): it is rejected at 1, the script goes on, and after its end everything
is rejected. -/
example : (run MockPtr.call (some (Mock.new fourLines)) [.stat, .read 4, .mark (lit "x"), .close, .close]).2.map Seen.verdict =
    [some (.answered (.stat (some { size := 2 }) none)), some (.rejected 1), some (.answered .marked), some (.answered (.closed none)),
      some (.rejected 4)] := by
  rw [(C52_script _ _ fourLines_scripted _).1]; decide +kernel

example : ∀ s ∈ (run MockPtr.call (some (Mock.new fourLines)) [.stat, .read 3]).2, ∃ a, s.verdict = some (.answered a) :=
  (C52_accepts _ _ fourLines_scripted _).2 ⟨[.mark (lit "x"), .close], rfl⟩

example : (MockPtr.call (some ⟨fourLines, 1⟩) (.read 4)).2.expect.output0 = 2 ∧ (MockPtr.call (some ⟨fourLines, 1⟩) (.read 4)).2.actual.input0.len = 4 := by
  have h := C52_report _ _ fourLines_scripted 1 1 (by decide) (.read 4) (by decide +kernel)
  rw [h.2.1, h.2.2]
  exact ⟨rfl, rfl⟩

/-- **C52.** A FileInfo is that of a directory iff the highest bit of its mode is set. -/
theorem C52_isDir (fi : FileInfo) : fi.isDir = true ↔ 2 ^ 31 ≤ fi.mode.toNat := by
  have h : fi.mode &&& 0x80000000 = 0 ↔ fi.mode.toNat < 2 ^ 31 := by
    rw [← UInt32.toNat_inj, UInt32.toNat_and]
    have e : (0x80000000 : UInt32).toNat = 2 ^ 31 := rfl
    have e' : fi.mode.toNat &&& 2 ^ 31 = (fi.mode.toNat.testBit 31).toNat * 2 ^ 31 := by
      apply Nat.eq_of_testBit_eq
      intro i
      rw [Nat.testBit_and, Nat.testBit_two_pow]
      by_cases hi : 31 = i
      · subst hi
        cases fi.mode.toNat.testBit 31 <;> rfl
      · cases fi.mode.toNat.testBit 31
        · simp [hi]
        · rw [show true.toNat * 2 ^ 31 = 2 ^ 31 from rfl, Nat.testBit_two_pow]; simp [hi]
    rw [e, e']
    have hlt : fi.mode.toNat < 2 ^ 32 := fi.mode.toNat_lt
    rw [Nat.testBit_eq_decide_div_mod_eq]
    by_cases hh : fi.mode.toNat < 2 ^ 31
    · rw [Nat.div_eq_of_lt hh]; simp; omega
    · have : fi.mode.toNat / 2 ^ 31 = 1 := by omega
      rw [this]; simp; omega
  simp only [FileInfo.isDir, bne_iff_ne, ne_eq, h]
  omega

example : FileInfo.isDir { mode := 0x800001ed } = true ∧ FileInfo.isDir { mode := 0x080001a4 } = false := by decide

end Verif
