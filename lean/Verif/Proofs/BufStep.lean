import Verif.Proofs.BufInv

/-! # Each call on a stream-backed family preserves the invariant and acts on one cursor -/

set_option linter.unusedSimpArgs false

set_option autoImplicit false

namespace Verif
open Spec

variable {σ : Type}

theorem setOk_set {s : BufSys (Rec σ)} (hs : SetOk s) {h : Nat} {b b' : BufBody}
    (hb : s.heap[h]? = some b) (hcl : b.closed = false) (hcl' : b'.closed = false)
    {c : BufCommon (Rec σ)} (hc : c.bodies = s.common.bodies) :
    SetOk { common := c, heap := s.heap.set h b' } := by
  refine ⟨?_, by rw [hc]; exact hs.nodup⟩
  intro i
  show i ∈ c.bodies ↔ _
  rw [hc, hs.mem i]
  show _ ↔ ∃ b, (s.heap.set h b')[i]? = some b ∧ b.closed = false
  by_cases hi : h = i
  · subst hi
    rw [set_get hb]
    exact ⟨fun _ => ⟨b', rfl, hcl'⟩, fun _ => ⟨b, hb, hcl⟩⟩
  · rw [List.getElem?_set_ne hi]

theorem countP_set' {p : BufBody → Bool} {l : List BufBody} {i : Nat} {a b : BufBody}
    (h : l[i]? = some b) :
    (l.set i a).countP p + (if p b then 1 else 0) = l.countP p + (if p a then 1 else 0) := by
  obtain ⟨h', e⟩ := List.getElem?_eq_some_iff.1 h
  rw [List.countP_set h', e]
  have : p b = true → 0 < l.countP p := by
    intro hp; exact List.countP_pos_iff.2 ⟨b, List.mem_of_getElem? h, hp⟩
  by_cases hp : p b = true
  · have := this hp; simp [hp]; omega
  · simp [hp]

theorem advance_spec (L : Int) (s : BufSys (Rec σ)) (hs : SetOk s) (ha : Alive L s) {h : Nat}
    {b b' : BufBody} (hb : s.heap[h]? = some b) (hcl : b.closed = false) (hcl' : b'.closed = false)
    (hle : b.offset ≤ b'.offset) (hle' : b'.offset ≤ (obt s).length)
    (heof : b'.eof = true → b'.offset = (obt s).length ∧ s.common.err ≠ none) :
    ∃ c', BufSys.advance { s with heap := s.heap.set h b' } b.offset b'.offset =
        ({ common := c', heap := s.heap.set h b' }, none) ∧
      c'.rdr = s.common.rdr ∧ c'.bodies = s.common.bodies ∧ c'.err = s.common.err ∧
      Alive L { common := c', heap := s.heap.set h b' } := by
  have hc := ha.core
  have hbm := List.mem_of_getElem? hb
  have hbo := hc.offs b hbm hcl
  have hlenB : s.common.start + (s.common.bytes.length : Int) = (obt s).length := by
    rw [hc.bytes]; simp; have := hc.startLe; have := hc.start0; omega
  have hcore : ∀ c' : BufCommon (Rec σ), c'.rdr = s.common.rdr → c'.bytes = s.common.bytes →
      c'.err = s.common.err → c'.hasR = s.common.hasR → c'.length = s.common.length →
      c'.start = s.common.start → Core L { common := c', heap := s.heap.set h b' } := by
    intro c' g1 g2 g3 g4 g5 g6
    have hob : obt { common := c', heap := s.heap.set h b' } = obt s := by
      show obtained c'.rdr.log = _; rw [g1]; rfl
    refine ⟨by rw [g4]; exact hc.hasR, by rw [g6]; exact hc.start0, by rw [hob, g6]; exact hc.startLe,
      by rw [hob, g6, g2]; exact hc.bytes, ?_, ?_, ?_, by rw [hob]; exact hc.within⟩
    · intro x hx hxc
      rw [hob, g6, g3]
      rcases mem_set_cases hx with hx | rfl
      · exact hc.offs x hx hxc
      · exact ⟨by omega, hle', heof⟩
    · rw [g3, g5, g1]; exact hc.live
    · rw [g3, g5, g1, hob]; exact hc.over
  have hcount := countP_set' (p := atPos s.common.start) (a := b') hb
  have hcnt := ha.cnt
  have hpos := ha.pos
  unfold BufSys.advance
  simp only
  rw [if_neg (by omega), if_neg (by omega), if_neg (by omega)]
  by_cases hmove : b.offset = s.common.start ∧ b'.offset ≠ s.common.start
  · rw [if_pos hmove]
    have e1 : atPos s.common.start b = true := by simp [atPos, hcl, hmove.1]
    have e2 : atPos s.common.start b' = false := by simp [atPos, hmove.2]
    simp only [e1, e2, if_true, Bool.false_eq_true, if_false] at hcount
    by_cases hz : s.common.refcnt - 1 ≤ 0
    · rw [if_pos hz]
      have hcr := hcore { s.common with refcnt := s.common.refcnt - 1 } rfl rfl rfl rfl rfl rfl
      have hsr : SetOk { common := { s.common with refcnt := s.common.refcnt - 1 }, heap := s.heap.set h b' } :=
        setOk_set hs hb hcl hcl' rfl
      obtain ⟨c', h1, h2, h3, h4, h5⟩ := updateStart_spec L _ hcr hsr
        ⟨b', List.mem_of_getElem? (set_get hb), hcl'⟩
      exact ⟨c', h1, h2, h3, h4, h5⟩
    · rw [if_neg hz]
      refine ⟨_, rfl, rfl, rfl, rfl, hcore _ rfl rfl rfl rfl rfl rfl, ?_, ?_⟩
      · show s.common.refcnt - 1 = ((s.heap.set h b').countP (atPos s.common.start) : Int)
        omega
      · show 1 ≤ s.common.refcnt - 1
        omega
  · rw [if_neg hmove]
    refine ⟨_, rfl, rfl, rfl, rfl, hcore _ rfl rfl rfl rfl rfl rfl, ?_, hpos⟩
    show s.common.refcnt = ((s.heap.set h b').countP (atPos s.common.start) : Int)
    have e : atPos s.common.start b = atPos s.common.start b' := by
      by_cases h1 : b.offset = s.common.start
      · have h2 : b'.offset = s.common.start := by
          by_cases h2 : b'.offset = s.common.start
          · exact h2
          · exact absurd ⟨h1, h2⟩ hmove
        simp [atPos, hcl, hcl', h1, h2]
      · have h2 : b'.offset ≠ s.common.start := by omega
        simp [atPos, hcl, hcl', h1, h2]
    rw [e] at hcount
    omega

/-- What a `Read` that was served delivers and does to its body. -/
def servedBody (O : List Byte) (b : BufBody) (k : Nat) : BufBody :=
  { b with offset := min (b.offset + k) O.length, eof := b.eof || decide (b.offset + k > O.length) }

theorem finishRead_spec (L : Int) (s : BufSys (Rec σ)) (hs : SetOk s) (ha : Alive L s) {h : Nat}
    {b : BufBody} (hb : s.heap[h]? = some b) (hcl : b.closed = false) (he : b.eof = false) (k : Nat)
    (hen : s.common.err ≠ none ∨ b.offset + k ≤ s.common.start + s.common.bytes.length) :
    ∃ c', s.finishRead h b k = ({ common := c', heap := s.heap.set h (servedBody (obt s) b k) },
        .read (((obt s).drop b.offset.toNat).take k)
          (if b.offset + k > (obt s).length then s.common.err else none)) ∧
      c'.rdr = s.common.rdr ∧ c'.bodies = s.common.bodies ∧ c'.err = s.common.err ∧
      Alive L { common := c', heap := s.heap.set h (servedBody (obt s) b k) } := by
  have hc := ha.core
  have hbm := List.mem_of_getElem? hb
  obtain ⟨hb1, hb2, _⟩ := hc.offs b hbm hcl
  have hst := hc.start0
  have hlenB : s.common.start + (s.common.bytes.length : Int) = (obt s).length := by
    rw [hc.bytes]; simp; have := hc.startLe; have := hc.start0; omega
  obtain ⟨c', h1, h2, h3, h4, h5⟩ := advance_spec L s hs ha (b' := servedBody (obt s) b k) hb hcl hcl
    (by unfold servedBody; simp only; omega) (by unfold servedBody; simp only; omega)
    (by
      unfold servedBody
      simp only [he, Bool.false_or, decide_eq_true_eq]
      intro hgt
      refine ⟨by omega, ?_⟩
      rcases hen with h | h
      · exact h
      · omega)
  refine ⟨c', ?_, h2, h3, h4, h5⟩
  unfold BufSys.finishRead
  by_cases hh : b.offset + (k : Int) > s.common.start + ↑s.common.bytes.length
  · have hsv : ({ b with eof := true, offset := s.common.start + ↑s.common.bytes.length } : BufBody) =
        servedBody (obt s) b k := by
      unfold servedBody
      congr 1
      · omega
      · simp; right; omega
    have hoff : (servedBody (obt s) b k).offset = s.common.start + ↑s.common.bytes.length := by rw [← hsv]
    rw [hoff] at h1
    simp only [hh, decide_true, if_true]
    rw [goSlice_eq (List.replicate k (0:Byte)) _ _ (by simp; omega), goSlice_eq s.common.bytes _ _ (by omega)]
    simp only
    rw [List.set_set, hsv, h1]
    simp only
    rw [if_pos (by omega)]
    congr 2
    rw [hc.bytes, List.drop_drop]
    have e1 : s.common.start.toNat + (b.offset - s.common.start).toNat = b.offset.toNat := by omega
    rw [e1, List.take_eq_take_iff]
    simp; omega
  · have hsv : ({ b with offset := b.offset + k } : BufBody) = servedBody (obt s) b k := by
      unfold servedBody
      congr 1
      · omega
      · have : ¬ (b.offset + (k : Int) > (obt s).length) := by omega
        simp [this]
    have hoff : (servedBody (obt s) b k).offset = b.offset + k := by rw [← hsv]
    rw [hoff] at h1
    simp only [hh, decide_false, Bool.false_eq_true, if_false]
    rw [goSlice_eq (List.replicate k (0:Byte)) _ _ (by simp; omega), goSlice_eq s.common.bytes _ _ (by omega)]
    simp only
    rw [List.set_set, hsv, h1]
    simp only
    rw [if_neg (by omega)]
    congr 2
    rw [hc.bytes, List.drop_drop]
    have e1 : s.common.start.toNat + (b.offset - s.common.start).toNat = b.offset.toNat := by omega
    rw [e1, List.take_eq_take_iff]
    simp; omega

theorem winv_of_alive {L : Int} {s : BufSys (Rec σ)} (hs : SetOk s) (ha : Alive L s)
    (ho : ∃ b ∈ s.heap, b.closed = false) : WInv L s := by
  refine ⟨hs, fun _ => ha, fun h => ?_⟩
  obtain ⟨b, hb, hcl⟩ := ho
  rw [h b hb] at hcl; cases hcl

/-- What a `Read` on an open body did. -/
structure ReadRes (L : Int) (s : BufSys (Rec σ)) (h : Nat) (b : BufBody) (k : Nat)
    (r : BufSys (Rec σ) × Out) (ext : List Call) : Prop where
  inv : WInv L r.1
  log : r.1.common.rdr.log = s.common.rdr.log ++ ext
  fill : ∃ fr, FillRes L s.common (b.offset + k) fr ext
  err : term L s.common.rdr.log = none ∨ ext = []
  res : (∃ o, r.2 = o ∧ r.1.heap = s.heap ∧ (o = .hang ∨ ∃ p, o = .panic p ∧ Blame p ext)) ∨
    (r.2 = .read (((obt r.1).drop b.offset.toNat).take k)
        (if b.offset + k > (obt r.1).length then term L r.1.common.rdr.log else none) ∧
      (b.offset + k > (obt r.1).length → term L r.1.common.rdr.log ≠ none ∧ r.1.common.err ≠ none) ∧
      r.1.heap = s.heap.set h (servedBody (obt r.1) b k))

theorem read_spec (R : Rdr σ) (fuel : Nat) (L : Int) (s : BufSys (Rec σ)) (hw : WInv L s) {h : Nat}
    {b : BufBody} (hb : s.heap[h]? = some b) (hcl : b.closed = false) (he : b.eof = false) (k : Nat)
    (hk : k < 2 ^ 62) :
    ∃ ext, ReadRes L s h b k (s.read R.record fuel h b k) ext := by
  have hbm := List.mem_of_getElem? hb
  have ha := hw.alive ⟨b, hbm, hcl⟩
  obtain ⟨hb1, hb2, _⟩ := ha.core.offs b hbm hcl
  have hlenB : s.common.start + (s.common.bytes.length : Int) = (obt s).length := by
    rw [ha.core.bytes]; simp; have := ha.core.startLe; have := ha.core.start0; omega
  obtain ⟨ext, F, hcore⟩ := core_fill R fuel L s ha.core (b.offset + k) (by omega)
  refine ⟨ext, ?_⟩
  unfold BufSys.read
  simp only [hcl, he, Bool.false_eq_true, if_false]
  rw [if_neg (by omega)]
  have hFF := F
  generalize BufSys.fill R.record fuel s.common (b.offset + ↑k) = fr at F hcore hFF
  obtain ⟨c1, o1⟩ := fr
  have hs1 : SetOk { s with common := c1 } :=
    ⟨fun i => by show i ∈ c1.bodies ↔ _; rw [F.bodies]; exact hw.set.mem i,
      by show c1.bodies.Nodup; rw [F.bodies]; exact hw.set.nodup⟩
  have ha1 : Alive L { s with common := c1 } :=
    ⟨hcore, by show c1.refcnt = _; rw [F.refcnt]; show _ = ((s.heap.countP (atPos c1.start) : Nat) : Int)
               rw [F.start]; exact ha.cnt,
      by show 1 ≤ c1.refcnt; rw [F.refcnt]; exact ha.pos⟩
  have herr : term L s.common.rdr.log = none ∨ ext = [] := by
    by_cases hidle : s.common.err ≠ none ∨ b.offset + ↑k ≤ s.common.start + ↑s.common.bytes.length
    · exact .inr (F.idle hidle).1
    · by_cases hex : ext = []
      · exact .inr hex
      · left
        have hen : s.common.err = none := by
          cases hh : s.common.err with
          | none => rfl
          | some e => exact absurd (.inl (by simp [hh])) hidle
        obtain ⟨l1, l2⟩ := ha.core.live hen
        simp only [term, l2]
        split
        · rename_i hL
          obtain ⟨num, q1, _, q3⟩ := F.req
          have := q3 (by omega)
          cases ext with
          | nil => exact absurd rfl hex
          | cons c post =>
            obtain ⟨n, r, _, p2, p3, _⟩ := q1 [] c post rfl
            simp [obtained] at p3
            have hlb : (obtained s.common.rdr.log).length = (obt s).length := rfl
            omega
        · rfl
  cases o1 with
  | some o =>
    simp only
    refine ⟨winv_of_alive hs1 ha1 ⟨b, hbm, hcl⟩, F.log, ⟨_, hFF⟩, herr, .inl ⟨o, rfl, rfl, F.blame o rfl⟩⟩
  | none =>
    simp only
    obtain ⟨c', h1, h2, h3, h4, h5⟩ := finishRead_spec L { s with common := c1 } hs1 ha1 hb hcl he k (F.enough rfl)
    rw [h1]
    have hob : obt { common := c', heap := s.heap.set h (servedBody (obt { s with common := c1 }) b k) } =
        obt { s with common := c1 } := by show obtained c'.rdr.log = _; rw [h2]; rfl
    have hmem : servedBody (obt { s with common := c1 }) b k ∈
        s.heap.set h (servedBody (obt { s with common := c1 }) b k) := List.mem_of_getElem? (set_get hb)
    have hterm : ∀ e, c1.err = some e → term L c1.rdr.log = some e := fun e he => (hcore.over e he).2
    have hsh : b.offset + k > (obt { s with common := c1 }).length → c1.err ≠ none := by
      intro hgt
      rcases F.enough rfl with hh | hh
      · exact hh
      · have : c1.start + (c1.bytes.length : Int) = (obt { s with common := c1 }).length := by
          have q1 := hcore.bytes; have q2 := hcore.startLe; have q3 := hcore.start0
          simp only at q1 q2 q3
          rw [q1]; simp; omega
        simp only at hh
        omega
    refine ⟨winv_of_alive (setOk_set hs1 hb hcl (b' := servedBody (obt { s with common := c1 }) b k) hcl h3) h5 ⟨_, hmem, hcl⟩, ?_, ⟨_, hFF⟩, herr, .inr ⟨?_, ?_, ?_⟩⟩
    · show c'.rdr.log = _; rw [h2]; exact F.log
    · rw [hob]
      show Out.read _ (if _ then c1.err else none) = _
      congr 1
      split
      · rename_i hgt
        have hne := hsh hgt
        cases hce : c1.err with
        | none => exact absurd hce hne
        | some e => rw [h2]; exact (hterm e hce).symm
      · rfl
    · rw [hob]
      intro hgt
      have hne := hsh hgt
      cases hce : c1.err with
      | none => exact absurd hce hne
      | some e =>
        refine ⟨?_, ?_⟩
        · show term L c'.rdr.log ≠ none
          rw [h2]; rw [show ({ s with common := c1 } : BufSys (Rec σ)).common.rdr.log = c1.rdr.log from rfl, hterm e hce]; simp
        · show c'.err ≠ none
          rw [h4]; show c1.err ≠ none; rw [hce]; simp
    · rw [hob]

/-! ## Copy -/

theorem copy_spec (L : Int) (s : BufSys (Rec σ)) (hw : WInv L s) {h : Nat} {b : BufBody}
    (hb : s.heap[h]? = some b) (hcl : b.closed = false) :
    ∃ s', s.copy b = (s', .copied s.heap.length) ∧ s'.heap = s.heap ++ [b] ∧
      s'.common.rdr = s.common.rdr ∧ s'.common.err = s.common.err ∧ WInv L s' := by
  have hbm := List.mem_of_getElem? hb
  have ha := hw.alive ⟨b, hbm, hcl⟩
  have hc := ha.core
  have hnot : ¬ s.heap.length ∈ s.common.bodies := by
    rw [hw.set.mem]
    rintro ⟨b', hb', _⟩
    simp at hb'
  unfold BufSys.copy
  simp only [hcl, hc.hasR, Bool.not_true, Bool.false_eq_true, if_false]
  refine ⟨_, rfl, ?_, ?_, ?_, ?_⟩
  · rfl
  · unfold BufSys.ref; simp only [hnot, if_false]; split <;> rfl
  · unfold BufSys.ref; simp only [hnot, if_false]; split <;> rfl
  · have key : ∀ c' : BufCommon (Rec σ), c'.rdr = s.common.rdr → c'.bytes = s.common.bytes →
        c'.err = s.common.err → c'.hasR = s.common.hasR → c'.length = s.common.length →
        c'.start = s.common.start → c'.bodies = s.common.bodies ++ [s.heap.length] →
        c'.refcnt = s.common.refcnt + (if b.offset = s.common.start then 1 else 0) →
        WInv L { common := c', heap := s.heap ++ [b] } := by
      intro c' g1 g2 g3 g4 g5 g6 g7 g8
      have hob : obt { common := c', heap := s.heap ++ [b] } = obt s := by
        show obtained c'.rdr.log = _; rw [g1]; rfl
      apply winv_of_alive
      · refine ⟨?_, ?_⟩
        · intro i
          show i ∈ c'.bodies ↔ _
          rw [g7, List.mem_append, hw.set.mem i]
          show _ ↔ ∃ b', (s.heap ++ [b])[i]? = some b' ∧ b'.closed = false
          rw [List.getElem?_append]
          by_cases hi : i < s.heap.length
          · simp only [hi, if_true]
            constructor
            · rintro (h | h)
              · exact h
              · simp at h; omega
            · exact .inl
          · simp only [hi, if_false]
            constructor
            · rintro (⟨b', hb', _⟩ | h)
              · obtain ⟨h', _⟩ := List.getElem?_eq_some_iff.1 hb'; exact absurd h' hi
              · simp at h; subst h; exact ⟨b, by simp, hcl⟩
            · rintro ⟨b', hb', _⟩
              right
              rw [List.getElem?_singleton] at hb'
              split at hb'
              · simp; omega
              · cases hb'
        · show c'.bodies.Nodup
          rw [g7, List.nodup_append]
          refine ⟨hw.set.nodup, by simp, ?_⟩
          intro a ha' x hx
          simp at hx; subst hx
          intro e; subst e; exact hnot ha'
      · refine ⟨⟨by rw [g4]; exact hc.hasR, by rw [g6]; exact hc.start0, by rw [hob, g6]; exact hc.startLe,
          by rw [hob, g6, g2]; exact hc.bytes, ?_, by rw [g3, g5, g1]; exact hc.live,
          by rw [g3, g5, g1, hob]; exact hc.over, by rw [hob]; exact hc.within⟩, ?_, ?_⟩
        · intro x hx hxc
          rw [hob, g6, g3]
          rcases List.mem_append.1 hx with hx | hx
          · exact hc.offs x hx hxc
          · simp at hx; subst hx; exact hc.offs x hbm hxc
        · show c'.refcnt = ((s.heap ++ [b]).countP (atPos c'.start) : Int)
          rw [g8, g6, ha.cnt, List.countP_append]
          by_cases ho : b.offset = s.common.start
          · simp [atPos, ho, hcl]
          · simp [atPos, ho]
        · show 1 ≤ c'.refcnt
          rw [g8]; have := ha.pos; split <;> omega
      · exact ⟨b, by simp, hcl⟩
    unfold BufSys.ref
    simp only [hnot, if_false]
    split
    · rename_i ho
      exact key _ rfl rfl rfl rfl rfl rfl rfl (by simp [ho])
    · rename_i ho
      exact key _ rfl rfl rfl rfl rfl rfl rfl (by simp [ho])

/-! ## Close -/

theorem updateStart_heap (s : BufSys (Rec σ)) (hp : List BufBody)
    (ho : ({ s with heap := hp } : BufSys (Rec σ)).offsets = s.offsets) :
    ({ s with heap := hp } : BufSys (Rec σ)).updateStart =
      ({ s.updateStart.1 with heap := hp }, s.updateStart.2) := by
  unfold BufSys.updateStart
  rw [ho]
  simp only
  split
  · rfl
  · split
    · rfl
    · split <;> rfl

/-- What a `Close` on an open body did. -/
theorem close_spec (R : Rdr σ) [R.CloseOk] (L : Int) (s : BufSys (Rec σ)) (hw : WInv L s) {h : Nat} {b : BufBody}
    (hb : s.heap[h]? = some b) (hcl : b.closed = false) :
    ∃ c' e, s.close R.record h b =
        ({ common := c', heap := s.heap.set h { offset := 0, eof := false, closed := true } }, .closed e) ∧
      WInv L { common := c', heap := s.heap.set h { offset := 0, eof := false, closed := true } } ∧
      ((∃ i b', i ≠ h ∧ s.heap[i]? = some b' ∧ b'.closed = false) → e = none ∧ c'.rdr = s.common.rdr ∧
        c'.err = s.common.err) ∧
      ((∀ i b', i ≠ h → s.heap[i]? = some b' → b'.closed = true) →
        (R.isCloser = true → (R.close s.common.rdr.inner).2 = .ok e ∧
          c'.rdr = ⟨(R.close s.common.rdr.inner).1, s.common.rdr.log ++ [.close (.ok e)]⟩) ∧
        (R.isCloser = false → e = none ∧ c'.rdr = s.common.rdr)) := by
  have hbm := List.mem_of_getElem? hb
  have ha := hw.alive ⟨b, hbm, hcl⟩
  have hc := ha.core
  let cb : BufBody := { offset := 0, eof := false, closed := true }
  let bs := s.common.bodies.filter (· ≠ h)
  -- the set after removal is the set of open bodies after closing
  have hset : ∀ c' : BufCommon (Rec σ), c'.bodies = bs → SetOk { common := c', heap := s.heap.set h cb } := by
    intro c' g
    refine ⟨?_, by rw [g]; exact hw.set.nodup.filter _⟩
    intro i
    show i ∈ c'.bodies ↔ ∃ b', (s.heap.set h cb)[i]? = some b' ∧ b'.closed = false
    rw [g]
    simp only [bs, List.mem_filter, hw.set.mem i, decide_not, Bool.not_eq_true', decide_eq_false_iff_not]
    by_cases hi : h = i
    · subst hi
      rw [set_get hb]
      simp [cb]
    · rw [List.getElem?_set_ne hi]
      have : ¬ i = h := fun e => hi e.symm
      simp [this]
  have hmemo : ∀ i, i ∈ bs ↔ (i ≠ h ∧ ∃ b', s.heap[i]? = some b' ∧ b'.closed = false) := by
    intro i; simp [bs, hw.set.mem i, and_comm]
  unfold BufSys.close
  simp only [hcl, Bool.false_eq_true, if_false]
  unfold BufSys.unref
  simp only
  by_cases hne : bs.length > 0
  · rw [if_pos hne]
    have hex : ∃ i b', i ≠ h ∧ s.heap[i]? = some b' ∧ b'.closed = false := by
      cases hbs : bs with
      | nil => rw [hbs] at hne; simp at hne
      | cons i l =>
        obtain ⟨h1, b', h2, h3⟩ := (hmemo i).1 (by rw [hbs]; simp)
        exact ⟨i, b', h1, h2, h3⟩
    have hnall : ¬ (∀ i b', i ≠ h → s.heap[i]? = some b' → b'.closed = true) := by
      intro hall
      obtain ⟨i, b', h1, h2, h3⟩ := hex
      rw [hall i b' h1 h2] at h3; cases h3
    have hopen : ∃ b' ∈ s.heap.set h cb, b'.closed = false := by
      obtain ⟨i, b', h1, h2, h3⟩ := hex
      exact ⟨b', List.mem_of_getElem? (by rw [List.getElem?_set_ne (fun e => h1 e.symm)]; exact h2), h3⟩
    -- the core invariant after closing
    have hcore : ∀ c' : BufCommon (Rec σ), c'.rdr = s.common.rdr → c'.bytes = s.common.bytes →
        c'.err = s.common.err → c'.hasR = s.common.hasR → c'.length = s.common.length →
        c'.start = s.common.start → Core L { common := c', heap := s.heap.set h cb } := by
      intro c' g1 g2 g3 g4 g5 g6
      have hob : obt { common := c', heap := s.heap.set h cb } = obt s := by
        show obtained c'.rdr.log = _; rw [g1]; rfl
      refine ⟨by rw [g4]; exact hc.hasR, by rw [g6]; exact hc.start0, by rw [hob, g6]; exact hc.startLe,
        by rw [hob, g6, g2]; exact hc.bytes, ?_, by rw [g3, g5, g1]; exact hc.live,
        by rw [g3, g5, g1, hob]; exact hc.over, by rw [hob]; exact hc.within⟩
      intro x hx hxc
      rw [hob, g6, g3]
      rcases mem_set_cases hx with hx | rfl
      · exact hc.offs x hx hxc
      · simp [cb] at hxc
    have hcount := countP_set' (p := atPos s.common.start) (a := cb) hb
    have hcb : atPos s.common.start cb = false := by simp [atPos, cb]
    rw [hcb] at hcount
    simp only [Bool.false_eq_true, if_false] at hcount
    have hcnt := ha.cnt
    have hpos := ha.pos
    by_cases hst : b.offset = s.common.start
    · rw [if_pos hst]
      have hab : atPos s.common.start b = true := by simp [atPos, hcl, hst]
      rw [hab, if_pos rfl] at hcount
      by_cases hz : s.common.refcnt - 1 ≤ 0
      · rw [if_pos hz]
        let c1 : BufCommon (Rec σ) := { s.common with bodies := bs, refcnt := s.common.refcnt - 1 }
        have hcr : Core L { common := c1, heap := s.heap.set h cb } := hcore c1 rfl rfl rfl rfl rfl rfl
        obtain ⟨c', h1, h2, h3, h4, h5⟩ := updateStart_spec L _ hcr (hset c1 rfl) hopen
        have hoff : ({ common := c1, heap := s.heap.set h cb } : BufSys (Rec σ)).offsets =
            ({ common := c1, heap := s.heap } : BufSys (Rec σ)).offsets := by
          unfold BufSys.offsets
          apply filterMap_congr'
          intro i hi
          have := ((hmemo i).1 hi).1
          show Option.map _ (s.heap.set h cb)[i]? = Option.map _ s.heap[i]?
          rw [List.getElem?_set_ne (fun e => this e.symm)]
        have hu := updateStart_heap ({ common := c1, heap := s.heap } : BufSys (Rec σ)) (s.heap.set h cb) hoff
        rw [h1] at hu
        simp only [Prod.mk.injEq] at hu
        obtain ⟨hu1, hu2⟩ := hu
        generalize hU : ({ common := c1, heap := s.heap } : BufSys (Rec σ)).updateStart = U at hu1 hu2
        have hheap : U.1.heap = s.heap := by
          rw [← hU]; unfold BufSys.updateStart; simp only
          split
          · rfl
          · split
            · rfl
            · split <;> rfl
        rw [← hu2]
        simp only
        have hUc : U.1.common = c' := by
          have := congrArg BufSys.common hu1
          exact this.symm
        rw [hUc, hheap]
        exact ⟨c', none, rfl, winv_of_alive (hset c' h3) h5 hopen, fun _ => ⟨rfl, h2, h4⟩,
          fun hall => absurd hall hnall⟩
      · rw [if_neg hz]
        simp only
        refine ⟨_, none, rfl, winv_of_alive (hset _ rfl) ⟨hcore _ rfl rfl rfl rfl rfl rfl, ?_, ?_⟩ hopen,
          fun _ => ⟨rfl, rfl, rfl⟩, fun hall => absurd hall hnall⟩
        · show s.common.refcnt - 1 = ((s.heap.set h cb).countP (atPos s.common.start) : Int)
          omega
        · show 1 ≤ s.common.refcnt - 1
          omega
    · rw [if_neg hst]
      have hab : atPos s.common.start b = false := by simp [atPos, hst]
      rw [hab] at hcount
      simp only [Bool.false_eq_true, if_false] at hcount
      simp only
      refine ⟨_, none, rfl, winv_of_alive (hset _ rfl) ⟨hcore _ rfl rfl rfl rfl rfl rfl, ?_, hpos⟩ hopen,
          fun _ => ⟨rfl, rfl, rfl⟩, fun hall => absurd hall hnall⟩
      show s.common.refcnt = ((s.heap.set h cb).countP (atPos s.common.start) : Int)
      omega
  · rw [if_neg hne]
    have hbs : bs = [] := List.eq_nil_of_length_eq_zero (by omega)
    have hnone : ¬ (∃ i b', i ≠ h ∧ s.heap[i]? = some b' ∧ b'.closed = false) := by
      rintro ⟨i, b', h1, h2, h3⟩
      have := (hmemo i).2 ⟨h1, b', h2, h3⟩
      rw [hbs] at this; simp at this
    have hdead : ∀ b' ∈ s.heap.set h cb, b'.closed = true := by
      intro b' hb'
      obtain ⟨i, hi⟩ := List.mem_iff_getElem?.1 hb'
      by_cases hih : h = i
      · subst hih; rw [set_get hb] at hi; cases hi; rfl
      · rw [List.getElem?_set_ne hih] at hi
        cases hcl' : b'.closed with
        | true => rfl
        | false => exact absurd ⟨i, b', fun e => hih e.symm, hi, hcl'⟩ hnone
    have hwinv : ∀ c' : BufCommon (Rec σ), c'.bodies = [] → c'.hasR = false → c'.bytes = [] →
        c'.err = none → c'.length = 0 → c'.start = 0 → WInv L { common := c', heap := s.heap.set h cb } := by
      intro c' g1 g2 g3 g4 g5 g6
      refine ⟨hset c' (by rw [g1, hbs]), ?_, fun _ => ⟨g2, g3, g4, g5, g6⟩⟩
      rintro ⟨b', hb', hcl'⟩
      rw [hdead b' hb'] at hcl'; cases hcl'
    have hR := hc.hasR
    by_cases hclo : R.isCloser = true
    · have : (s.common.hasR && R.record.isCloser) = true := by simp [hR, Rdr.record, hclo]
      rw [if_pos this]
      obtain ⟨e, he⟩ := Rdr.CloseOk.close (R := R) hclo s.common.rdr.inner
      have hrec : R.record.close s.common.rdr =
          (⟨(R.close s.common.rdr.inner).1, s.common.rdr.log ++ [.close (.ok e)]⟩, .ok e) := by
        simp only [Rdr.record, he]
      simp only [hrec]
      refine ⟨_, _, rfl, hwinv _ rfl rfl rfl rfl rfl rfl, fun hx => absurd hx hnone, fun _ => ⟨fun _ => ⟨he, rfl⟩, ?_⟩⟩
      intro hf; rw [hclo] at hf; cases hf
    · have : ¬ (s.common.hasR && R.record.isCloser) = true := by simp [hR, Rdr.record, hclo]
      rw [if_neg this]
      simp only
      refine ⟨_, _, rfl, hwinv _ rfl rfl rfl rfl rfl rfl, fun hx => absurd hx hnone, fun _ => ⟨?_, fun _ => ⟨rfl, rfl⟩⟩⟩
      intro hf; exact absurd hf hclo

/-! ## The initial state -/

theorem init_winv (st : σ) (L : Int) : WInv L (BufSys.init ⟨st, []⟩ L) := by
  unfold BufSys.init BufSys.ref
  simp only [List.not_mem_nil, if_false, if_true, List.nil_append]
  apply winv_of_alive
  · refine ⟨?_, by simp⟩
    intro i
    cases i <;> simp
  · refine ⟨⟨rfl, by simp, by simp, by simp [obt, obtained], ?_, ?_, by simp, ?_⟩, by simp [atPos], by simp⟩
    · intro b hb _; simp at hb; subst hb; simp [obt, obtained]
    · intro _; exact ⟨rfl, rfl⟩
    · intro h; simpa [obt, obtained] using h
  · exact ⟨_, by simp; rfl, rfl⟩

end Verif
