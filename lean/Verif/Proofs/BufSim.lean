import Verif.Proofs.BufStep

/-! # Stream-backed families behave like cursors: the step -/

set_option linter.unusedSimpArgs false

set_option autoImplicit false

namespace Verif
open Spec

variable {σ : Type}

/-- A buffered body and the cursor it stands for. -/
structure BRel (C : List Byte) (b : BufBody) (c : Cursor) : Prop where
  opn : c.isOpen = !b.closed
  content : c.content = C
  pos : b.closed = false → b.offset = c.pos
  eof : b.closed = false → b.eof = c.done

/-- `C` is a possible completion of what the log shows. -/
def Pre (L : Int) (C : List Byte) (fin : Err) (log : List Call) : Prop :=
  obtained log <+: C ∧ ∀ e, term L log = some e → obtained log = C ∧ e = fin

theorem explained_idle (L : Int) (log : List Call) :
    Explained L log log { stale := (term L log).isNone } :=
  ⟨rfl, rfl, by simp, by intro e h; simp at h, by simp⟩

theorem closes_append (a b : List Call) : closes (a ++ b) = closes a ++ closes b := by
  simp [closes]

/-- Some body is open. -/
def AnyOpen (s : BufSys (Rec σ)) : Prop := ∃ b ∈ s.heap, b.closed = false

/-- A request made during the call `op` in state `s`, after the calls `pre`, is one C12 allows. -/
def ReqFor (L : Int) (s : BufSys (Rec σ)) (op : Op) (pre : List Call) (n : Nat) : Prop :=
  ∃ h k b, op = .read h k ∧ s.heap[h]? = some b ∧ b.closed = false ∧ b.eof = false ∧ 0 < n ∧
    ended (s.common.rdr.log ++ pre) = none ∧ ((obt s).length : Int) < b.offset + k ∧
    ((obtained (s.common.rdr.log ++ pre)).length : Int) + n < b.offset + k + 65536 ∧
    (0 ≤ L → ((obtained (s.common.rdr.log ++ pre)).length : Int) + n ≤ L)

/-- What one call does, whatever the call and the reader. -/
structure StepRes (R : Rdr σ) (L : Int) (s : BufSys (Rec σ)) (op : Op) (r : BufSys (Rec σ) × Out)
    (ext : List Call) : Prop where
  blame : ∀ p, r.2 = .panic p → Blame p ext
  hang : r.2 = .hang → ∃ h k, op = .read h k
  cls : (closes ext = [] ∧ (AnyOpen s ↔ AnyOpen r.1)) ∨
    (AnyOpen s ∧ ¬ AnyOpen r.1 ∧ ((R.isCloser = true ∧ ∃ e, ext = [.close (.ok e)] ∧ r.2 = .closed e) ∨
      (R.isCloser = false ∧ ext = [] ∧ r.2 = .closed none)))
  reqs : ∀ pre n a post, ext = pre ++ .read n a :: post → ReqFor L s op pre n
  inv : WInv L r.1
  log : r.1.common.rdr.log = s.common.rdr.log ++ ext
  mono : term L s.common.rdr.log = none ∨ (obtained ext = [] ∧ ended ext = none)
  sim : ∀ C fin f, Pw (BRel C) s.heap f → Pre L C fin r.1.common.rdr.log → r.2 ≠ .hang →
    ∃ ch, Explained L s.common.rdr.log r.1.common.rdr.log ch ∧ r.2 = (Spec.step (streamCfg L fin) ch f op).2 ∧
      Pw (BRel C) r.1.heap (Spec.step (streamCfg L fin) ch f op).1

theorem stepRes_idle {R : Rdr σ} {L : Int} {s : BufSys (Rec σ)} {op : Op} {o : Out} (hw : WInv L s)
    (hp : ∀ p, o ≠ .panic p) (hn : o ≠ .hang)
    (h : ∀ C fin f, Pw (BRel C) s.heap f → Pre L C fin s.common.rdr.log →
      Spec.step (streamCfg L fin) { stale := (term L s.common.rdr.log).isNone } f op = (f, o)) :
    StepRes R L s op (s, o) [] := by
  refine ⟨fun p h => absurd h (hp p), fun h => absurd h hn, .inl ⟨rfl, Iff.rfl⟩, by simp, hw, by simp,
    .inr ⟨rfl, rfl⟩, ?_⟩
  intro C fin f hf hp _
  refine ⟨_, explained_idle L _, ?_, ?_⟩
  · rw [h C fin f hf hp]
  · rw [h C fin f hf hp]; exact hf

theorem prefix_take {A C : List Byte} (h : A <+: C) {p k : Nat} (hk : p + k ≤ A.length) :
    (C.drop p).take k = (A.drop p).take k := by
  obtain ⟨t, rfl⟩ := h
  rw [List.drop_append_of_le_length (by omega), List.take_append_of_le_length (by simp; omega)]

theorem openCount_eq {C : List Byte} {s : List BufBody} {f : List Cursor} (h : Pw (BRel C) s f) :
    openCount f = s.countP (fun b => !b.closed) := by
  unfold openCount
  obtain ⟨hl, hp⟩ := h
  induction s generalizing f with
  | nil => cases f with
    | nil => rfl
    | cons c f => simp at hl
  | cons b s ih => cases f with
    | nil => simp at hl
    | cons c f =>
      have h0 := (hp 0 b c (by simp) (by simp)).opn
      have := ih (f := f) (by simpa using hl) (fun i a b' ha hb => hp (i + 1) a b' (by simpa using ha) (by simpa using hb))
      rw [List.countP_cons, List.countP_cons, this, h0]

theorem openCount_one {C : List Byte} {s : List BufBody} {f : List Cursor} (h : Pw (BRel C) s f) {i : Nat}
    {b : BufBody} (hb : s[i]? = some b) (hcl : b.closed = false) :
    openCount f = 1 ↔ ∀ j b', j ≠ i → s[j]? = some b' → b'.closed = true := by
  rw [openCount_eq h]
  have hc := countP_set' (p := fun b => !b.closed) (a := { offset := 0, eof := false, closed := true }) hb
  simp only [hcl, Bool.not_false, if_true, Bool.not_true, Bool.false_eq_true, if_false] at hc
  constructor
  · intro h1 j b' hj hb'
    have h0 : (s.set i { offset := 0, eof := false, closed := true }).countP (fun b => !b.closed) = 0 := by omega
    rw [List.countP_eq_zero] at h0
    have := h0 b' (List.mem_of_getElem? (i := j) (by rw [List.getElem?_set_ne (fun e => hj e.symm)]; exact hb'))
    simpa using this
  · intro hall
    have h0 : (s.set i { offset := 0, eof := false, closed := true }).countP (fun b => !b.closed) = 0 := by
      rw [List.countP_eq_zero]
      intro b' hb'
      obtain ⟨j, hj⟩ := List.mem_iff_getElem?.1 hb'
      by_cases hij : i = j
      · subst hij; rw [set_get hb] at hj; cases hj; simp
      · rw [List.getElem?_set_ne hij] at hj
        simp [hall j b' (fun e => hij e.symm) hj]
    omega

theorem reqOk_closes {num : Int} {ext : List Call} (h : ReqOk num ext) : closes ext = [] := by
  unfold closes
  rw [List.filterMap_eq_nil_iff]
  intro c hc
  obtain ⟨pre, post, he⟩ := List.append_of_mem hc
  obtain ⟨n, r, h1, _⟩ := h pre c post he
  subst h1; rfl

theorem step_read (R : Rdr σ) (fuel : Nat) (L : Int) (s : BufSys (Rec σ)) (hw : WInv L s) (h k : Nat)
    (hk : k < 2 ^ 62) {b : BufBody} (hb : s.heap[h]? = some b) :
    ∃ ext, StepRes R L s (.read h k) (s.read R.record fuel h b k) ext := by
  by_cases hcl : b.closed = true
  · refine ⟨[], ?_⟩
    have : s.read R.record fuel h b k = (s, .read [] (some .closed)) := by simp [BufSys.read, hcl]
    rw [this]
    apply stepRes_idle hw (by simp) (by simp)
    intro C fin f hf hp
    obtain ⟨c, hc, hr⟩ := hf.get hb
    have hop : c.isOpen = false := by rw [hr.opn, hcl]; rfl
    simp only [Spec.step, Op.h, hc, Cursor.read, hop, Bool.not_false, if_true, set_self hc]
  · have hcl : b.closed = false := by simpa using hcl
    have ha := hw.alive ⟨b, List.mem_of_getElem? hb, hcl⟩
    by_cases he : b.eof = true
    · refine ⟨[], ?_⟩
      obtain ⟨_, _, h3⟩ := ha.core.offs b (List.mem_of_getElem? hb) hcl
      have hne := (h3 he).2
      have : s.read R.record fuel h b k = (s, .read [] s.common.err) := by simp [BufSys.read, hcl, he]
      rw [this]
      apply stepRes_idle hw (by simp) (by simp)
      intro C fin f hf hp
      obtain ⟨c, hc, hr⟩ := hf.get hb
      have hop : c.isOpen = true := by rw [hr.opn, hcl]; rfl
      have hd : c.done = true := by rw [← hr.eof hcl, he]
      cases herr : s.common.err with
      | none => exact absurd herr hne
      | some e =>
        obtain ⟨_, rfl⟩ := hp.2 e (ha.core.over e herr).2
        simp only [Spec.step, Op.h, hc, Cursor.read, hop, hd, Bool.not_true, Bool.false_eq_true, if_false,
          if_true, set_self hc, streamCfg]
    · have he : b.eof = false := by simpa using he
      obtain ⟨ext, F⟩ := read_spec R fuel L s hw hb hcl he k hk
      obtain ⟨fr0, FR0⟩ := F.fill
      obtain ⟨num0, hq0, hq1, hq2⟩ := FR0.req
      have hlenB : s.common.start + (s.common.bytes.length : Int) = (obt s).length := by
        rw [ha.core.bytes]; simp; have := ha.core.startLe; have := ha.core.start0; omega
      have hopen : AnyOpen s := ⟨b, List.mem_of_getElem? hb, hcl⟩
      refine ⟨ext, ?_, fun _ => ⟨h, k, rfl⟩, ?_, ?_, F.inv, F.log, ?_, ?_⟩
      · intro p hp
        rcases F.res with ⟨o, h1, _, h3⟩ | ⟨h1, _⟩
        · rw [h1] at hp; subst hp
          rcases h3 with h3 | ⟨p', h4, h5⟩
          · cases h3
          · cases h4; exact h5
        · rw [h1] at hp; cases hp
      · left
        refine ⟨reqOk_closes hq0, ⟨fun _ => ?_, fun _ => hopen⟩⟩
        rcases F.res with ⟨o, _, h2, _⟩ | ⟨_, _, h2⟩
        · obtain ⟨x, hx, hxc⟩ := hopen
          exact ⟨x, by rw [h2]; exact hx, hxc⟩
        · exact ⟨servedBody (obt (s.read R.record fuel h b k).1) b k,
            by rw [h2]; exact List.mem_of_getElem? (set_get hb), hcl⟩
      · intro pre n a post hext
        obtain ⟨n', r', k1, k2, k3, k4, _⟩ := hq0 pre _ post hext
        cases k1
        have hne : ext ≠ [] := by rw [hext]; simp
        have hterm : term L s.common.rdr.log = none := by
          rcases F.err with h1 | h1
          · exact h1
          · exact absurd h1 hne
        have hended : ended s.common.rdr.log = none := by
          cases hh : ended s.common.rdr.log with
          | none => rfl
          | some e => simp [term, hh] at hterm
        have hO : (obt s).length = (obtained s.common.rdr.log).length := rfl
        refine ⟨h, k, b, rfl, hb, hcl, he, k2, ?_, ?_, ?_, ?_⟩
        · rw [ended_append, hended, k4]; rfl
        · apply Classical.byContradiction
          intro hcon
          exact hne (FR0.idle (.inr (by omega))).1
        · rw [obtained_append, List.length_append]; omega
        · intro hL; have := hq2 hL; rw [obtained_append, List.length_append]; omega
      · rcases F.err with h1 | h1
        · exact .inl h1
        · subst h1; exact .inr ⟨rfl, rfl⟩
      intro C fin f hf hp hh
      obtain ⟨c, hc, hr⟩ := hf.get hb
      have hop : c.isOpen = true := by rw [hr.opn, hcl]; rfl
      have hd : c.done = false := by rw [← hr.eof hcl, he]
      have hpos := hr.pos hcl
      have hnoclose : ∀ e, s.common.rdr.log ++ ext ≠ s.common.rdr.log ++ [Call.close e] := by
        intro e heq
        obtain ⟨fr, FR⟩ := F.fill
        obtain ⟨num, hq, _⟩ := FR.req
        have : ext = [.close e] := by simpa using heq
        obtain ⟨n, r, h1, _⟩ := hq [] _ [] (by simpa using this)
        cases h1
      rcases F.res with ⟨o, h1, h2, h3⟩ | ⟨h1, h2, h3⟩
      · rcases h3 with rfl | ⟨p, rfl, hbl⟩
        · exact absurd h1 hh
        · refine ⟨{ stale := (term L s.common.rdr.log).isNone, crash := some p }, ?_, ?_, ?_⟩
          · refine ⟨rfl, rfl, ?_, ?_, fun _ => rfl⟩
            · intro p' hp'; simp at hp'; subst hp'; exact ⟨ext, F.log, hbl⟩
            · intro e heq; rw [F.log] at heq; exact absurd heq (hnoclose _)
          · rw [h1]
            simp [Spec.step, Op.h, hc, Cursor.read, hop, hd]
          · rw [h2]
            simp [Spec.step, Op.h, hc, Cursor.read, hop, hd, set_self hc]
            exact hf
      · generalize hrr : s.read R.record fuel h b k = rr at *
        have hO : obt rr.1 = obtained rr.1.common.rdr.log := rfl
        rw [hO] at h1 h2 h3
        generalize hlog : rr.1.common.rdr.log = log' at *
        refine ⟨{ stale := (term L s.common.rdr.log).isNone }, ?_, ?_⟩
        · exact ⟨rfl, rfl, by simp, fun e heq => absurd (by rw [← F.log, hlog]; exact heq) (hnoclose _), fun _ => rfl⟩
        · have hnat : b.offset.toNat = c.pos := by omega
          have hb2 : b.offset ≤ ((obtained log').length : Int) := by
            have := (ha.core.offs b (List.mem_of_getElem? hb) hcl).2.1
            have h4 : (obt s).length ≤ (obtained log').length := by
              rw [← hlog, F.log, obtained_append]; simp [obt]
            omega
          by_cases hgt : b.offset + (k : Int) > (obtained log').length
          · obtain ⟨hne, _⟩ := h2 hgt
            cases hterm : term L log' with
            | none => exact absurd hterm hne
            | some e =>
              obtain ⟨hC, rfl⟩ := hp.2 e hterm
              have hlt : c.content.length < c.pos + k := by rw [hr.content, ← hC]; omega
              rw [if_pos hgt, hterm, hnat] at h1
              have hdl : (((obtained log').drop c.pos).take k).length = (obtained log').length - c.pos := by
                simp; omega
              simp only [Spec.step, Op.h, hc, Cursor.read, hop, hd, Bool.not_true, Bool.false_eq_true, if_false,
                hlt, decide_true, Bool.true_or, if_true, streamCfg]
              refine ⟨?_, ?_⟩
              · rw [h1, hr.content, hC]
              · rw [h3]
                apply hf.set
                refine ⟨by simp [servedBody, hop, hcl], by simp [hr.content], ?_, ?_⟩
                · intro _; simp only [servedBody]
                  rw [hr.content, ← hC, hdl]; omega
                · intro _; simp [servedBody]; right; omega
          · have hle : c.pos + k ≤ (obtained log').length := by omega
            have hlt : ¬ c.content.length < c.pos + k := by
              have := hp.1.length_le
              rw [hr.content]; omega
            rw [if_neg hgt, hnat] at h1
            have hdt := prefix_take hp.1 hle
            have hdl : (((obtained log').drop c.pos).take k).length = k := by
              simp; omega
            simp only [Spec.step, Op.h, hc, Cursor.read, hop, hd, Bool.not_true, Bool.false_eq_true, if_false,
                hlt, decide_false, Bool.false_or, Bool.false_and, streamCfg]
            refine ⟨?_, ?_⟩
            · rw [h1, hr.content, hdt]
            · rw [h3]
              apply hf.set
              refine ⟨by simp [servedBody, hop, hcl], by simp [hr.content], ?_, ?_⟩
              · intro _; simp only [servedBody]
                rw [hr.content, hdt, hdl]; omega
              · intro _; simp [servedBody, he]; omega

theorem step_close (R : Rdr σ) [R.CloseOk] (L : Int) (s : BufSys (Rec σ)) (hw : WInv L s) (h : Nat)
    {b : BufBody} (hb : s.heap[h]? = some b) :
    ∃ ext, StepRes R L s (.close h) (s.close R.record h b) ext := by
  by_cases hcl : b.closed = true
  · refine ⟨[], ?_⟩
    have : s.close R.record h b = (s, .closed (some .closed)) := by simp [BufSys.close, hcl]
    rw [this]
    apply stepRes_idle hw (by simp) (by simp)
    intro C fin f hf hp
    obtain ⟨c, hc, hr⟩ := hf.get hb
    have hop : c.isOpen = false := by rw [hr.opn, hcl]; rfl
    simp only [Spec.step, Op.h, hc, hop, Bool.false_eq_true, if_false]
  · have hcl : b.closed = false := by simpa using hcl
    obtain ⟨c', e, h1, h2, h3, h4⟩ := close_spec R L s hw hb hcl
    rw [h1]
    have hopen : AnyOpen s := ⟨b, List.mem_of_getElem? hb, hcl⟩
    have hiff : AnyOpen ({ common := c', heap := s.heap.set h { offset := 0, eof := false, closed := true } } :
        BufSys (Rec σ)) ↔ ∃ i b', i ≠ h ∧ s.heap[i]? = some b' ∧ b'.closed = false := by
      constructor
      · rintro ⟨x, hx, hxc⟩
        obtain ⟨j, hj⟩ := List.mem_iff_getElem?.1 hx
        by_cases hij : h = j
        · subst hij; simp only at hj; rw [set_get hb] at hj; cases hj; cases hxc
        · simp only at hj
          rw [List.getElem?_set_ne hij] at hj
          exact ⟨j, x, fun e => hij e.symm, hj, hxc⟩
      · rintro ⟨j, x, h1, h2, h3⟩
        refine ⟨x, List.mem_of_getElem? (i := j) ?_, h3⟩
        simp only
        rw [List.getElem?_set_ne (fun e => h1 e.symm)]; exact h2
    by_cases hall : ∀ i b', i ≠ h → s.heap[i]? = some b' → b'.closed = true
    · obtain ⟨k1, k2⟩ := h4 hall
      have hnot : ¬ AnyOpen ({ common := c', heap := s.heap.set h { offset := 0, eof := false, closed := true } } :
          BufSys (Rec σ)) := by
        rw [hiff]
        rintro ⟨j, x, h1, h2, h3⟩
        rw [hall j x h1 h2] at h3; cases h3
      by_cases hR : R.isCloser = true
      · obtain ⟨he, hr⟩ := k1 hR
        refine ⟨[.close (.ok e)], by simp, by simp, .inr ⟨hopen, hnot, .inl ⟨hR, e, rfl, rfl⟩⟩, ?_, h2, by simp [hr], .inr ⟨rfl, rfl⟩, ?_⟩
        · intro pre n a post hx
          cases pre with
          | nil => simp at hx
          | cons y pre => simp at hx
        intro C fin f hf hp _
        obtain ⟨c, hc, hr'⟩ := hf.get hb
        have hop : c.isOpen = true := by rw [hr'.opn, hcl]; rfl
        refine ⟨{ stale := (term L s.common.rdr.log).isNone, closeErr := e }, ⟨rfl, rfl, by simp, ?_, ?_⟩, ?_, ?_⟩
        · intro e' heq; simp [hr] at heq; exact heq
        · intro heq; simp [hr] at heq
        · simp [Spec.step, Op.h, hc, hop, streamCfg, (openCount_one hf hb hcl).2 hall]
        · simp only [Spec.step, Op.h, hc, hop, if_true]
          apply hf.set
          exact ⟨rfl, hr'.content, by simp, by simp⟩
      · have hR : R.isCloser = false := by simpa using hR
        obtain ⟨he, hr⟩ := k2 hR
        refine ⟨[], by simp, by simp, .inr ⟨hopen, hnot, .inr ⟨hR, rfl, by rw [he]⟩⟩, by simp, h2, by simp [hr],
          .inr ⟨rfl, rfl⟩, ?_⟩
        intro C fin f hf hp _
        obtain ⟨c, hc, hr'⟩ := hf.get hb
        have hop : c.isOpen = true := by rw [hr'.opn, hcl]; rfl
        refine ⟨{ stale := (term L s.common.rdr.log).isNone }, ?_, ?_, ?_⟩
        · simp only [hr]; exact explained_idle L _
        · simp [Spec.step, Op.h, hc, hop, streamCfg, he]
        · simp only [Spec.step, Op.h, hc, hop, if_true]
          apply hf.set
          exact ⟨rfl, hr'.content, by simp, by simp⟩
    · have hex : ∃ i b', i ≠ h ∧ s.heap[i]? = some b' ∧ b'.closed = false := by
        apply Classical.byContradiction
        intro hn
        apply hall
        intro i b' hi hb'
        cases hc : b'.closed with
        | true => rfl
        | false => exact absurd ⟨i, b', hi, hb', hc⟩ hn
      obtain ⟨he, hr, _⟩ := h3 hex
      refine ⟨[], by simp, by simp, .inl ⟨rfl, ⟨fun _ => hiff.2 hex, fun _ => hopen⟩⟩, by simp, h2, by simp [hr],
        .inr ⟨rfl, rfl⟩, ?_⟩
      intro C fin f hf hp _
      obtain ⟨c, hc, hr'⟩ := hf.get hb
      have hop : c.isOpen = true := by rw [hr'.opn, hcl]; rfl
      refine ⟨{ stale := (term L s.common.rdr.log).isNone }, ?_, ?_, ?_⟩
      · simp only [hr]; exact explained_idle L _
      · simp [Spec.step, Op.h, hc, hop, streamCfg, he]
      · simp only [Spec.step, Op.h, hc, hop, if_true]
        apply hf.set
        exact ⟨rfl, hr'.content, by simp, by simp⟩

theorem step_remaining (R : Rdr σ) (L : Int) (s : BufSys (Rec σ)) (hw : WInv L s) (h : Nat)
    {b : BufBody} (hb : s.heap[h]? = some b) :
    StepRes R L s (.remaining h) (s, .remaining (s.bytesRemaining b)) [] := by
  apply stepRes_idle hw (by simp) (by simp)
  intro C fin f hf hp
  obtain ⟨c, hc, hr⟩ := hf.get hb
  simp only [Spec.step, Op.h, hc, Cursor.remaining, hr.opn, Bool.not_not, BufSys.bytesRemaining]
  by_cases hcl : b.closed = true
  · simp [hcl]
  · have hcl : b.closed = false := by simpa using hcl
    have ha := hw.alive ⟨b, List.mem_of_getElem? hb, hcl⟩
    obtain ⟨o1, o2, o3⟩ := ha.core.offs b (List.mem_of_getElem? hb) hcl
    have hpos := hr.pos hcl
    simp only [hcl, Bool.false_eq_true, if_false]
    have hcC := hr.content
    cases herr : s.common.err with
    | some e =>
      obtain ⟨q1, q2⟩ := ha.core.over e herr
      obtain ⟨hC, _⟩ := hp.2 e q2
      have hC : (obt s).length = C.length := by rw [← hC]; rfl
      simp only [q2, Option.isNone_some, Bool.false_eq_true, if_false, hcC, q1]
      by_cases he : b.eof = true
      · have := (o3 he).1
        rw [if_pos he]; congr 2; omega
      · rw [if_neg he, if_neg (by omega), if_neg (by omega)]; congr 2; omega
    | none =>
      obtain ⟨q1, q2⟩ := ha.core.live herr
      have he : b.eof = false := by
        cases hh : b.eof with
        | false => rfl
        | true => exact absurd herr (o3 hh).2
      have hwi := ha.core.within
      simp only [he, Bool.false_eq_true, if_false, q1]
      cases ht : term L s.common.rdr.log with
      | some e =>
        obtain ⟨hC, _⟩ := hp.2 e ht
        have hC : (obt s).length = C.length := by rw [← hC]; rfl
        have hL : L = (obt s).length := by
          simp only [term, q2] at ht
          split at ht
          · rename_i hh; exact hh
          · cases ht
        simp only [Option.isNone_some, Bool.false_eq_true, if_false, hcC]
        rw [if_neg (by omega), if_neg (by omega)]; congr 2; omega
      | none =>
        have hdec : (streamCfg L fin).declared = L := rfl
        simp only [Option.isNone_none, if_true, hdec]
        by_cases hL : L < 0
        · simp [hL]
        · have := hwi (by omega)
          simp only [hL, if_false]
          rw [if_neg (by omega), hpos]

/-- One call on a stream-backed family. -/
theorem buf_step (R : Rdr σ) [R.CloseOk] (fuel : Nat) (L : Int) (s : BufSys (Rec σ)) (hw : WInv L s) (op : Op)
    (hok : op.Small) : ∃ ext, StepRes R L s op (s.step R.record fuel op) ext := by
  unfold BufSys.step
  cases hb : s.heap[op.h]? with
  | none =>
    refine ⟨[], stepRes_idle hw (by simp) (by simp) ?_⟩
    intro C fin f hf _
    simp only [Spec.step, (hf.none_iff op.h).1 hb]
  | some b =>
    cases op with
    | read h k => exact step_read R fuel L s hw h k hok hb
    | remaining h => exact ⟨[], step_remaining R L s hw h hb⟩
    | close h => exact step_close R L s hw h hb
    | copy h =>
      simp only
      by_cases hcl : b.closed = true
      · refine ⟨[], ?_⟩
        have : s.copy b = (s, .copiedClosed) := by simp [BufSys.copy, hcl]
        rw [this]
        apply stepRes_idle hw (by simp) (by simp)
        intro C fin f hf _
        obtain ⟨c, hc, hr⟩ := hf.get hb
        have hop : c.isOpen = false := by rw [hr.opn, hcl]; rfl
        simp only [Op.h] at hc
        simp [Spec.step, Op.h, hc, hop]
      · have hcl : b.closed = false := by simpa using hcl
        obtain ⟨s', h1, h2, h3, h4, h5⟩ := copy_spec L s hw hb hcl
        rw [h1]
        have hopen : AnyOpen s := ⟨b, List.mem_of_getElem? hb, hcl⟩
        refine ⟨[], by simp, by simp, .inl ⟨rfl, ⟨fun _ => ⟨b, by rw [h2]; simp, hcl⟩, fun _ => hopen⟩⟩, by simp, h5,
          by simp [h3], .inr ⟨rfl, rfl⟩, ?_⟩
        intro C fin f hf _ _
        obtain ⟨c, hc, hr⟩ := hf.get hb
        have hop : c.isOpen = true := by rw [hr.opn, hcl]; rfl
        simp only [Op.h] at hc
        refine ⟨_, by simp only [h3]; exact explained_idle L _, ?_, ?_⟩
        · simp [Spec.step, Op.h, hc, hop, hf.1]
        · simp only [Spec.step, Op.h, hc, hop, if_true, h2]
          exact hf.append hr
    | unwrap h =>
      refine ⟨[], stepRes_idle hw (by unfold BufSys.unwrap; split <;> simp) (by unfold BufSys.unwrap; split <;> simp) ?_⟩
      intro C fin f hf _
      obtain ⟨c, hc, hr⟩ := hf.get hb
      simp only [Op.h] at hc
      simp only [Spec.step, Op.h, hc, streamCfg, BufSys.unwrap, hr.opn]
      by_cases hcl : b.closed = true
      · simp [hcl]
      · have hcl : b.closed = false := by simpa using hcl
        have ha := hw.alive ⟨b, List.mem_of_getElem? hb, hcl⟩
        simp [hcl, ha.core.hasR]
    | readAt h k off =>
      refine ⟨[], stepRes_idle hw (by simp) (by simp) ?_⟩
      intro C fin f hf _
      obtain ⟨c, hc, hr⟩ := hf.get hb
      simp only [Op.h] at hc
      simp [Spec.step, Op.h, hc, streamCfg]
    | seek h off wh =>
      refine ⟨[], stepRes_idle hw (by simp) (by simp) ?_⟩
      intro C fin f hf _
      obtain ⟨c, hc, hr⟩ := hf.get hb
      simp only [Op.h] at hc
      simp [Spec.step, Op.h, hc, streamCfg]
    | writeTo h w =>
      refine ⟨[], stepRes_idle hw (by simp) (by simp) ?_⟩
      intro C fin f hf _
      obtain ⟨c, hc, hr⟩ := hf.get hb
      simp only [Op.h] at hc
      simp [Spec.step, Op.h, hc, streamCfg]

end Verif
