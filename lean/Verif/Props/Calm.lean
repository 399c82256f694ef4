import Verif.Spec.Calm

/-! # C60: panics and calls that do not return come from the objects that are served -/

set_option autoImplicit false

namespace Verif
open Spec
variable {α β ω : Type} {P : Panic → Prop} {H : Prop} {C : Int → Prop}

theorem runWT_within {write : ω → List Byte → ω × WAns} {Inv : β → Prop} {InvD : ω → Prop}
    (hw : ∀ w d, InvD w → Within P H (fun a => 0 ≤ a.1 ∧ a.1 ≤ d.length ∧ InvD (write w d).1) (write w d).2)
    (t : WT β) (ht : WTWithin P H Inv t) (w : ω) (hi : InvD w) :
    Within P H (fun a => 0 ≤ a.1 ∧ Inv (runWT write t w).1 ∧ InvD (runWT write t w).2.1) (runWT write t w).2.2 := by
  induction t generalizing w with
  | done b n err => exact ⟨ht.1, ht.2, hi⟩
  | panic b p => exact ht
  | hang b => exact ht
  | write b d cont ih =>
    have hr := hw w d hi
    unfold runWT
    generalize hq : write w d = q at hr
    obtain ⟨w', r⟩ := q
    cases r with
    | ret a => exact ih a.1 a.2 (ht _ _ hr.1 hr.2.1) w' hr.2.2
    | panic p => exact hr
    | hang => exact hr

theorem discardLoop_within {B : BodyOps β} {Inv : Nat → β → Prop} (hB : BodyWithin P H Inv B) (fuel : Nat) :
    ∀ (n : Nat) (b : β) (c : Int), Inv n b → 0 ≤ c → (H ∨ n < fuel) →
    Within P H (fun a => 0 ≤ a.1 ∧ ∃ m, Inv m (discardLoop B fuel b c).1 ∧ (H ∨ m ≤ n)) (discardLoop B fuel b c).2 := by
  induction fuel with
  | zero =>
    intro n b c hi hc hf
    rcases hf with h | h
    · exact h
    · omega
  | succ fuel ih =>
    intro n b c hi hc hf
    have hr := hB.read n b 8192 (by decide) hi
    unfold discardLoop
    generalize hq : B.read b 8192 = q at hr
    obtain ⟨b', r⟩ := q
    cases r with
    | panic p => exact hr
    | hang => exact hr
    | ret a =>
      obtain ⟨d, e⟩ := a
      obtain ⟨-, m, hm, hlt⟩ := hr
      cases e with
      | some e => exact ⟨by dsimp only; omega, m, hm, hlt.imp id (·.1)⟩
      | none =>
        have hf' : H ∨ m < fuel := by
          rcases hlt with h | ⟨_, h⟩
          · exact .inl h
          · have := h rfl (by decide)
            rcases hf with h' | h'
            · exact .inl h'
            · exact .inr (by omega)
        have := ih m b' (c + d.length) hm (by omega) hf'
        dsimp only at this ⊢
        generalize discardLoop B fuel b' (c + d.length) = z at this ⊢
        obtain ⟨b'', r⟩ := z
        cases r with
        | panic p => exact this
        | hang => exact this
        | ret a =>
          obtain ⟨h1, m', h2, h3⟩ := this
          refine ⟨h1, m', h2, ?_⟩
          rcases h3 with h | h3
          · exact .inl h
          · rcases hlt with h | ⟨h, _⟩
            · exact .inl h
            · exact .inr (Nat.le_trans h3 h)

theorem discardAll_within {B : BodyOps β} {Inv : Nat → β → Prop} (hB : BodyWithin P H Inv B) (fuel n : Nat) (b : β) (hi : Inv n b)
    (hf : H ∨ n < fuel) :
    Within P H (fun a => 0 ≤ a.1 ∧ ∃ m, Inv m (discardAll B fuel b).1 ∧ (H ∨ m ≤ n)) (discardAll B fuel b).2 := by
  unfold discardAll
  cases hw : B.isWriterTo with
  | false => exact discardLoop_within hB fuel n b 0 hi (Int.le_refl 0) hf
  | true =>
    have := runWT_within (P := P) (H := H) (ω := Unit) (write := fun w d => (w, .ret (d.length, none))) (InvD := fun _ => True)
      (fun w d _ => ⟨by dsimp only; omega, by dsimp only; omega, trivial⟩) (B.writeTo b) (hB.writeTo hw n b hi) () trivial
    dsimp only [if_true]
    simp only [if_true]
    generalize runWT (ω := Unit) (fun w d => (w, .ret (d.length, none))) (B.writeTo b) () = z at this ⊢
    obtain ⟨b', u, r⟩ := z
    cases r with
    | panic p => exact this
    | hang => exact this
    | ret a => exact ⟨this.1, this.2.1⟩

theorem runRF_within {B : BodyOps β} {Inv : Nat → β → Prop} {InvD : ω → Prop} (hB : BodyWithin P H Inv B) (fuel : Nat) (t : RF ω)
    (ht : RFWithin P H InvD t) : ∀ (n : Nat) (b : β), Inv n b → (H ∨ n < fuel) →
    Within P H (fun a => 0 ≤ a.1 ∧ (∃ m, Inv m (runRF B fuel t b).1) ∧ InvD (runRF B fuel t b).2.1) (runRF B fuel t b).2.2 := by
  induction t with
  | done w n err => intro m b hi _; exact ⟨ht.1, ⟨m, hi⟩, ht.2⟩
  | panic w p => intro _ _ _ _; exact ht
  | hang w => intro _ _ _ _; exact ht
  | read w k cont ih =>
    intro n b hi hf
    have hr := hB.read n b k ht.1 hi
    unfold runRF
    generalize B.read b k = q at hr
    obtain ⟨b', r⟩ := q
    cases r with
    | panic p => exact hr
    | hang => exact hr
    | ret a =>
      obtain ⟨hl, m, hm, hlt⟩ := hr
      refine ih a.1 a.2 (ht.2 _ _ hl) m b' hm ?_
      rcases hlt with h | h
      · exact .inl h
      · rcases hf with h' | h'
        · exact .inl h'
        · exact .inr (by omega)
  | drain w cont ih =>
    intro n b hi hf
    have hr := discardAll_within hB fuel n b hi hf
    unfold runRF
    generalize discardAll B fuel b = q at hr
    obtain ⟨b', r⟩ := q
    cases r with
    | panic p => exact hr
    | hang => exact hr
    | ret a =>
      obtain ⟨h0, m, hm, hlt⟩ := hr
      refine ih a.1 a.2 (ht _ _ h0) m b' hm ?_
      rcases hlt with h | h
      · exact .inl h
      · rcases hf with h' | h'
        · exact .inl h'
        · exact .inr (by omega)

theorem copyLoop_within {D : RW ω} {B : BodyOps β} {Inv : Nat → β → Prop} {Fresh InvD : ω → Prop} (hD : ClientWithin P H C Fresh InvD D)
    (hB : BodyWithin P H Inv B) (fuel : Nat) : ∀ (n : Nat) (b : β) (w : ω) (c : Int), Inv n b → InvD w → (H ∨ n < fuel) →
    Within P H (fun _ => (∃ m, Inv m (copyLoop D B fuel b w c).1) ∧ InvD (copyLoop D B fuel b w c).2.1) (copyLoop D B fuel b w c).2.2 := by
  induction fuel with
  | zero =>
    intro n b w c _ _ hf
    rcases hf with h | h
    · exact h
    · omega
  | succ fuel ih =>
    intro n b w c hi hw hf
    have hr := hB.read n b 32768 (by decide) hi
    unfold copyLoop
    generalize B.read b 32768 = q at hr
    obtain ⟨b', r⟩ := q
    cases r with
    | panic p => exact hr
    | hang => exact hr
    | ret a =>
      obtain ⟨d, er⟩ := a
      obtain ⟨hl, m, hm, hlt⟩ := hr
      dsimp only at hl hm hlt ⊢
      have hf' : er = none → H ∨ m < fuel := by
        intro he
        rcases hlt with h | ⟨_, h⟩
        · exact .inl h
        · have := h he (by decide)
          rcases hf with h' | h'
          · exact .inl h'
          · exact .inr (by omega)
      by_cases hpos : d.length > 0
      · rw [if_pos hpos, if_neg (show ¬ d.length > 32768 by omega)]
        have hwr := hD.write w d hw
        generalize D.write w d = q at hwr
        obtain ⟨w', r⟩ := q
        cases r with
        | panic p => exact hwr
        | hang => exact hwr
        | ret a =>
          obtain ⟨nw, ew⟩ := a
          obtain ⟨h0, h1, hw'⟩ := hwr
          have hbad : decide (nw < 0 ∨ (d.length : Int) < nw) = false := by
            dsimp only at h0 h1; simp only [decide_eq_false_iff_not]; omega
          dsimp only
          rw [hbad]
          simp only [Bool.false_and, Bool.false_eq_true, if_false]
          cases ew with
          | some e => exact ⟨⟨m, hm⟩, hw'⟩
          | none =>
            dsimp only
            by_cases hne : (d.length : Int) ≠ nw
            · rw [if_pos hne]; exact ⟨⟨m, hm⟩, hw'⟩
            · rw [if_neg hne]
              cases er with
              | some e => exact ⟨⟨m, hm⟩, hw'⟩
              | none => exact ih m b' w' _ hm hw' (hf' rfl)
      · rw [if_neg hpos]
        cases er with
        | some e => exact ⟨⟨m, hm⟩, hw⟩
        | none => exact ih m b' w _ hm hw (hf' rfl)

theorem ioCopy_within {D : RW ω} {B : BodyOps β} {Inv : Nat → β → Prop} {Fresh InvD : ω → Prop} (hD : ClientWithin P H C Fresh InvD D)
    (hB : BodyWithin P H Inv B) (fuel n : Nat) (b : β) (w : ω) (hi : Inv n b) (hw : InvD w) (hf : H ∨ n < fuel) :
    Within P H (fun _ => (∃ m, Inv m (ioCopy D B fuel b w).1) ∧ InvD (ioCopy D B fuel b w).2.1) (ioCopy D B fuel b w).2.2 := by
  unfold ioCopy
  cases hwt : B.isWriterTo with
  | true =>
    have := runWT_within hD.write (B.writeTo b) (hB.writeTo hwt n b hi) w hw
    simp only [if_true]
    generalize runWT D.write (B.writeTo b) w = z at this ⊢
    obtain ⟨b', w', r⟩ := z
    cases r with
    | panic p => exact this
    | hang => exact this
    | ret a => obtain ⟨_, ⟨m, hm, _⟩, h⟩ := this; exact ⟨⟨m, hm⟩, h⟩
  | false =>
    simp only [Bool.false_eq_true, if_false]
    cases hrf : D.isReaderFrom with
    | true =>
      have := runRF_within hB fuel (D.readFrom w) (hD.readFrom hrf w hw) n b hi hf
      simp only [if_true]
      generalize runRF B fuel (D.readFrom w) b = z at this ⊢
      obtain ⟨b', w', r⟩ := z
      cases r with
      | panic p => exact this
      | hang => exact this
      | ret a => exact this.2
    | false => exact copyLoop_within hD hB fuel n b w 0 hi hw hf

theorem pushAll_within {D : RW ω} {Fresh InvD : ω → Prop} (hD : ClientWithin P H C Fresh InvD D) (hp : D.isPusher = true) (urls : List GoStr) (w : ω)
    (hw : Fresh w) : match pushAll D urls w with
      | (w', none) => Fresh w'
      | (w', some r) => Within P H (fun _ => InvD w') r := by
  induction urls generalizing w with
  | nil => exact hw
  | cons url urls ih =>
    have := hD.push hp w url (hD.fresh w hw)
    unfold pushAll
    generalize D.push w url = q at this
    obtain ⟨w', r⟩ := q
    cases r with
    | panic p => exact this
    | hang => exact this
    | ret e =>
      cases e with
      | none => exact ih w' (this.2 hw)
      | some e =>
        dsimp only
        by_cases he : e ≠ .notSupported
        · rw [if_pos he]; exact this.1
        · rw [if_neg he]; exact ih w' (this.2 hw)

theorem setAll_within {D : RW ω} {Fresh InvD : ω → Prop} (hD : ClientWithin P H C Fresh InvD D) (hdrs : List (GoStr × List GoStr)) (w : ω)
    (hw : Fresh w) : Fresh (setAll D hdrs w) := by
  unfold setAll
  induction hdrs generalizing w with
  | nil => exact hw
  | cons e hdrs ih =>
    rw [List.foldl_cons]
    apply ih
    split
    · exact (hD.setHeader w _ _).1 hw
    · exact hw

/-- **C60.** `Serve` panics only with a value of a panic of the client or the Body, and does not return only if one of their calls does not. -/
theorem C60_serve {D : RW ω} {B : BodyOps β} {Inv : Nat → β → Prop} {Fresh InvD : ω → Prop} (hD : ClientWithin P H C Fresh InvD D)
    (hB : BodyWithin P H Inv B) (fuel n : Nat) (r : Resp β) (hcode : C r.code) (w : ω) (hw : Fresh w) (hi : Inv n r.body)
    (hf : H ∨ n < fuel) :
    Within P H (fun _ => InvD (serve D B fuel r w).2.1) (serve D B fuel r w).2.2 := by
  unfold serve
  have hp : match (if D.isPusher then pushAll D (hdrGet r.hdrs headerPush) w else (w, none)) with
      | (w', none) => Fresh w'
      | (w', some r) => Within P H (fun _ => InvD w') r := by
    cases h : D.isPusher with
    | true => exact pushAll_within hD h _ w hw
    | false => exact hw
  generalize (if D.isPusher then pushAll D (hdrGet r.hdrs headerPush) w else (w, none)) = q at hp
  obtain ⟨w1, o⟩ := q
  cases o with
  | some o => exact hp
  | none =>
    have h2 := setAll_within hD r.hdrs w1 hp
    have h3 := hD.writeHeader _ r.code h2 hcode
    dsimp only
    generalize D.writeHeader (setAll D r.hdrs w1) r.code = q at h3
    obtain ⟨w2, u⟩ := q
    cases u with
    | panic p => exact h3
    | hang => exact h3
    | ret u =>
      cases u
      have h4 := ioCopy_within hD hB fuel n r.body w2 hi h3 hf
      dsimp only
      generalize ioCopy D B fuel r.body w2 = q at h4
      obtain ⟨b, w3, u⟩ := q
      cases u with
      | panic p => exact h4
      | hang => exact h4
      | ret a =>
        obtain ⟨m, hm⟩ := h4.1
        have h5 := hB.close m b hm
        obtain ⟨c, err⟩ := a
        dsimp only
        generalize B.close b = q at h5
        obtain ⟨b', u⟩ := q
        cases u with
        | panic p => exact h5
        | hang => exact h5
        | ret err2 => exact h4.2

/-! ## Writers -/

/-- Nothing has been sent through the Writer. -/
def WFresh (Fresh : ω → Prop) (s : WState ω) : Prop := s.status = 0 ∧ Fresh s.next

/-- The wrapped ResponseWriter is in order. -/
def WInvD (Fresh Inv : ω → Prop) (s : WState ω) : Prop := (s.status = 0 → Fresh s.next) ∧ Inv s.next

theorem writeHeaderImpl_within {N : RW ω} {Fresh Inv : ω → Prop} (hN : ClientWithin P H StatusOk Fresh Inv N) (s : WState ω) (code : Int)
    (hs : Fresh s.next) (hlo : 100 ≤ code) (hhi : code ≤ 999) :
    Within P H (fun _ => WInvD Fresh Inv (Writer.writeHeaderImpl N s code).1 ∧ (Writer.writeHeaderImpl N s code).1.status = code)
      (Writer.writeHeaderImpl N s code).2 := by
  have := hN.writeHeader s.next code hs ⟨hlo, hhi⟩
  unfold Writer.writeHeaderImpl
  dsimp only
  generalize N.writeHeader s.next code = q at this
  obtain ⟨w, r⟩ := q
  cases r with
  | panic p => exact this
  | hang => exact this
  | ret u => exact ⟨⟨fun h => absurd h (by dsimp only; omega), this⟩, rfl⟩

theorem maybeWriteHeader_within {N : RW ω} {Fresh Inv : ω → Prop} (hN : ClientWithin P H StatusOk Fresh Inv N) (s : WState ω) (code : Int)
    (hs : WInvD Fresh Inv s) (hlo : 100 ≤ code) (hhi : code ≤ 999) :
    Within P H (fun _ => WInvD Fresh Inv (Writer.maybeWriteHeader N s code).1 ∧ (Writer.maybeWriteHeader N s code).1.status ≠ 0)
      (Writer.maybeWriteHeader N s code).2 := by
  unfold Writer.maybeWriteHeader
  rw [if_neg (show ¬ ¬ code ≥ 100 by omega), if_neg (show ¬ ¬ code ≤ 999 by omega)]
  by_cases h : s.status ≠ 0
  · rw [if_pos h]; exact ⟨hs, h⟩
  · rw [if_neg h]
    have := writeHeaderImpl_within hN s code (hs.1 (by omega)) hlo hhi
    generalize Writer.writeHeaderImpl N s code = q at this ⊢
    obtain ⟨w, r⟩ := q
    cases r with
    | panic p => exact this
    | hang => exact this
    | ret u => exact ⟨this.1, by have := this.2; dsimp only at this ⊢; omega⟩

theorem wrapRF_within {Fresh Inv : ω → Prop} (t : RF ω) (ht : RFWithin P H Inv t) (s : WState ω) (hs : s.status ≠ 0) :
    RFWithin P H (WInvD Fresh Inv) (Writer.wrapRF s t) := by
  induction t with
  | done w n err =>
    unfold Writer.wrapRF
    rw [if_neg (show ¬ ¬ n ≥ 0 from fun h => h ht.1)]
    exact ⟨ht.1, fun h => absurd h hs, ht.2⟩
  | read w k cont ih => exact ⟨ht.1, fun d e hl => ih d e (ht.2 d e hl)⟩
  | drain w cont ih => intro n e hl; exact ih n e (ht n e hl)
  | panic w p => exact ht
  | hang w => exact ht

/-- **C60.** The Writer made by `NewWriter` over a ResponseWriter is a ResponseWriter that panics or hangs no more often than that, except if
it is given a status out of range. -/
theorem C60_writer {N : RW ω} {Fresh Inv : ω → Prop} (hN : ClientWithin P H StatusOk Fresh Inv N) (raises : Bool)
    (hC : ∀ code, C code → StatusOk code ∨ P .badArg) :
    ClientWithin P H C (WFresh Fresh) (WInvD Fresh Inv) (Writer.ops N raises (Writer.kindFor N)) where
  fresh s h := ⟨fun _ => h.2, hN.fresh _ h.2⟩
  setHeader s k v := ⟨fun h => ⟨h.1, (hN.setHeader _ k v).1 h.2⟩, fun h => ⟨fun h0 => (hN.setHeader _ k v).1 (h.1 h0), (hN.setHeader _ k v).2 h.2⟩⟩
  push _ s url h := by
    show Within P H (fun _ => WInvD Fresh Inv (Writer.push N s url).1 ∧ (WFresh Fresh s → WFresh Fresh (Writer.push N s url).1)) (Writer.push N s url).2
    unfold Writer.push
    cases hp : N.isPusher with
    | false => exact ⟨h, fun h => h⟩
    | true =>
      have := hN.push hp s.next url h.2
      simp only [if_true]
      generalize N.push s.next url = q at this
      obtain ⟨w, r⟩ := q
      cases r with
      | panic p => exact this
      | hang => exact this
      | ret e => exact ⟨⟨fun h0 => this.2 (h.1 h0), this.1⟩, fun hf => ⟨hf.1, this.2 hf.2⟩⟩
  writeHeader s code h hcode := by
    show Within P H (fun _ => WInvD Fresh Inv (Writer.writeHeader N raises s code).1) (Writer.writeHeader N raises s code).2
    unfold Writer.writeHeader
    by_cases hlo : 100 ≤ code
    case neg =>
      rw [if_pos (show ¬ code ≥ 100 by omega)]
      exact (hC code hcode).resolve_left fun h => hlo h.1
    by_cases hhi : code ≤ 999
    case neg =>
      rw [if_neg (show ¬ ¬ code ≥ 100 by omega), if_pos hhi]
      exact (hC code hcode).resolve_left fun h => hhi h.2
    rw [if_neg (show ¬ ¬ code ≥ 100 by omega), if_neg (show ¬ ¬ code ≤ 999 by omega), if_neg (show ¬ s.status ≠ 0 from fun hn => hn h.1)]
    have := writeHeaderImpl_within hN s code h.2 hlo hhi
    generalize Writer.writeHeaderImpl N s code = q at this ⊢
    obtain ⟨w, r⟩ := q
    cases r with
    | panic p => exact this
    | hang => exact this
    | ret u => exact this.1
  write s d h := by
    show Within P H (fun a => 0 ≤ a.1 ∧ a.1 ≤ (d.length : Int) ∧ WInvD Fresh Inv (Writer.write N s d).1) (Writer.write N s d).2
    unfold Writer.write
    have h1 := maybeWriteHeader_within hN s 200 h (by omega) (by omega)
    generalize Writer.maybeWriteHeader N s 200 = q at h1
    obtain ⟨s1, r⟩ := q
    cases r with
    | panic p => exact h1
    | hang => exact h1
    | ret u =>
      cases u
      dsimp only
      by_cases hh : (s1.isHEAD || decide (s1.status = 204)) = true
      · rw [if_pos hh]; exact ⟨by dsimp only; omega, by dsimp only; omega, h1.1⟩
      · rw [if_neg hh]
        have h2 := hN.write s1.next d h1.1.2
        generalize N.write s1.next d = q at h2
        obtain ⟨w, r⟩ := q
        cases r with
        | panic p => exact h2
        | hang => exact h2
        | ret a =>
          obtain ⟨n, err⟩ := a
          have h0 : n ≥ 0 := h2.1
          dsimp only
          rw [if_neg (show ¬ ¬ n ≥ 0 from fun h => h h0)]
          have hst : s1.status ≠ 0 := h1.2
          refine ⟨h0, h2.2.1, ?_⟩
          dsimp only
          split <;> exact ⟨fun h => absurd h hst, h2.2.2⟩
  flush hk s h := by
    show Within P H (fun _ => WInvD Fresh Inv (Writer.flush N s).1) (Writer.flush N s).2
    have hfl : N.isFlusher = true := by
      simp only [Writer.ops, Writer.kindFor] at hk
      cases hf : N.isFlusher with
      | true => rfl
      | false => simp [hf] at hk
    unfold Writer.flush
    have h1 := maybeWriteHeader_within hN s 200 h (by omega) (by omega)
    generalize Writer.maybeWriteHeader N s 200 = q at h1
    obtain ⟨s1, r⟩ := q
    cases r with
    | panic p => exact h1
    | hang => exact h1
    | ret u =>
      cases u
      have h2 := hN.flush hfl s1.next h1.1.2
      have hst : s1.status ≠ 0 := h1.2
      simp only [hfl, Bool.not_true, Bool.false_eq_true, if_false]
      generalize N.flush s1.next = q at h2
      obtain ⟨w, r⟩ := q
      cases r with
      | panic p => exact h2
      | hang => exact h2
      | ret u => exact ⟨fun h => absurd h hst, h2⟩
  readFrom hk s h := by
    show RFWithin P H (WInvD Fresh Inv) (Writer.readFrom N s)
    have hrf : N.isReaderFrom = true := by
      simp only [Writer.ops, Writer.kindFor] at hk
      cases hf : N.isReaderFrom with
      | true => rfl
      | false =>
        simp only [hf, Bool.and_false, Bool.false_eq_true, if_false] at hk
        split at hk <;> cases hk
    unfold Writer.readFrom
    have h1 := maybeWriteHeader_within hN s 200 h (by omega) (by omega)
    generalize Writer.maybeWriteHeader N s 200 = q at h1
    obtain ⟨s1, r⟩ := q
    cases r with
    | panic p => exact h1
    | hang => exact h1
    | ret u =>
      cases u
      dsimp only
      by_cases hh : (s1.isHEAD || decide (s1.status = 204)) = true
      · rw [if_pos hh]; exact fun n e hn => ⟨hn, h1.1⟩
      · rw [if_neg hh]
        simp only [hrf, Bool.not_true, Bool.false_eq_true, if_false]
        exact wrapRF_within _ (hN.readFrom hrf s1.next h1.1.2) s1 h1.2

end Verif
