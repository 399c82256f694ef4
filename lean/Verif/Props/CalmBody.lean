import Verif.Props.Calm
import Verif.Props.Layer

/-! # C60: the Bodies of this repository -/

set_option autoImplicit false

namespace Verif
open Spec
variable {S σ : Type} {step : S → Op → S × Out} {cfg : Cfg} {Ok : Op → Prop} [DecidablePred Ok] {Rel : S → List Cursor → Prop}

/-- Body `h` has at most `n` bytes left. -/
def AtMost (Rel : S → List Cursor → Prop) (h n : Nat) (s : S) : Prop :=
  ∃ f c, Rel s f ∧ f[h]? = some c ∧ c.content.length - c.pos ≤ n

/-- **C60.** The Bodies of a family that behaves as cursors do not panic, return from all calls, and end after as many reads as they have bytes
left, at most. -/
theorem C60_body (P : Panic → Prop) (H' : Prop) (H : FamSim step cfg Ok Rel) (drains : Bool)
    (hw : drains = true → cfg.drains = true ∧ ∀ h w, Ok (.writeTo h w)) (h : Nat) :
    BodyWithin P H' (AtMost Rel h) (BodyOps.ofFam step drains h) where
  read n s k hk hi := by
    obtain ⟨f, c, hf, hc, hn⟩ := hi
    have hlt : h < f.length := by
      rcases Nat.lt_or_ge h f.length with h' | h'
      · exact h'
      · rw [List.getElem?_eq_none h'] at hc; cases hc
    have hok := H.read h k hk
    obtain ⟨ch, h1, h2⟩ := H.sim s f _ hf hok
    have hsafe := H.safe s f _ hf hok (by simp)
    have hst : Spec.step cfg ch f (.read h k) = (f.set h (c.read cfg ch k).1, (c.read cfg ch k).2) := by simp [Spec.step, Op.h, hc]
    rw [hst] at h1 h2
    have key : ∃ d e, (c.read cfg ch k).2 = .read d e ∧ d.length ≤ k ∧ (c.read cfg ch k).1.content = c.content ∧ c.pos ≤ (c.read cfg ch k).1.pos ∧
        (e = none → 0 < k → c.content.length - (c.read cfg ch k).1.pos < c.content.length - c.pos) := by
      rw [h1] at hsafe
      simp only [] at hsafe
      by_cases ho : c.isOpen = true
      · by_cases hd : c.done = true
        · have : c.read cfg ch k = (c, .read [] (some cfg.fin)) := by simp [Cursor.read, ho, hd]
          rw [this]
          exact ⟨[], _, rfl, Nat.zero_le _, rfl, Nat.le_refl _, fun he => by cases he⟩
        · cases hcr : ch.crash with
          | some p =>
            have : c.read cfg ch k = (c, .panic p) := by simp [Cursor.read, ho, hd, hcr]
            rw [this] at hsafe
            exact absurd rfl (hsafe p)
          | none =>
            have hlen : ((c.content.drop c.pos).take k).length = min k (c.content.length - c.pos) := by simp
            unfold Cursor.read
            rw [if_neg (by simp [ho]), if_neg hd, hcr]
            refine ⟨_, _, rfl, by omega, rfl, Nat.le_add_right _ _, ?_⟩
            intro he h0
            split at he
            · cases he
            · rename_i hend
              simp only [Bool.or_eq_true, decide_eq_true_eq, not_or] at hend
              show c.content.length - (c.pos + ((c.content.drop c.pos).take k).length) < c.content.length - c.pos
              omega
      · have : c.read cfg ch k = (c, .read [] (some .closed)) := by simp [Cursor.read, ho]
        rw [this]
        exact ⟨[], _, rfl, Nat.zero_le _, rfl, Nat.le_refl _, fun he => by cases he⟩
    obtain ⟨d, e, k1, k2, k3, k4, k5⟩ := key
    rw [k1] at h1
    have hr : (BodyOps.ofFam step drains h).read s k = ((step s (.read h k)).1, .ret (d, e)) := by
      show (match step s (.read h k) with
        | (s', .read d e) => (s', Res.ret (d, e))
        | (s', .panic p) => (s', .panic p)
        | (s', .hang) => (s', .hang)
        | (s', _) => (s', .panic .nilDeref)) = _
      generalize step s (.read h k) = q at h1
      obtain ⟨s', o⟩ := q
      subst h1
      rfl
    rw [hr]
    refine ⟨k2, c.content.length - (c.read cfg ch k).1.pos, ⟨_, _, h2, List.getElem?_set_self hlt, by rw [k3]; exact Nat.le_refl _⟩, .inr ⟨by omega, ?_⟩⟩
    intro he h0
    have := k5 he h0
    omega
  close n s hi := by
    obtain ⟨f, c, hf, hc, hn⟩ := hi
    have hok := H.close h
    obtain ⟨ch, h1, h2⟩ := H.sim s f _ hf hok
    have key : ∃ e, (step s (.close h)).2 = .closed e := by
      rw [h1]
      simp only [Spec.step, Op.h, hc]
      split <;> exact ⟨_, rfl⟩
    obtain ⟨e, he⟩ := key
    show Within P H' _ (match step s (.close h) with
      | (s', .closed e) => (s', Res.ret e)
      | (s', .panic p) => (s', .panic p)
      | (s', .hang) => (s', .hang)
      | (s', _) => (s', .panic .nilDeref)).2
    generalize step s (.close h) = q at he
    obtain ⟨s', o⟩ := q
    subst he
    trivial
  writeTo hdr n s hi := by
    obtain ⟨hd, hw⟩ := hw hdr
    obtain ⟨f, c, hf, hc, hn⟩ := hi
    have hlt : h < f.length := by
      rcases Nat.lt_or_ge h f.length with h' | h'
      · exact h'
      · rw [List.getElem?_eq_none h'] at hc; cases hc
    have hstep : ∀ w, (step s (.writeTo h w)).2 = (c.writeTo w).2 ∧ Rel (step s (.writeTo h w)).1 (f.set h (c.writeTo w).1) := by
      intro w
      obtain ⟨ch, h1, h2⟩ := H.sim s f _ hf (hw h w)
      have hst : Spec.step cfg ch f (.writeTo h w) = (f.set h (c.writeTo w).1, (c.writeTo w).2) := by simp [Spec.step, Op.h, hc, hd]
      rw [hst] at h1 h2
      exact ⟨h1, h2⟩
    have fin : ∀ w, (c.writeTo w).1.content = c.content → c.pos ≤ (c.writeTo w).1.pos →
        ∃ m, AtMost Rel h m (step s (.writeTo h w)).1 ∧ (H' ∨ m ≤ n) := by
      intro w h1 h2
      exact ⟨n, ⟨_, _, (hstep w).2, List.getElem?_set_self hlt, by rw [h1]; omega⟩, .inr (Nat.le_refl n)⟩
    simp only [BodyOps.ofFam]
    have h0 := hstep (fun _ => .ok (0, none))
    have f0 := fin (fun _ => .ok (0, none))
    generalize hq : step s (.writeTo h fun _ => .ok (0, none)) = q at h0 f0
    obtain ⟨s', o⟩ := q
    by_cases ho : c.isOpen = true
    · by_cases hdn : c.done = true
      · have hw0 : c.writeTo (fun _ => .ok (0, none)) = (c, .wrote none 0 none) := by simp [Cursor.writeTo, ho, hdn]
        rw [hw0] at h0 f0
        obtain ⟨h0, -⟩ := h0
        simp only [] at h0
        subst h0
        exact ⟨Int.le_refl 0, f0 rfl (Nat.le_refl _)⟩
      · have e0 : o = .wrote (some (c.content.drop c.pos)) 0 none := by
          refine h0.1.trans ?_
          simp [Cursor.writeTo, ho, hdn]
        subst e0
        intro n' e' hn0 hn1
        have h1 := hstep (fun _ => .ok (n', e'))
        have f1 := fin (fun _ => .ok (n', e'))
        have hw1 : c.writeTo (fun _ => .ok (n', e')) = ({ c with pos := c.pos + n'.toNat, done := true }, .wrote (some (c.content.drop c.pos)) n' e') := by
          simp only [Cursor.writeTo, ho, hdn, Bool.not_true, Bool.false_eq_true, if_false]
          rw [if_pos ⟨hn0, hn1⟩]
        rw [hw1] at h1 f1
        simp only []
        generalize step s (.writeTo h fun _ => .ok (n', e')) = q at h1 f1
        obtain ⟨s'', o⟩ := q
        obtain ⟨h1, -⟩ := h1
        simp only [] at h1
        subst h1
        exact ⟨hn0, f1 rfl (Nat.le_add_right _ _)⟩
    · have hw0 : c.writeTo (fun _ => .ok (0, none)) = (c, .wrote none 0 (some .closed)) := by simp [Cursor.writeTo, ho]
      rw [hw0] at h0 f0
      obtain ⟨h0, -⟩ := h0
      simp only [] at h0
      subst h0
      exact ⟨Int.le_refl 0, f0 rfl (Nat.le_refl _)⟩

/-- **C60.** Bodies from memory. -/
theorem C60_memory (P : Panic → Prop) (H' : Prop) (data : List Byte) (hlen : data.length < 2 ^ 63) (h : Nat) :
    BodyWithin P H' (AtMost (MemRel data) h) (BodyOps.ofFam MemFam.step true h) := by
  by_cases hd : data = []
  · subst hd
    have B := C60_body P H' (famSim_mem [] hlen) false (fun h => by cases h) h
    refine ⟨B.read, B.close, ?_⟩
    intro _ n s hi
    obtain ⟨f, c, hf, hc, hn⟩ := hi
    cases s with
    | bytes s => exact absurd rfl hf.1
    | empty s =>
      have hm : ∃ m, AtMost (MemRel []) h m (MemFam.empty s) ∧ (H' ∨ m ≤ n) := ⟨n, ⟨f, c, hf, hc, hn⟩, .inr (Nat.le_refl n)⟩
      cases hb : s[h]? with
      | none => rw [(Pw.none_iff hf.2 h).1 hb] at hc; cases hc
      | some b =>
        cases hcl : b.closed with
        | true =>
          simp only [BodyOps.ofFam, MemFam.step, EmptyBody.step, Op.h, hb, EmptyBody.writeTo, hcl, if_true]
          exact ⟨Int.le_refl 0, hm⟩
        | false =>
          simp only [BodyOps.ofFam, MemFam.step, EmptyBody.step, Op.h, hb, EmptyBody.writeTo, hcl, Bool.false_eq_true, if_false]
          exact ⟨Int.le_refl 0, hm⟩
  · exact C60_body P H' (famSim_mem data hlen) true (fun _ => ⟨rfl, fun _ _ => ⟨trivial, fun e => absurd e hd⟩⟩) h

/-- **C60.** `Serve`, with a Body of this repository, through a Writer of `NewWriter`: it panics only if the client does, with the value of
that panic, and returns unless a call to the client does not. -/
theorem C60_end {ω : Type} {P : Panic → Prop} {H' : Prop} (H : FamSim step cfg Ok Rel) (drains : Bool)
    (hw : drains = true → cfg.drains = true ∧ ∀ h w, Ok (.writeTo h w)) (h : Nat) {N : RW ω} {Fresh Inv : ω → Prop}
    (hN : ClientWithin P H' StatusOk Fresh Inv N) (raises : Bool) (fuel : Nat) (r : Resp S) (hcode : StatusOk r.code)
    (f : List Cursor) (c : Cursor) (hf : Rel r.body f) (hc : f[h]? = some c) (hfuel : c.content.length - c.pos < fuel)
    (w : ω) (isHEAD : Bool) (hfresh : Fresh w) :
    Within P H' (fun _ => True) (serve (Writer.ops N raises (Writer.kindFor N)) (BodyOps.ofFam step drains h) fuel r (Writer.init w isHEAD)).2.2 := by
  have := C60_serve (C60_writer hN raises fun _ => .inl) (C60_body P H' H drains hw h) fuel (c.content.length - c.pos) r hcode (Writer.init w isHEAD)
    ⟨rfl, hfresh⟩ ⟨f, c, hf, hc, Nat.le_refl _⟩ (.inr hfuel)
  generalize (serve (Writer.ops N raises (Writer.kindFor N)) (BodyOps.ofFam step drains h) fuel r (Writer.init w isHEAD)).2 = q at this ⊢
  obtain ⟨s, r⟩ := q
  cases r with
  | ret a => trivial
  | panic p => exact this
  | hang => exact this

/-- **C60.** The same of a Body from memory, which may be empty. -/
theorem C60_end_memory {ω : Type} {P : Panic → Prop} {H' : Prop} {N : RW ω} {Fresh Inv : ω → Prop} (hN : ClientWithin P H' StatusOk Fresh Inv N)
    (raises : Bool) (data : List Byte) (hlen : data.length < 2 ^ 63) (fuel : Nat) (hfuel : data.length < fuel) (code : Int) (hcode : StatusOk code)
    (hdrs : List (GoStr × List GoStr)) (w : ω) (isHEAD : Bool) (hfresh : Fresh w) :
    Within P H' (fun _ => True) (serve (Writer.ops N raises (Writer.kindFor N)) (BodyOps.ofFam MemFam.step true 0) fuel
      { code := code, hdrs := hdrs, body := fromBytes data } (Writer.init w isHEAD)).2.2 := by
  have := C60_serve (C60_writer hN raises fun _ => .inl) (C60_memory P H' data hlen 0) fuel data.length { code := code, hdrs := hdrs, body := fromBytes data }
    hcode (Writer.init w isHEAD) ⟨rfl, hfresh⟩ ⟨_, _, mem_init data, rfl, Nat.sub_le _ _⟩ (.inr hfuel)
  generalize (serve (Writer.ops N raises (Writer.kindFor N)) (BodyOps.ofFam MemFam.step true 0) fuel
      { code := code, hdrs := hdrs, body := fromBytes data } (Writer.init w isHEAD)).2 = q at this ⊢
  obtain ⟨s, r⟩ := q
  cases r with
  | ret a => trivial
  | panic p => exact this
  | hang => exact this

/-! Examples. -/

/-- A client that is strict: it panics at a second WriteHeader.  It also panics if it is to write a `1` first. -/
def strictRW : RW Bool where
  setHeader w _ _ := w
  writeHeader w _ := if w then (w, .panic .badArg) else (true, .ret ())
  write w d := if d.head? = some 1 then (w, .panic (.error (.ext 5))) else (true, .ret (d.length, none))
  flush _ := (true, .ret ())
  push w _ := (w, .ret none)
  readFrom w := .panic w .nilDeref
  isPusher := true
  isReaderFrom := false
  isFlusher := true
  isCloseNotifier := false
  isHijacker := false

theorem strictRW_within : ClientWithin (fun p => p = .error (.ext 5)) False StatusOk (fun w => w = false) (fun _ => True) strictRW where
  fresh _ _ := trivial
  setHeader _ _ _ := ⟨id, id⟩
  push _ _ _ _ := ⟨trivial, id⟩
  writeHeader w code h _ := by subst h; trivial
  write w d _ := by
    simp only [strictRW]
    split
    · exact rfl
    · exact ⟨Int.natCast_nonneg _, Int.le_refl _, trivial⟩
  flush _ _ _ := trivial
  readFrom h := by cases h

/-- It never panics with `badArg`, whatever the Response: `WriteHeader` is called once. -/
example (data : List Byte) (hlen : data.length < 2 ^ 63) (isHEAD : Bool) :
    Within (fun p => p = .error (.ext 5)) False (fun _ => True)
      (serve (Writer.ops strictRW true (Writer.kindFor strictRW)) (BodyOps.ofFam MemFam.step true 0) (data.length + 1)
        { code := 404, hdrs := [(lit "Push", [lit "/p"])], body := fromBytes data } (Writer.init false isHEAD)).2.2 :=
  C60_end_memory strictRW_within true data hlen _ (Nat.lt_succ_self _) 404 ⟨by decide, by decide⟩ _ false isHEAD rfl

/-- The panics of the client do come through. -/
example : (serve (Writer.ops strictRW true (Writer.kindFor strictRW)) (BodyOps.ofFam MemFam.step true 0) 9
    { code := 404, hdrs := [], body := fromBytes [1, 2] } (Writer.init false false)).2.2 = .panic (.error (.ext 5)) := by decide +kernel

/-- A status that is out of range makes `Serve` panic by itself. -/
example : (serve (Writer.ops strictRW true (Writer.kindFor strictRW)) (BodyOps.ofFam MemFam.step true 0) 9
    { code := 1000, hdrs := [], body := fromBytes [2] } (Writer.init false false)).2.2 = .panic .badArg := by decide +kernel

/-- A Body from a Reader, and the client takes it all. -/
example (isHEAD : Bool) : Within (fun p => p = .error (.ext 5)) False (fun _ => True)
    (serve (Writer.ops strictRW true (Writer.kindFor strictRW)) (BodyOps.ofFam (streamStep (plainRdr [1, 2, 3, 4, 5]) (hugeFuel 0)) false 0) 6
      { code := 200, hdrs := [], body := streamInit 0 (-1) } (Writer.init false isHEAD)).2.2 := by
  have hf := famSim_plain
  have hi := plain_init
  generalize hugeFuel 0 = fuel at hf
  exact C60_end hf false (fun h => by cases h) 0 strictRW_within true 6 _ ⟨by decide, by decide⟩ _ _ hi rfl
    (by show ([1, 2, 3, 4, 5] : List Byte).length - 0 < 6; decide) false isHEAD rfl

end Verif
