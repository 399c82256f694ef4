import Verif.Spec.Delivery
import Verif.Props.Through

/-! # Copying to a ResponseWriter that takes only so many bytes -/

set_option autoImplicit false

namespace Verif
open Spec
variable {β ω : Type}

/-- A run of `ReadFrom` that takes bytes as long as there are no more than `L` altogether, and then fails with `e`.
`ok w l`: in state `w` the bytes `l` have been taken; `fin w l`: and then it failed. -/
def RFLimited (K : Nat) (ok fin : ω → List Byte → Prop) (L : Nat) (e : Err) : RF ω → List Byte → List Byte → Prop
  | .read _ k cont, l, C => 0 < k ∧ k ≤ K ∧ ∀ d C', C = d ++ C' → d.length ≤ k →
      (((l ++ d).length ≤ L → d ≠ [] → RFLimited K ok fin L e (cont d none) (l ++ d) C') ∧
       ((l ++ d).length ≤ L → C' = [] → ∃ w, cont d (some .eof) = .done w (l ++ d).length none ∧ ok w (l ++ d)) ∧
       (L < (l ++ d).length → ∀ er, ∃ w, cont d er = .done w l.length (some e) ∧ fin w l))
  | _, _, _ => False

/-- A ResponseWriter that takes no more than `L` bytes. -/
structure Limited (D : RW ω) (K : Nat) (ok fin : ω → List Byte → Prop) (L : Nat) (e : Err) (C : List Byte) : Prop where
  bound : ∀ w l, ok w l → l.length ≤ L
  write : ∀ w l d, ok w l → (l ++ d).length ≤ L → ∃ w', D.write w d = (w', .ret (d.length, none)) ∧ ok w' (l ++ d)
  fail : ∀ w l d, ok w l → l ++ d <+: C → L < (l ++ d).length → ∃ w', D.write w d = (w', .ret (0, some e)) ∧ fin w' l
  readFrom : D.isReaderFrom = true → ∀ w, ok w [] → RFLimited K ok fin L e (D.readFrom w) [] C

/-- How copying `C`, of which `l` has been written already, ends. -/
structure CopiedUpTo (B : BodyOps β) (ok fin : ω → List Byte → Prop) (L : Nat) (e : Err) (C : List Byte) (x : β × ω × WAns) : Prop where
  whole : C.length ≤ L → ∃ n, x.2.2 = .ret (n, none) ∧ ok x.2.1 C ∧ (B.close x.1).2 = .ret none
  part : L < C.length → ∃ n l, x.2.2 = .ret (n, some e) ∧ l <+: C ∧ l.length ≤ L ∧ fin x.2.1 l ∧ ∃ r, (B.close x.1).2 = .ret r

variable {K : Nat} {ok fin : ω → List Byte → Prop} {L : Nat} {e : Err} {B : BodyOps β} {P : β → List Byte → Prop}

theorem limited_runWT {D : RW ω} {C₀ : List Byte} (hD : Limited D K ok fin L e C₀) (t : WT β) :
    ∀ (C l : List Byte) (w : ω), C₀ = l ++ C → WTGives B t C → WTStops B t → ok w l → CopiedUpTo B ok fin L e (l ++ C) (runWT D.write t w) := by
  induction t with
  | done b n err =>
    rintro C l w - ⟨rfl, rfl, h⟩ - hw
    refine ⟨fun _ => ⟨n, rfl, by simpa [runWT] using hw, h⟩, fun hl => ?_⟩
    have := hD.bound w l hw
    simp at hl
    omega
  | write b d cont ih =>
    rintro C l w h0 ⟨C', rfl, h⟩ ⟨hs, hs'⟩ hw
    by_cases hl : (l ++ d).length ≤ L
    · obtain ⟨w', h1, h2⟩ := hD.write w l d hw hl
      simp only [runWT, h1]
      have := ih d.length none C' (l ++ d) w' (by simpa using h0) h hs' h2
      simpa using this
    · obtain ⟨w', h1, h2⟩ := hD.fail w l d hw ⟨C', by simpa using h0.symm⟩ (by omega)
      obtain ⟨b', n, h3, h4⟩ := hs e
      simp only [runWT, h1, h3]
      refine ⟨fun h => ?_, fun _ => ⟨n, l, rfl, List.prefix_append _ _, hD.bound w l hw, h2, h4⟩⟩
      simp at h hl
      omega
  | panic b p => rintro C l w - h; exact h.elim
  | hang b => rintro C l w - h; exact h.elim

theorem limited_runRF (hB : Lively B P K) (hQ : Quits B P) {D : RW ω} {C₀ : List Byte} (hD : Limited D K ok fin L e C₀) (fuel : Nat) (t : RF ω) :
    ∀ (C l : List Byte) (b : β), RFLimited K ok fin L e t l C → P b C → l.length ≤ L → CopiedUpTo B ok fin L e (l ++ C) (runRF B fuel t b) := by
  induction t with
  | done w n err => intro C l b h; exact h.elim
  | read w k cont ih =>
    rintro C l b ⟨h0, hk, h⟩ hP hl
    obtain ⟨b', d, er, C', h1, h2, rfl, h4, h5⟩ := hB.read b C k h0 hk hP
    obtain ⟨g1, g2, g3⟩ := h d C' rfl h2
    simp only [runRF, h1]
    by_cases hd : (l ++ d).length ≤ L
    · rcases h5 with ⟨rfl, h5⟩ | ⟨rfl, rfl⟩
      · have := ih d none C' (l ++ d) b' (g1 hd h5) h4 hd
        simpa using this
      · obtain ⟨w', h6, h7⟩ := g2 hd rfl
        rw [h6]
        simp only [runRF, List.append_nil]
        exact ⟨fun _ => ⟨_, rfl, h7, hB.close b' h4⟩, fun h => by omega⟩
    · obtain ⟨w', h6, h7⟩ := g3 (by omega) er
      rw [h6]
      simp only [runRF]
      refine ⟨fun h => ?_, fun _ => ⟨_, l, rfl, List.prefix_append _ _, hl, h7, hQ.close b' C' h4⟩⟩
      simp at h hd
      omega
  | drain w cont ih => intro C l b h; exact h.elim
  | panic w p => intro C l b h; exact h.elim
  | hang w => intro C l b h; exact h.elim

theorem limited_copyLoop (hB : Lively B P K) (hK : 32768 ≤ K) (hQ : Quits B P) {D : RW ω} {C₀ : List Byte} (hD : Limited D K ok fin L e C₀) (fuel : Nat) :
    ∀ (C l : List Byte) (b : β) (w : ω) (n : Int), C₀ = l ++ C → P b C → ok w l → C.length < fuel →
      CopiedUpTo B ok fin L e (l ++ C) (copyLoop D B fuel b w n) := by
  induction fuel with
  | zero => intro C l b w n _ _ _ h; omega
  | succ fuel ih =>
    intro C l b w n h0 hP hw hf
    obtain ⟨b', d, er, C', h1, h2, rfl, h4, h5⟩ := hB.read b C 32768 (by omega) hK hP
    simp only [copyLoop, h1]
    have hl := hD.bound w l hw
    by_cases hd : d = []
    · subst hd
      rcases h5 with ⟨-, h5⟩ | ⟨rfl, rfl⟩
      · exact absurd rfl h5
      · simp only [List.length_nil, gt_iff_lt, Nat.lt_irrefl, if_false, if_true, List.append_nil]
        exact ⟨fun _ => ⟨_, rfl, hw, hB.close b' h4⟩, fun h => by omega⟩
    · have hd0 : 0 < d.length := List.length_pos_iff.2 hd
      rw [if_pos hd0, if_neg (by omega)]
      by_cases hdl : (l ++ d).length ≤ L
      · obtain ⟨w', h6, h7⟩ := hD.write w l d hw hdl
        rw [h6]
        have hbad : decide ((d.length : Int) < 0 ∨ (d.length : Int) < d.length) = false := by simp
        simp only [hbad, Bool.false_and, Bool.false_eq_true, if_false, ne_eq, not_true_eq_false]
        rcases h5 with ⟨rfl, -⟩ | ⟨rfl, rfl⟩
        · have := ih C' (l ++ d) b' w' (n + d.length) (by simpa using h0) h4 h7 (by simp at hf; omega)
          simpa using this
        · simp only [if_true, List.append_nil]
          exact ⟨fun _ => ⟨_, rfl, h7, hB.close b' h4⟩, fun h => by omega⟩
      · obtain ⟨w', h6, h7⟩ := hD.fail w l d hw ⟨C', by simpa using h0.symm⟩ (by omega)
        rw [h6]
        have hbad : decide ((0 : Int) < 0 ∨ (d.length : Int) < 0) = false := by simp
        simp only [hbad, Bool.false_and, Bool.false_eq_true, if_false]
        refine ⟨fun h => ?_, fun _ => ⟨_, l, rfl, List.prefix_append _ _, hl, h7, hQ.close b' C' h4⟩⟩
        simp at h hdl
        omega

theorem limited_ioCopy (hB : Lively B P K) (hK : 32768 ≤ K) (hQ : Quits B P) {D : RW ω} {C : List Byte} (hD : Limited D K ok fin L e C) (fuel : Nat)
    (b : β) (w : ω) (hP : P b C) (hw : ok w []) (hf : C.length < fuel) : CopiedUpTo B ok fin L e C (ioCopy D B fuel b w) := by
  unfold ioCopy
  by_cases h1 : B.isWriterTo = true
  · rw [if_pos h1]
    exact limited_runWT hD _ C [] w rfl (hB.writeTo h1 b C hP) (hQ.writeTo h1 b C hP) hw
  · rw [if_neg h1]
    by_cases h2 : D.isReaderFrom = true
    · rw [if_pos h2]
      exact limited_runRF hB hQ hD fuel _ C [] b (hD.readFrom h2 w hw) hP (hD.bound w [] hw)
    · rw [if_neg h2]
      exact limited_copyLoop hB hK hQ hD fuel C [] b w 0 rfl hP hw hf

/-! ## Through a Writer -/

/-- The state of a Writer that has passed on `l`. -/
def WLim (ok : ω → List Byte → Prop) (s₀ s : WState ω) (l : List Byte) : Prop :=
  s.status = s₀.status ∧ s.isHEAD = s₀.isHEAD ∧ s.bytes = l.length ∧ ok s.next l

theorem limited_writer {N : RW ω} {C : List Byte} (hN : Limited N K ok fin L e C) (raises : Bool) (kind : WKind)
    (hk : kind = .fancy → N.isReaderFrom = true) (s₀ : WState ω) (hs : Passing s₀) :
    Limited (Writer.ops N raises kind) K (WLim ok s₀) (WLim fin s₀) L e C := by
  have hp : ∀ {ok : ω → List Byte → Prop} {s l}, WLim ok s₀ s l → Passing s := fun h =>
    ⟨h.2.1.trans hs.head, by rw [h.1]; exact hs.sent, by rw [h.1]; exact hs.body⟩
  refine ⟨fun s l h => hN.bound s.next l h.2.2.2, ?_, ?_, ?_⟩
  · intro s l d h hl
    obtain ⟨w', h3, h4⟩ := hN.write s.next l d h.2.2.2 hl
    refine ⟨{ s with next := w', bytes := s.bytes + d.length }, ?_, h.1, h.2.1, ?_, h4⟩
    · show Writer.write N s d = _
      simp only [Writer.write, passing_maybe N s (hp h).sent]
      rw [if_neg (by simp [(hp h).head, (hp h).body]), h3]
      simp
    · show s.bytes + _ = _
      rw [h.2.2.1]; simp
  · intro s l d h hC hl
    obtain ⟨w', h3, h4⟩ := hN.fail s.next l d h.2.2.2 hC hl
    refine ⟨{ s with next := w', sawError := true }, ?_, h.1, h.2.1, h.2.2.1, h4⟩
    show Writer.write N s d = _
    simp only [Writer.write, passing_maybe N s (hp h).sent]
    rw [if_neg (by simp [(hp h).head, (hp h).body]), h3]
    simp
  · intro hr s h
    have hk := hk (by simpa [Writer.ops] using hr)
    have e' : (Writer.ops N raises kind).readFrom s = Writer.wrapRF s (N.readFrom s.next) := by
      show Writer.readFrom N s = _
      simp [Writer.readFrom, passing_maybe N s (hp h).sent, (hp h).head, (hp h).body, hk]
    rw [e']
    have hb : s.bytes = 0 := h.2.2.1
    have key : ∀ (t : RF ω) (l C : List Byte), RFLimited K ok fin L e t l C → RFLimited K (WLim ok s₀) (WLim fin s₀) L e (Writer.wrapRF s t) l C := by
      intro t
      induction t with
      | read w k cont ih =>
        rintro l C ⟨a, b, c⟩
        refine ⟨a, b, fun d C' hC hd => ?_⟩
        obtain ⟨c1, c2, c3⟩ := c d C' hC hd
        refine ⟨fun hl hne => ih d none _ _ (c1 hl hne), fun hl hC' => ?_, fun hl er => ?_⟩
        · obtain ⟨w', h3, h4⟩ := c2 hl hC'
          refine ⟨{ s with next := w', bytes := s.bytes + (l ++ d).length }, ?_, h.1, h.2.1, ?_, h4⟩
          · show Writer.wrapRF s (cont d (some .eof)) = _
            rw [h3]; simp only [Writer.wrapRF]; rw [if_neg (by omega)]
          · show s.bytes + _ = _
            rw [hb]; simp
        · obtain ⟨w', h3, h4⟩ := c3 hl er
          refine ⟨{ s with next := w', bytes := s.bytes + l.length }, ?_, h.1, h.2.1, ?_, h4⟩
          · show Writer.wrapRF s (cont d er) = _
            rw [h3]; simp only [Writer.wrapRF]; rw [if_neg (by omega)]
          · show s.bytes + _ = _
            rw [hb]; simp
      | _ => intro l C h; exact h.elim
    exact key _ _ _ (hN.readFrom hk s.next h.2.2.2)

/-! ## The ResponseWriter of net/http -/

/-- `l` has been written, and no more than is allowed. -/
structure NetOk (code : Int) (declared : Option Nat) (hdrs : List (GoStr × List GoStr)) (L : Nat) (w : NetW) (l : List Byte) : Prop where
  head : w.isHEAD = false
  hdrs : w.hdrs = hdrs
  status : w.status = code
  declared : w.declared = declared
  written : w.written = l.length
  body : w.body = l
  bound : l.length ≤ L

/-- `l` has been written, and then it failed. -/
structure NetFin (code : Int) (declared : Option Nat) (hdrs : List (GoStr × List GoStr)) (w : NetW) (l : List Byte) : Prop where
  head : w.isHEAD = false
  hdrs : w.hdrs = hdrs
  status : w.status = code
  declared : w.declared = declared
  body : w.body = l

theorem bodyAllowed_iff (code : Int) (h : 200 ≤ code) : bodyAllowed code = true ↔ ¬ (code = 204 ∨ code = 304) := by
  unfold bodyAllowed
  rw [if_neg (by omega)]
  split
  · simp_all
  · split
    · simp_all
    · simp_all

variable {code : Int} {declared : Option Nat} {hdrs : List (GoStr × List GoStr)} {C : List Byte}

theorem net_write (hcode : 200 ≤ code) (w : NetW) (l d : List Byte) (h : NetOk code declared hdrs (room code declared C) w l)
    (hl : (l ++ d).length ≤ room code declared C) :
    ∃ w', w.write d = (w', .ret (d.length, none)) ∧ NetOk code declared hdrs (room code declared C) w' (l ++ d) := by
  have hs : ¬ w.status = 0 := by rw [h.status]; omega
  simp only [NetW.write]
  rw [if_neg hs]
  by_cases hd : d.length = 0
  · rw [if_pos hd, hd]
    rw [List.length_eq_zero_iff.1 hd, List.append_nil]
    exact ⟨w, rfl, h⟩
  · rw [if_neg hd]
    have ha : bodyAllowed w.status = true := by
      rw [h.status, bodyAllowed_iff code hcode]
      intro hx
      simp only [room, if_pos hx, List.length_append] at hl
      omega
    have hx : ¬ (code = 204 ∨ code = 304) := by rw [← bodyAllowed_iff code hcode, ← h.status]; exact ha
    rw [if_neg (by simp [ha])]
    have hdec : exceeds w.declared (w.written + d.length) = false := by
      rw [h.declared, h.written]
      cases declared with
      | none => rfl
      | some n =>
        simp only [room, if_neg hx, Option.getD_some, List.length_append] at hl
        simpa [exceeds] using hl
    simp only [hdec, Bool.false_eq_true, if_false, h.head]
    exact ⟨_, rfl, ⟨rfl, h.hdrs, h.status, h.declared, by simp [h.written], by simp [h.body], hl⟩⟩

theorem net_fail (hcode : 200 ≤ code) (w : NetW) (l d : List Byte) (h : NetOk code declared hdrs (room code declared C) w l)
    (hC : l ++ d <+: C) (hl : room code declared C < (l ++ d).length) :
    ∃ w', w.write d = (w', .ret (0, some (roomError code))) ∧ NetFin code declared hdrs w' l := by
  have hs : ¬ w.status = 0 := by rw [h.status]; omega
  simp only [NetW.write]
  have hd : ¬ d.length = 0 := by
    intro hd
    have := h.bound
    simp at hl
    omega
  rw [if_neg hs, if_neg hd]
  by_cases hx : code = 204 ∨ code = 304
  · have ha : bodyAllowed w.status = false := by
      rw [h.status]
      have := mt (bodyAllowed_iff code hcode).1 (fun h => h hx)
      simpa using this
    rw [if_pos (by simp [ha]), roomError, if_pos hx]
    exact ⟨w, rfl, ⟨h.head, h.hdrs, h.status, h.declared, h.body⟩⟩
  · have ha : bodyAllowed w.status = true := by rw [h.status, bodyAllowed_iff code hcode]; exact hx
    rw [if_neg (by simp [ha]), roomError, if_neg hx]
    have hdec : exceeds w.declared (w.written + d.length) = true := by
      rw [h.declared, h.written]
      simp only [room, if_neg hx] at hl
      cases declared with
      | none =>
        simp only [Option.getD_none] at hl
        have := hC.length_le
        omega
      | some n =>
        simp only [Option.getD_some, List.length_append] at hl
        simpa [exceeds] using hl
    simp only [hdec, if_true]
    exact ⟨_, rfl, ⟨h.head, h.hdrs, h.status, h.declared, h.body⟩⟩

theorem net_copy (hcode : 200 ≤ code) (hK : 32768 ≤ K) (fuel : Nat) : ∀ (w : NetW) (l C' : List Byte), C = l ++ C' → C'.length < fuel →
    NetOk code declared hdrs (room code declared C) w l →
    RFLimited K (NetOk code declared hdrs (room code declared C)) (NetFin code declared hdrs) (room code declared C) (roomError code)
      (NetW.copy fuel w l.length) l C' := by
  induction fuel with
  | zero => intro w l C' _ h; omega
  | succ fuel ih =>
    intro w l C' h0 hf hw
    refine ⟨by omega, hK, fun d C'' hC hd => ?_⟩
    subst hC
    refine ⟨fun hl hne => ?_, fun hl hC' => ?_, fun hl er => ?_⟩
    · obtain ⟨w', h1, h2⟩ := net_write hcode w l d hw hl
      have hd0 : d.length > 0 := List.length_pos_iff.2 hne
      dsimp only
      rw [if_pos hd0, if_neg (by omega), h1]
      dsimp only
      have := ih w' (l ++ d) C'' (by simpa using h0) (by simp at hf; omega) h2
      simpa using this
    · subst hC'
      by_cases hd0 : d.length > 0
      · obtain ⟨w', h1, h2⟩ := net_write hcode w l d hw hl
        dsimp only
        rw [if_pos hd0, if_neg (by omega), h1]
        exact ⟨w', by simp, h2⟩
      · dsimp only
        rw [if_neg hd0]
        obtain rfl : d = [] := List.length_eq_zero_iff.1 (by omega)
        exact ⟨w, by simp, by simpa using hw⟩
    · obtain ⟨w', h1, h2⟩ := net_fail hcode w l d hw ⟨C'', by simpa using h0.symm⟩ hl
      have hd0 : d.length > 0 := by
        have := hw.bound
        simp at hl
        omega
      dsimp only
      rw [if_pos hd0, if_neg (by omega), h1]
      exact ⟨w', by simp, h2⟩

theorem net_limited (hcode : 200 ≤ code) (hK : 32768 ≤ K) (http1 : Bool) (fuel : Nat) (hf : C.length < fuel) :
    Limited (netRW http1 fuel) K (NetOk code declared hdrs (room code declared C)) (NetFin code declared hdrs) (room code declared C) (roomError code) C :=
  ⟨fun _ _ h => h.bound, fun w l d h hl => net_write hcode w l d h hl, fun w l d h hC hl => net_fail hcode w l d h hC hl,
    fun _ w h => net_copy hcode hK fuel w [] C rfl hf h⟩

end Verif
