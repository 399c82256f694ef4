import Verif.Spec.Failing
import Verif.Proofs.NetHttp
import Verif.Proofs.Quits

/-! # Copying a Body that fails in the middle -/

set_option autoImplicit false

namespace Verif
open Spec
variable {β ω : Type}

/-- A run of `ReadFrom` that takes bytes as long as there are no more than `L` altogether, and then fails with `e`; a failure `x` of the source is passed on.
`ok w l`: in state `w` the bytes `l` have been taken; `fin w l`: and then it failed. -/
def RFPasses (K : Nat) (ok fin : ω → List Byte → Prop) (L : Nat) (e x : Err) : RF ω → List Byte → List Byte → Prop
  | .read _ k cont, l, C => 0 < k ∧ k ≤ K ∧ ∀ d C', C = d ++ C' → d.length ≤ k →
      (((l ++ d).length ≤ L → d ≠ [] → RFPasses K ok fin L e x (cont d none) (l ++ d) C') ∧
       ((l ++ d).length ≤ L → C' = [] → ∃ w, cont d (some x) = .done w (l ++ d).length (some x) ∧ ok w (l ++ d)) ∧
       (L < (l ++ d).length → ∀ er, ∃ w, cont d er = .done w l.length (some e) ∧ fin w l))
  | .drain _ cont, l, C => L = (l ++ C).length ∧ ∃ w, cont C.length (some x) = .done w (l ++ C).length (some x) ∧ ok w (l ++ C)
  | _, _, _ => False

/-- A ResponseWriter that takes no more than `L` bytes, and whose `ReadFrom` passes on the error `x`. -/
structure Passes (D : RW ω) (K : Nat) (ok fin : ω → List Byte → Prop) (L : Nat) (e x : Err) (C : List Byte) : Prop where
  bound : ∀ w l, ok w l → l <+: C → l.length ≤ L
  write : ∀ w l d, ok w l → (l ++ d).length ≤ L → ∃ w', D.write w d = (w', .ret (d.length, none)) ∧ ok w' (l ++ d)
  fail : ∀ w l d, ok w l → l ++ d <+: C → L < (l ++ d).length → ∃ w', D.write w d = (w', .ret (0, some e)) ∧ fin w' l
  readFrom : D.isReaderFrom = true → ∀ w, ok w [] → RFPasses K ok fin L e x (D.readFrom w) [] C

/-- How copying `C` ends, when the source fails with `x` then. -/
structure Broken (B : BodyOps β) (ok fin : ω → List Byte → Prop) (L : Nat) (e x : Err) (C : List Byte) (y : β × ω × WAns) : Prop where
  whole : C.length ≤ L → ∃ n, y.2.2 = .ret (n, some x) ∧ ok y.2.1 C
  part : L < C.length → ∃ n l, y.2.2 = .ret (n, some e) ∧ l <+: C ∧ l.length ≤ L ∧ fin y.2.1 l
  close : ∃ r, (B.close y.1).2 = .ret r

variable {K : Nat} {ok fin : ω → List Byte → Prop} {L : Nat} {e x : Err} {B : BodyOps β} {P : β → List Byte → Prop}

theorem failing_discard (hB : Failing B P K x) (hK : 32768 ≤ K) (fuel : Nat) :
    ∀ (b : β) (C : List Byte) (n : Int), P b C → C.length < fuel →
      ∃ b', discardLoop B fuel b n = (b', .ret (n + C.length, some x)) ∧ P b' [] := by
  induction fuel with
  | zero => intro b C n _ h; omega
  | succ fuel ih =>
    intro b C n hP hf
    obtain ⟨b', d, e, C', h1, h2, rfl, h4, ⟨rfl, h5⟩ | ⟨rfl, rfl⟩⟩ := hB.read b C 8192 (by omega) (by omega) hP
    · simp only [discardLoop, h1]
      have hd : 0 < d.length := List.length_pos_iff.2 h5
      obtain ⟨b'', h6, h7⟩ := ih b' C' (n + d.length) h4 (by simp at hf; omega)
      exact ⟨b'', by rw [h6]; simp; omega, h7⟩
    · simp only [discardLoop, h1]
      exact ⟨b', by simp [hB.real], h4⟩

theorem broken_runRF (hB : Failing B P K x) (hK : 32768 ≤ K) (fuel : Nat) (t : RF ω) :
    ∀ (C l : List Byte) (b : β), RFPasses K ok fin L e x t l C → P b C → l.length ≤ L → C.length < fuel →
      Broken B ok fin L e x (l ++ C) (runRF B fuel t b) := by
  induction t with
  | done w n err => intro C l b h; exact h.elim
  | read w k cont ih =>
    rintro C l b ⟨h0, hk, h⟩ hP hl hf
    obtain ⟨b', d, er, C', h1, h2, rfl, h4, h5⟩ := hB.read b C k h0 hk hP
    obtain ⟨g1, g2, g3⟩ := h d C' rfl h2
    simp only [runRF, h1]
    by_cases hd : (l ++ d).length ≤ L
    · rcases h5 with ⟨rfl, h5⟩ | ⟨rfl, rfl⟩
      · have := ih d none C' (l ++ d) b' (g1 hd h5) h4 hd (by simp at hf; omega)
        simpa using this
      · obtain ⟨w', h6, h7⟩ := g2 hd rfl
        rw [h6]
        simp only [runRF, List.append_nil]
        exact ⟨fun _ => ⟨_, rfl, h7⟩, fun h => by omega, hB.close b' _ h4⟩
    · obtain ⟨w', h6, h7⟩ := g3 (by omega) er
      rw [h6]
      simp only [runRF]
      refine ⟨fun h => ?_, fun _ => ⟨_, l, rfl, List.prefix_append _ _, hl, h7⟩, hB.close b' _ h4⟩
      simp at h hd
      omega
  | drain w cont ih =>
    rintro C l b ⟨hL, w', h1, h2⟩ hP hl hf
    obtain ⟨b', h3, h4⟩ := failing_discard hB hK fuel b C 0 hP hf
    simp only [runRF, discardAll, hB.plain, Bool.false_eq_true, if_false, h3]
    rw [Int.zero_add, h1]
    exact ⟨fun _ => ⟨_, rfl, h2⟩, fun h => by omega, hB.close b' _ h4⟩
  | panic w p => intro C l b h; exact h.elim
  | hang w => intro C l b h; exact h.elim

theorem broken_copyLoop (hB : Failing B P K x) (hK : 32768 ≤ K) {D : RW ω} {C₀ : List Byte} (hD : Passes D K ok fin L e x C₀) (fuel : Nat) :
    ∀ (C l : List Byte) (b : β) (w : ω) (n : Int), C₀ = l ++ C → P b C → ok w l → C.length < fuel →
      Broken B ok fin L e x (l ++ C) (copyLoop D B fuel b w n) := by
  induction fuel with
  | zero => intro C l b w n _ _ _ h; omega
  | succ fuel ih =>
    intro C l b w n h0 hP hw hf
    obtain ⟨b', d, er, C', h1, h2, rfl, h4, h5⟩ := hB.read b C 32768 (by omega) hK hP
    simp only [copyLoop, h1]
    have hl := hD.bound w l hw ⟨_, h0.symm⟩
    by_cases hd : d = []
    · subst hd
      rcases h5 with ⟨-, h5⟩ | ⟨rfl, rfl⟩
      · exact absurd rfl h5
      · simp only [List.length_nil, gt_iff_lt, Nat.lt_irrefl, if_false, List.append_nil]
        rw [if_neg hB.real]
        exact ⟨fun _ => ⟨_, rfl, hw⟩, fun h => by omega, hB.close b' _ h4⟩
    · have hd0 : 0 < d.length := List.length_pos_iff.2 hd
      rw [if_pos hd0, if_neg (by omega)]
      by_cases hdl : (l ++ d).length ≤ L
      · obtain ⟨w', h6, h7⟩ := hD.write w l d hw hdl
        rw [h6]
        have hbad : decide ((d.length : Int) < 0 ∨ (d.length : Int) < d.length) = false := by simp
        simp only [hbad, Bool.false_and, Bool.false_eq_true, if_false, ne_eq, not_true_eq_false]
        rcases h5 with ⟨rfl, -⟩ | ⟨rfl, rfl⟩
        · have := ih C' (l ++ d) b' w' (n + d.length) (by simpa using h0) h4 h7 (by simp at hf; omega)
          simpa using this
        · simp only [if_neg hB.real, List.append_nil]
          exact ⟨fun _ => ⟨_, rfl, h7⟩, fun h => by omega, hB.close b' _ h4⟩
      · obtain ⟨w', h6, h7⟩ := hD.fail w l d hw ⟨C', by simpa using h0.symm⟩ (by omega)
        rw [h6]
        have hbad : decide ((0 : Int) < 0 ∨ (d.length : Int) < 0) = false := by simp
        simp only [hbad, Bool.false_and, Bool.false_eq_true, if_false]
        refine ⟨fun h => ?_, fun _ => ⟨_, l, rfl, List.prefix_append _ _, hl, h7⟩, hB.close b' _ h4⟩
        simp at h hdl
        omega

theorem broken_ioCopy (hB : Failing B P K x) (hK : 32768 ≤ K) {D : RW ω} {C : List Byte} (hD : Passes D K ok fin L e x C) (fuel : Nat)
    (b : β) (w : ω) (hP : P b C) (hw : ok w []) (hf : C.length < fuel) : Broken B ok fin L e x C (ioCopy D B fuel b w) := by
  unfold ioCopy
  rw [if_neg (by simp [hB.plain])]
  by_cases h2 : D.isReaderFrom = true
  · rw [if_pos h2]
    exact broken_runRF hB hK fuel _ C [] b (hD.readFrom h2 w hw) hP (hD.bound w [] hw (by simp)) hf
  · rw [if_neg h2]
    exact broken_copyLoop hB hK hD fuel C [] b w 0 rfl hP hw hf

/-- `serve` reduced to its copying. -/
theorem serve_broken {D : RW ω} {C : List Byte} {fuel : Nat} {r : Resp β} {w w₁ w₂ : ω}
    (h1 : (if D.isPusher then pushAll D (hdrGet r.hdrs headerPush) w else (w, none)) = (w₁, none))
    (h2 : D.writeHeader (setAll D r.hdrs w₁) r.code = (w₂, .ret ())) (h3 : Broken B ok fin L e x C (ioCopy D B fuel r.body w₂)) :
    (C.length ≤ L → (serve D B fuel r w).2.2 = .ret (some x) ∧ ok (serve D B fuel r w).2.1 C) ∧
    (L < C.length → (serve D B fuel r w).2.2 = .ret (some e) ∧ ∃ l, l <+: C ∧ l.length ≤ L ∧ fin (serve D B fuel r w).2.1 l) := by
  unfold serve
  rw [h1]
  dsimp only
  rw [h2]
  dsimp only
  obtain ⟨g1, g2, r', g3⟩ := h3
  rcases hq : ioCopy D B fuel r.body w₂ with ⟨b', w', q⟩
  rw [hq] at g1 g2 g3
  dsimp only at g1 g2 g3
  rcases hc : B.close b' with ⟨b'', q'⟩
  rw [hc] at g3
  dsimp only at g3
  subst g3
  refine ⟨fun hl => ?_, fun hl => ?_⟩
  · obtain ⟨n, rfl, a⟩ := g1 hl
    dsimp only
    rw [hc]
    exact ⟨rfl, a⟩
  · obtain ⟨n, l, rfl, a, b, c⟩ := g2 hl
    dsimp only
    rw [hc]
    exact ⟨rfl, l, a, b, c⟩

/-! ## Through a Writer -/

theorem passes_writer {N : RW ω} {C : List Byte} (hN : Passes N K ok fin L e x C) (raises : Bool) (kind : WKind)
    (hk : kind = .fancy → N.isReaderFrom = true) (s₀ : WState ω) (hs : Passing s₀) :
    Passes (Writer.ops N raises kind) K (WLim ok s₀) (WLim fin s₀) L e x C := by
  have hp : ∀ {ok : ω → List Byte → Prop} {s l}, WLim ok s₀ s l → Passing s := fun h =>
    ⟨h.2.1.trans hs.head, by rw [h.1]; exact hs.sent, by rw [h.1]; exact hs.body⟩
  refine ⟨fun s l h => hN.bound s.next l h.2.2.2, ?_, ?_, ?_⟩
  · intro s l d h hl
    obtain ⟨w', h3, h4⟩ := hN.write s.next l d h.2.2.2 hl
    refine ⟨{ s with next := w', bytes := s.bytes + d.length }, ?_, h.1, h.2.1, ?_, h4⟩
    · show Writer.write N s d = _
      simp only [Writer.write, passing_maybe N s (hp h).sent]
      rw [if_neg (by simp [(hp h).head, (hp h).body]), h3]
      simp
    · show s.bytes + _ = _
      rw [h.2.2.1]; simp
  · intro s l d h hC hl
    obtain ⟨w', h3, h4⟩ := hN.fail s.next l d h.2.2.2 hC hl
    refine ⟨{ s with next := w', sawError := true }, ?_, h.1, h.2.1, h.2.2.1, h4⟩
    show Writer.write N s d = _
    simp only [Writer.write, passing_maybe N s (hp h).sent]
    rw [if_neg (by simp [(hp h).head, (hp h).body]), h3]
    simp
  · intro hr s h
    have hk := hk (by simpa [Writer.ops] using hr)
    have e' : (Writer.ops N raises kind).readFrom s = Writer.wrapRF s (N.readFrom s.next) := by
      show Writer.readFrom N s = _
      simp [Writer.readFrom, passing_maybe N s (hp h).sent, (hp h).head, (hp h).body, hk]
    rw [e']
    have hb : s.bytes = 0 := h.2.2.1
    have key : ∀ (t : RF ω) (l C : List Byte), RFPasses K ok fin L e x t l C → RFPasses K (WLim ok s₀) (WLim fin s₀) L e x (Writer.wrapRF s t) l C := by
      intro t
      induction t with
      | read w k cont ih =>
        rintro l C ⟨a, b, c⟩
        refine ⟨a, b, fun d C' hC hd => ?_⟩
        obtain ⟨c1, c2, c3⟩ := c d C' hC hd
        refine ⟨fun hl hne => ih d none _ _ (c1 hl hne), fun hl hC' => ?_, fun hl er => ?_⟩
        · obtain ⟨w', h3, h4⟩ := c2 hl hC'
          refine ⟨{ s with next := w', bytes := s.bytes + (l ++ d).length }, ?_, h.1, h.2.1, ?_, h4⟩
          · show Writer.wrapRF s (cont d (some x)) = _
            rw [h3]; simp only [Writer.wrapRF]; rw [if_neg (by omega)]
          · show s.bytes + _ = _
            rw [hb]; simp
        · obtain ⟨w', h3, h4⟩ := c3 hl er
          refine ⟨{ s with next := w', bytes := s.bytes + l.length }, ?_, h.1, h.2.1, ?_, h4⟩
          · show Writer.wrapRF s (cont d er) = _
            rw [h3]; simp only [Writer.wrapRF]; rw [if_neg (by omega)]
          · show s.bytes + _ = _
            rw [hb]; simp
      | drain w cont ih =>
        rintro l C ⟨hL, w', h3, h4⟩
        refine ⟨hL, { s with next := w', bytes := s.bytes + (l ++ C).length }, ?_, h.1, h.2.1, ?_, h4⟩
        · show Writer.wrapRF s (cont C.length (some x)) = _
          rw [h3]; simp only [Writer.wrapRF]; rw [if_neg (by omega)]
        · show s.bytes + _ = _
          rw [hb]; simp
      | _ => intro l C h; exact h.elim
    exact key _ _ _ (hN.readFrom hk s.next h.2.2.2)

/-- A Writer that suppresses the body. -/
theorem passes_mute (N : RW ω) (C : List Byte) (K : Nat) (raises : Bool) (kind : WKind) (s₀ : WState ω) (hs : Mute s₀) (fin : WState ω → List Byte → Prop) :
    Passes (Writer.ops N raises kind) K (fun s _ => s = s₀) fin C.length e x C := by
  refine ⟨fun _ _ _ h => h.length_le, ?_, ?_, ?_⟩
  · rintro s l d rfl -
    exact ⟨s, mute_write N s hs d, rfl⟩
  · rintro s l d - h1 h2
    have := h1.length_le
    omega
  · rintro h s rfl
    have e : (Writer.ops N raises kind).readFrom s = .drain s fun n err => .done s n err := by
      show Writer.readFrom N s = _
      simp only [Writer.readFrom, passing_maybe N s hs.sent]
      rw [if_pos (by simpa using hs.mute)]
    rw [e]
    exact ⟨rfl, s, rfl, rfl⟩

/-! ## The ResponseWriter of net/http -/

variable {code : Int} {declared : Option Nat} {hdrs : List (GoStr × List GoStr)} {C : List Byte}

theorem passes_copy (hx : x ≠ .eof) (hcode : 200 ≤ code) (hK : 32768 ≤ K) (fuel : Nat) : ∀ (w : NetW) (l C' : List Byte), C = l ++ C' → C'.length < fuel →
    NetOk code declared hdrs (room code declared C) w l →
    RFPasses K (NetOk code declared hdrs (room code declared C)) (NetFin code declared hdrs) (room code declared C) (roomError code) x
      (NetW.copy fuel w l.length) l C' := by
  induction fuel with
  | zero => intro w l C' _ h; omega
  | succ fuel ih =>
    intro w l C' h0 hf hw
    refine ⟨by omega, hK, fun d C'' hC hd => ?_⟩
    subst hC
    refine ⟨fun hl hne => ?_, fun hl hC' => ?_, fun hl er => ?_⟩
    · obtain ⟨w', h1, h2⟩ := net_write hcode w l d hw hl
      have hd0 : d.length > 0 := List.length_pos_iff.2 hne
      dsimp only
      rw [if_pos hd0, if_neg (by omega), h1]
      dsimp only
      have := ih w' (l ++ d) C'' (by simpa using h0) (by simp at hf; omega) h2
      simpa using this
    · subst hC'
      by_cases hd0 : d.length > 0
      · obtain ⟨w', h1, h2⟩ := net_write hcode w l d hw hl
        dsimp only
        rw [if_pos hd0, if_neg (by omega), h1]
        exact ⟨w', by simp [hx], h2⟩
      · dsimp only
        rw [if_neg hd0]
        obtain rfl : d = [] := List.length_eq_zero_iff.1 (by omega)
        exact ⟨w, by simp [hx], by simpa using hw⟩
    · obtain ⟨w', h1, h2⟩ := net_fail hcode w l d hw ⟨C'', by simpa using h0.symm⟩ hl
      have hd0 : d.length > 0 := by
        have := hw.bound
        simp at hl
        omega
      dsimp only
      rw [if_pos hd0, if_neg (by omega), h1]
      exact ⟨w', by simp, h2⟩

theorem passes_net (hx : x ≠ .eof) (hcode : 200 ≤ code) (hK : 32768 ≤ K) (http1 : Bool) (fuel : Nat) (hf : C.length < fuel) :
    Passes (netRW http1 fuel) K (NetOk code declared hdrs (room code declared C)) (NetFin code declared hdrs) (room code declared C) (roomError code) x C :=
  ⟨fun _ _ h _ => h.bound, fun w l d h hl => net_write hcode w l d h hl, fun w l d h hC hl => net_fail hcode w l d h hC hl,
    fun _ w h => passes_copy hx hcode hK fuel w [] C rfl hf h⟩

end Verif
