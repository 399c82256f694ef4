import Verif.Spec.Success
import Verif.Props.Through

/-! # Copying, when everything goes well -/

set_option autoImplicit false

namespace Verif
open Spec
variable {β ω : Type}

/-- A run of `ReadFrom` that takes `C`; `ok w l`: in state `w` the bytes `l` have been taken. -/
def RFTakes (K : Nat) (ok : ω → List Byte → Prop) : RF ω → List Byte → List Byte → Prop
  | .read _ k cont, l, C => 0 < k ∧ k ≤ K ∧ ∀ d C', C = d ++ C' → d.length ≤ k →
      (d ≠ [] → RFTakes K ok (cont d none) (l ++ d) C') ∧
      (C' = [] → ∃ w, cont d (some .eof) = .done w (l ++ d).length none ∧ ok w (l ++ d))
  | .drain _ cont, l, C => ∃ w, cont C.length none = .done w (l ++ C).length none ∧ ok w (l ++ C)
  | _, _, _ => False

/-- A ResponseWriter that takes everything. -/
structure Takes (D : RW ω) (K : Nat) (ok : ω → List Byte → Prop) (C : List Byte) : Prop where
  write : ∀ w l d, ok w l → ∃ w', D.write w d = (w', .ret (d.length, none)) ∧ ok w' (l ++ d)
  readFrom : D.isReaderFrom = true → ∀ w, ok w [] → RFTakes K ok (D.readFrom w) [] C

/-- The copying was completed. -/
structure Copied (B : BodyOps β) (ok : ω → List Byte → Prop) (C : List Byte) (x : β × ω × WAns) : Prop where
  ret : ∃ n, x.2.2 = .ret (n, none)
  took : ok x.2.1 C
  close : (B.close x.1).2 = .ret none

theorem takes_runWT {B : BodyOps β} {K : Nat} {ok : ω → List Byte → Prop} {D : RW ω} {C₀ : List Byte} (hD : Takes D K ok C₀) (t : WT β) :
    ∀ (C l : List Byte) (w : ω), WTGives B t C → ok w l → Copied B ok (l ++ C) (runWT D.write t w) := by
  induction t with
  | done b n err =>
    rintro C l w ⟨rfl, rfl, h⟩ hw
    exact ⟨⟨n, rfl⟩, by simpa [runWT] using hw, h⟩
  | write b d cont ih =>
    rintro C l w ⟨C', rfl, h⟩ hw
    obtain ⟨w', h1, h2⟩ := hD.write w l d hw
    simp only [runWT, h1]
    have := ih d.length none C' (l ++ d) w' h h2
    simpa using this
  | panic b p => rintro C l w h hw; exact h.elim
  | hang b => rintro C l w h hw; exact h.elim

theorem lively_discard {B : BodyOps β} {P : β → List Byte → Prop} {K : Nat} (hB : Lively B P K) (hK : 32768 ≤ K) (fuel : Nat) :
    ∀ (b : β) (C : List Byte) (n : Int), P b C → C.length < fuel →
      ∃ b', discardLoop B fuel b n = (b', .ret (n + C.length, none)) ∧ P b' [] := by
  induction fuel with
  | zero => intro b C n _ h; omega
  | succ fuel ih =>
    intro b C n hP hf
    obtain ⟨b', d, e, C', h1, h2, rfl, h4, ⟨rfl, h5⟩ | ⟨rfl, rfl⟩⟩ := hB.read b C 8192 (by omega) (by omega) hP
    · simp only [discardLoop, h1]
      have hd : 0 < d.length := List.length_pos_iff.2 h5
      obtain ⟨b'', h6, h7⟩ := ih b' C' (n + d.length) h4 (by simp at hf; omega)
      exact ⟨b'', by rw [h6]; simp; omega, h7⟩
    · simp only [discardLoop, h1]
      exact ⟨b', by simp, h4⟩

theorem takes_runRF {B : BodyOps β} {P : β → List Byte → Prop} {K : Nat} (hB : Lively B P K) (hK : 32768 ≤ K)
    {ok : ω → List Byte → Prop} (hw : B.isWriterTo = false) (fuel : Nat) (t : RF ω) :
    ∀ (C l : List Byte) (b : β), RFTakes K ok t l C → P b C → C.length < fuel → Copied B ok (l ++ C) (runRF B fuel t b) := by
  induction t with
  | done w n err => intro C l b h; exact h.elim
  | read w k cont ih =>
    rintro C l b ⟨h0, hk, h⟩ hP hf
    obtain ⟨b', d, e, C', h1, h2, rfl, h4, ⟨rfl, h5⟩ | ⟨rfl, rfl⟩⟩ := hB.read b C k h0 hk hP
    · simp only [runRF, h1]
      have := ih d none C' (l ++ d) b' ((h d C' rfl h2).1 h5) h4 (by simp at hf; omega)
      simpa using this
    · obtain ⟨w', h6, h7⟩ := (h d [] rfl h2).2 rfl
      simp only [runRF, h1, h6]
      exact ⟨⟨_, rfl⟩, by simpa using h7, hB.close b' h4⟩
  | drain w cont ih =>
    rintro C l b ⟨w', h1, h2⟩ hP hf
    obtain ⟨b', h3, h4⟩ := lively_discard hB hK fuel b C 0 hP hf
    simp only [runRF, discardAll, hw, Bool.false_eq_true, if_false, h3]
    rw [Int.zero_add, h1]
    exact ⟨⟨_, rfl⟩, h2, hB.close b' h4⟩
  | panic w p => intro C l b h; exact h.elim
  | hang w => intro C l b h; exact h.elim

theorem takes_copyLoop {B : BodyOps β} {P : β → List Byte → Prop} {K : Nat} (hB : Lively B P K) (hK : 32768 ≤ K)
    {ok : ω → List Byte → Prop} {D : RW ω} {C₀ : List Byte} (hD : Takes D K ok C₀) (fuel : Nat) :
    ∀ (C l : List Byte) (b : β) (w : ω) (n : Int), P b C → ok w l → C.length < fuel →
      Copied B ok (l ++ C) (copyLoop D B fuel b w n) := by
  induction fuel with
  | zero => intro C l b w n _ _ h; omega
  | succ fuel ih =>
    intro C l b w n hP hw hf
    obtain ⟨b', d, e, C', h1, h2, rfl, h4, h5⟩ := hB.read b C 32768 (by omega) hK hP
    obtain ⟨w', h6, h7⟩ := hD.write w l d hw
    simp only [copyLoop, h1]
    by_cases hd : d = []
    · subst hd
      rcases h5 with ⟨-, h5⟩ | ⟨rfl, rfl⟩
      · exact absurd rfl h5
      · simp only [List.length_nil, gt_iff_lt, Nat.lt_irrefl, if_false, if_true]
        exact ⟨⟨_, rfl⟩, by simpa using hw, hB.close b' h4⟩
    · have hd0 : 0 < d.length := List.length_pos_iff.2 hd
      rw [if_pos hd0, if_neg (by omega), h6]
      have hbad : decide ((d.length : Int) < 0 ∨ (d.length : Int) < d.length) = false := by simp
      simp only [hbad, Bool.false_and, Bool.false_eq_true, if_false, ne_eq, not_true_eq_false]
      rcases h5 with ⟨rfl, -⟩ | ⟨rfl, rfl⟩
      · have := ih C' (l ++ d) b' w' (n + d.length) h4 h7 (by simp at hf; omega)
        simpa using this
      · simp only [if_true]
        exact ⟨⟨_, rfl⟩, by simpa using h7, hB.close b' h4⟩

theorem takes_ioCopy {B : BodyOps β} {P : β → List Byte → Prop} {K : Nat} (hB : Lively B P K) (hK : 32768 ≤ K)
    {ok : ω → List Byte → Prop} {D : RW ω} {C : List Byte} (hD : Takes D K ok C) (fuel : Nat) (b : β) (w : ω) (hP : P b C)
    (hw : ok w []) (hf : C.length < fuel) : Copied B ok C (ioCopy D B fuel b w) := by
  unfold ioCopy
  by_cases h1 : B.isWriterTo = true
  · rw [if_pos h1]
    exact takes_runWT hD _ C [] w (hB.writeTo h1 b C hP) hw
  · rw [if_neg h1]
    have h1 : B.isWriterTo = false := by simpa using h1
    by_cases h2 : D.isReaderFrom = true
    · rw [if_pos h2]
      exact takes_runRF hB hK h1 fuel _ C [] b (hD.readFrom h2 w hw) hP hf
    · rw [if_neg h2]
      exact takes_copyLoop hB hK hD fuel C [] b w 0 hP hw hf

/-! ## Who takes everything -/

/-- The log has been extended by the bytes `l`. -/
def Took (base : List WEv) (s : Logged WEv ω) (l : List Byte) : Prop :=
  ∃ T, s.log = base ++ T ∧ (∀ e ∈ T, passesBody e = true) ∧ handed T = l ∧ accepted T = l.length

theorem took_record (base : List WEv) (K : Nat) (t : RF ω) : ∀ (T : List WEv) (l C : List Byte), (∀ e ∈ T, passesBody e = true) →
    handed T = l → accepted T = 0 → RFEats K t l.length C → RFTakes K (Took base) (t.record (base ++ T)) l C := by
  induction t with
  | read w k cont ih =>
    rintro T l C hT rfl ha ⟨h0, hk, h⟩
    refine ⟨h0, hk, fun d C' hC hd => ?_⟩
    have hT' : ∀ e ∈ T ++ [.took d], passesBody e = true := by
      intro e he
      rcases List.mem_append.1 he with h | h
      · exact hT e h
      · simp only [List.mem_singleton] at h; subst h; rfl
    have hh : handed (T ++ [.took d]) = handed T ++ d := by rw [handed_append]; simp [handed]
    have ha' : accepted (T ++ [.took d]) = 0 := by rw [accepted_append, ha]; simp [accepted]
    obtain ⟨h1, h2⟩ := h d C' hC hd
    refine ⟨fun hne => ?_, fun hC' => ?_⟩
    · have := ih d none (T ++ [.took d]) (handed T ++ d) C' hT' hh ha' (by simpa using h1 hne)
      simpa [List.append_assoc] using this
    · obtain ⟨w', h3⟩ := h2 hC'
      show ∃ w, (cont d (some .eof)).record _ = _ ∧ _
      rw [h3]
      refine ⟨⟨w', base ++ T ++ [.took d] ++ [.readFromDone ((handed T).length + d.length : Nat) none]⟩, by simp [RF.record], ?_⟩
      refine ⟨T ++ [.took d] ++ [.readFromDone ((handed T).length + d.length : Nat) none], by simp, ?_, ?_, ?_⟩
      · intro e he
        rcases List.mem_append.1 he with h | h
        · exact hT' e h
        · simp only [List.mem_singleton] at h; subst h; rfl
      · rw [handed_append, hh]; simp [handed]
      · rw [accepted_append, ha']; simp [accepted]; omega
  | _ => intro T l C _ _ _ h; exact h.elim

/-- A client that keeps a log. -/
theorem takes_record {N : RW ω} {C : List Byte} {K : Nat} (hN : Obliging N C K) (base : List WEv) :
    Takes N.record K (Took base) C := by
  refine ⟨?_, ?_⟩
  · rintro w l d ⟨T, h1, h2, rfl, h4⟩
    refine ⟨⟨(N.write w.inner d).1, w.log ++ [.write d (N.write w.inner d).2]⟩, by simp only [RW.record, hN.write], ?_⟩
    refine ⟨T ++ [.write d (N.write w.inner d).2], by simp [h1], ?_, ?_, ?_⟩
    · intro e he
      rcases List.mem_append.1 he with h | h
      · exact h2 e h
      · simp only [List.mem_singleton] at h; subst h; rfl
    · rw [handed_append]; simp [handed]
    · rw [accepted_append, h4, hN.write]; simp [accepted]
  · rintro h w ⟨T, h1, h2, h3, h4⟩
    have hT : ∀ e ∈ T ++ [.readFrom], passesBody e = true := by
      intro e he
      rcases List.mem_append.1 he with h | h
      · exact h2 e h
      · simp only [List.mem_singleton] at h; subst h; rfl
    have := took_record base K (N.readFrom w.inner) (T ++ [.readFrom]) [] C hT (by rw [handed_append, h3]; rfl)
      (by rw [accepted_append, h4]; rfl) (hN.readFrom h w.inner)
    simpa [RW.record, h1, List.append_assoc] using this

/-- A Writer that passes on the body. -/
def WTook (ok : ω → List Byte → Prop) (s₀ s : WState ω) (l : List Byte) : Prop :=
  s = { s₀ with next := s.next, bytes := l.length } ∧ ok s.next l

theorem takes_writer {N : RW ω} {C : List Byte} {K : Nat} {ok : ω → List Byte → Prop} (hN : Takes N K ok C) (raises : Bool)
    (kind : WKind) (hk : kind = .fancy → N.isReaderFrom = true) (s₀ : WState ω) (hs : Passing s₀) :
    Takes (Writer.ops N raises kind) K (WTook ok s₀) C := by
  refine ⟨?_, ?_⟩
  · rintro s l d ⟨h1, h2⟩
    have hp : Passing s := by rw [h1]; exact ⟨hs.head, hs.sent, hs.body⟩
    obtain ⟨w', h3, h4⟩ := hN.write s.next l d h2
    refine ⟨{ s with next := w', bytes := s.bytes + d.length }, ?_, ?_⟩
    · show Writer.write N s d = _
      simp only [Writer.write, passing_maybe N s hp.sent]
      rw [if_neg (by simp [hp.head, hp.body]), h3]
      simp
    · refine ⟨?_, h4⟩
      rw [h1]; simp
  · rintro h s ⟨h1, h2⟩
    have hp : Passing s := by rw [h1]; exact ⟨hs.head, hs.sent, hs.body⟩
    have hk := hk (by simpa [Writer.ops] using h)
    have e : (Writer.ops N raises kind).readFrom s = Writer.wrapRF s (N.readFrom s.next) := by
      show Writer.readFrom N s = _
      simp [Writer.readFrom, passing_maybe N s hp.sent, hp.head, hp.body, hk]
    rw [e]
    have hb : s.bytes = 0 := by rw [h1]; rfl
    have key : ∀ (t : RF ω) (l C : List Byte), RFTakes K ok t l C → RFTakes K (WTook ok s₀) (Writer.wrapRF s t) l C := by
      intro t
      induction t with
      | read w k cont ih =>
        rintro l C ⟨a, b, c⟩
        refine ⟨a, b, fun d C' hC hd => ⟨fun hne => ih d none _ _ ((c d C' hC hd).1 hne), fun hC' => ?_⟩⟩
        obtain ⟨w', h3, h4⟩ := (c d C' hC hd).2 hC'
        refine ⟨{ s with next := w', bytes := s.bytes + (l ++ d).length }, ?_, ?_, h4⟩
        · show Writer.wrapRF s (cont d (some .eof)) = _
          rw [h3]; simp only [Writer.wrapRF]; rw [if_neg (by omega)]
        · rw [h1]; simp
      | drain w cont ih =>
        rintro l C ⟨w', h3, h4⟩
        refine ⟨{ s with next := w', bytes := s.bytes + (l ++ C).length }, ?_, ?_, h4⟩
        · show Writer.wrapRF s (cont C.length none) = _
          rw [h3]; simp only [Writer.wrapRF]; rw [if_neg (by omega)]
        · rw [h1]; simp
      | _ => intro l C h; exact h.elim
    exact key _ _ _ (hN.readFrom hk s.next h2)

/-- A Writer that suppresses the body. -/
theorem takes_mute (N : RW ω) (C : List Byte) (K : Nat) (raises : Bool) (kind : WKind) (s₀ : WState ω) (hs : Mute s₀) :
    Takes (Writer.ops N raises kind) K (fun s _ => s = s₀) C := by
  refine ⟨?_, ?_⟩
  · rintro s l d rfl
    exact ⟨s, mute_write N s hs d, rfl⟩
  · rintro h s rfl
    have e : (Writer.ops N raises kind).readFrom s = .drain s fun n err => .done s n err := by
      show Writer.readFrom N s = _
      simp only [Writer.readFrom, passing_maybe N s hs.sent]
      rw [if_pos (by simpa using hs.mute)]
    rw [e]
    exact ⟨s, rfl, rfl⟩

/-! ## Serving -/

theorem oblige_pushAll {N : RW ω} {C : List Byte} {K : Nat} (hN : Obliging N C K) (hp : N.isPusher = true) (urls : List GoStr) :
    ∀ w : Logged WEv ω, ∃ w' P, pushAll N.record urls w = (w', none) ∧ w'.log = w.log ++ P ∧ PushesOk P ∧ pushes P = urls := by
  induction urls with
  | nil => intro w; exact ⟨w, [], rfl, by simp, by simp [PushesOk], rfl⟩
  | cons u urls ih =>
    intro w
    have e : N.record.push w u = (⟨(N.push w.inner u).1, w.log ++ [.push u (N.push w.inner u).2]⟩, (N.push w.inner u).2) := rfl
    obtain ⟨w', P, h1, h2, h3, h4⟩ := ih ⟨(N.push w.inner u).1, w.log ++ [.push u (N.push w.inner u).2]⟩
    refine ⟨w', .push u (N.push w.inner u).2 :: P, ?_, by simp [h2], ?_, by simpa [pushes] using h4⟩
    · rcases hN.push hp w.inner u with h | h
      · simp only [pushAll, e, h] at h1 ⊢; exact h1
      · simp only [pushAll, e, h] at h1 ⊢; simpa using h1
    · intro ev hev
      rcases List.mem_cons.1 hev with rfl | hev
      · rcases hN.push hp w.inner u with h | h
        · exact ⟨u, .inl (by rw [h])⟩
        · exact ⟨u, .inr (by rw [h])⟩
      · exact h3 ev hev

/-- The part of `Serve` before the body. -/
theorem oblige_head {N : RW ω} {C : List Byte} {K : Nat} (hN : Obliging N C K) (hdrs : List (GoStr × List GoStr)) (w : Logged WEv ω) :
    ∃ w₁ P, (if N.record.isPusher then pushAll N.record (hdrGet hdrs headerPush) w else (w, none)) = (w₁, none) ∧
      (setAll N.record hdrs w₁).log = w.log ++ P ++ headerEvents hdrs ∧ PushesOk P ∧
      pushes P = if N.isPusher then hdrGet hdrs (lit "Push") else [] := by
  by_cases hp : N.isPusher = true
  · have hp' : N.record.isPusher = true := hp
    obtain ⟨w', P, h1, h2, h3, h4⟩ := oblige_pushAll hN hp (hdrGet hdrs headerPush) w
    refine ⟨w', P, by rw [if_pos hp', h1], ?_, h3, by rw [if_pos hp, h4]; rfl⟩
    obtain ⟨i, l⟩ := w'
    rw [setAll_record, ← h2]
    rfl
  · have hp' : ¬ N.record.isPusher = true := hp
    refine ⟨w, [], by rw [if_neg hp'], ?_, by simp [PushesOk], by rw [if_neg hp]; rfl⟩
    obtain ⟨i, l⟩ := w
    rw [setAll_record, List.append_nil]
    rfl

/-- A Body served well to a ResponseWriter: `serve` reduced to its copying. -/
theorem serve_copied {D : RW ω} {B : BodyOps β} {ok : ω → List Byte → Prop} {C : List Byte} {fuel : Nat} {r : Resp β} {w w₁ w₂ : ω}
    (h1 : (if D.isPusher then pushAll D (hdrGet r.hdrs headerPush) w else (w, none)) = (w₁, none))
    (h2 : D.writeHeader (setAll D r.hdrs w₁) r.code = (w₂, .ret ())) (h3 : Copied B ok C (ioCopy D B fuel r.body w₂)) :
    (serve D B fuel r w).2.2 = .ret none ∧ ok (serve D B fuel r w).2.1 C := by
  unfold serve
  rw [h1]
  dsimp only
  rw [h2]
  dsimp only
  obtain ⟨⟨n, a⟩, b, c⟩ := h3
  rcases hq : ioCopy D B fuel r.body w₂ with ⟨b', w', q⟩
  rw [hq] at a b c
  dsimp only at a b c
  subst a
  dsimp only
  rcases hc : B.close b' with ⟨b'', q⟩
  rw [hc] at c
  dsimp only at c
  subst c
  exact ⟨rfl, b⟩

end Verif
