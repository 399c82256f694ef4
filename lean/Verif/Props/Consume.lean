import Verif.Proofs.ConsumeBody
import Verif.Props.Positional
import Verif.Props.Writer
import Verif.Props.EndToEnd
import Verif.Props.Failing

/-!
# C72: the standard library can use Bodies

`io.ReadAll`, `io.ReadFull`, `io.ReadAtLeast`, `io.LimitReader`, `io.CopyN`, `io.MultiReader`, `io.SectionReader` and `http.ServeContent` do over a Body what
their documentation says: for everything that is a `Source`, and so for every kind of Body, in every state that it can be in.  `C72_bytes`, `C72_readerAt`,
`C72_seeker` and `C72_stream` say it of the Bodies of this repository (also of those over a stream that fails), `C72_usable` what it means for `io.ReadAll`.  `C72_short_seeker`: over an `io.ReadSeeker` whose `Read` may return less
than is asked for, `io.ReadAll` returns too little, and no error.
-/

set_option autoImplicit false

namespace Verif
open Spec
variable {β ω S σ : Type} {B : BodyOps β} {P : β → List Byte → Prop} {K : Nat} {E : Err → Prop}

/-- What `io.ReadAll` makes of the error at the end. -/
def Spec.allError (e : Err) : Option Err := if e = .eof then none else some e

/-- What `io.ReadAtLeast` makes of the error at the end, if it has got too few bytes, namely `d`. -/
def Spec.shortError (d : List Byte) (e : Err) : Err := if d ≠ [] ∧ e = .eof then errUnexpectedEOF else e

/-- `append` makes room for at least one more byte, and not too much. -/
def Spec.Grows (grow : Nat → Nat) (N K : Nat) : Prop := ∀ n, n ≤ N → n < grow n ∧ grow n ≤ K

/-- **C72.** `io.ReadAll` returns everything that is left, and the error if it is not the end of the file. -/
theorem C72_readAll (hB : Source B P K E) {b : β} {C : List Byte} (hP : P b C) (hK : 512 ≤ K) (grow : Nat → Nat) (hg : Grows grow C.length K) (fuel : Nat)
    (hf : C.length < fuel) : ∃ b' e, readAll B grow fuel b = (b', .ret (C, allError e)) ∧ E e ∧ P b' [] := by
  have := readAllLoop_source hB grow C.length hg fuel b C [] 512 hP hf (by simp) (by simp) hK
  simpa [readAll, allError] using this

/-- **C72.** `io.ReadAtLeast` returns a part of at least the length asked for, if there is as much, and leaves the rest; else it returns all, and an error. -/
theorem C72_readAtLeast (hB : Source B P K E) {b : β} {C : List Byte} (hP : P b C) (size least : Nat) (hs : least ≤ size) (hK : size ≤ K) (fuel : Nat)
    (hf : C.length < fuel) :
    ∃ b', (least ≤ C.length ∧ ∃ m, least ≤ m ∧ m ≤ size ∧ m ≤ C.length ∧ readAtLeast B fuel b size least = (b', .ret (C.take m, none)) ∧ P b' (C.drop m)) ∨
      (C.length < least ∧ ∃ e, E e ∧ readAtLeast B fuel b size least = (b', .ret (C, some (shortError C e))) ∧ P b' []) := by
  obtain ⟨b', h⟩ := atLeastLoop_source hB size least hs hK fuel b C [] hP hf (by simp)
  rw [readAtLeast, if_neg (by omega)]
  refine ⟨b', ?_⟩
  simp only [List.nil_append] at h
  rcases h with ⟨m, a1, a2, a3, -, a4, a5⟩ | h
  · exact .inl ⟨by omega, m, a1, a2, a3, a4, a5⟩
  · exact .inr h

/-- **C72.** `io.ReadFull` fills the buffer with the next bytes and leaves the rest, or returns all there is: with the error at the end if that is nothing, else
with `io.ErrUnexpectedEOF` in place of `io.EOF`. -/
theorem C72_readFull (hB : Source B P K E) {b : β} {C : List Byte} (hP : P b C) (size : Nat) (hK : size ≤ K) (fuel : Nat) (hf : C.length < fuel) :
    ∃ b', (size ≤ C.length ∧ readFull B fuel b size = (b', .ret (C.take size, none)) ∧ P b' (C.drop size)) ∨
      (C.length < size ∧ ∃ e, E e ∧ readFull B fuel b size = (b', .ret (C, some (shortError C e))) ∧ P b' []) := by
  obtain ⟨b', h⟩ := C72_readAtLeast hB hP size size (Nat.le_refl _) hK fuel hf
  refine ⟨b', ?_⟩
  rcases h with ⟨a0, m, a1, a2, a3, a4, a5⟩ | h
  · have : m = size := by omega
    subst this
    exact .inl ⟨a0, a4, a5⟩
  · exact .inr h

/-- **C72.** `io.LimitReader` delivers the first `n` bytes, ends with `io.EOF` (or, if the Body has no more than that, possibly with its error), and leaves the
rest in the Body. -/
theorem C72_limit (hB : Source B P K E) (b : β) (C : List Byte) (n : Nat) (hP : P b C) :
    Source (limited B) (UpToLimit P (C.drop n)) K (fun e => e = .eof ∨ C.length ≤ n ∧ E e) ∧ UpToLimit P (C.drop n) (b, (n : Int)) (C.take n) := by
  refine ⟨?_, ?_, ?_⟩
  · have := limited_source hB (C.drop n)
    simpa only [List.drop_eq_nil_iff] using this
  · simpa using hP
  · dsimp only
    rw [List.length_take]
    by_cases h : n ≤ C.length
    · left; omega
    · right; exact ⟨by omega, List.drop_eq_nil_of_le (by omega)⟩

/-- **C72.** If the limit is not reached, the error at the end is that of the Body. -/
theorem C72_limit_beyond (hB : Source B P K E) : Source (limited B) (fun s C => P s.1 C ∧ (C.length : Int) < s.2) K E := limited_beyond hB

/-- **C72.** `io.MultiReader` delivers the one after the other. -/
theorem C72_multi (hB : Source B P K (· = .eof)) : Source (multi B) (InTurn P) K (· = .eof) := multi_source hB

/-- **C72.** `io.SectionReader` delivers the section. -/
theorem C72_section {step : S → Op → S × Out} {h : Nat} {I : S → Prop} {data : List Byte} (hR : ReadsAt step h I data) (off n : Nat)
    (hl : off + n < 2 ^ 63) (hK : K < 2 ^ 62) {s : S} (hI : I s) :
    Source (sectionOf step h (off + n : Nat)) (InSection I data (off + n : Nat)) K (· = .eof) ∧
      InSection I data (off + n : Nat) (s, (off : Int)) ((data.drop off).take n) := by
  refine ⟨section_source hR _ (by omega) K hK, hI, by dsimp only; omega, ?_⟩
  dsimp only
  congr 1
  omega

/-- **C72.** `io.CopyN` copies exactly `n` bytes and leaves the rest, if there are as many; else it copies all and returns `io.EOF`. -/
theorem C72_copyN (hB : Source B P K E) (hK : 32768 ≤ K) {b : β} {C : List Byte} (hP : P b C) (n : Nat) (hE : (∀ e, E e → e = .eof) ∨ n < C.length)
    {N : RW ω} (hN : Obliging N (C.take n) K) (fuel : Nat) (hf : min n C.length < fuel) (w : Logged WEv ω) :
    ∃ b' w', copyN N.record B fuel b w n = (b', w', .ret (min n C.length, if C.length < n then some .eof else none)) ∧ P b' (C.drop n) ∧
      ∃ T, w'.log = w.log ++ T ∧ (∀ e ∈ T, passesBody e = true) ∧ handed T = C.take n ∧ accepted T = min n C.length := by
  obtain ⟨h1, h2⟩ := C72_limit hB b C n hP
  have h1' : Source (limited B) (UpToLimit P (C.drop n)) K (· = .eof) := by
    refine ⟨fun s D k a0 a1 a2 => ?_⟩
    obtain ⟨s', d, er, D', g1, g2, g3, g4, g5⟩ := h1.read s D k a0 a1 a2
    refine ⟨s', d, er, D', g1, g2, g3, g4, ?_⟩
    rcases g5 with g5 | ⟨e, g5, g6 | ⟨g6, g7⟩, g8⟩
    · exact .inl g5
    · exact .inr ⟨e, g5, g6, g8⟩
    · rcases hE with hE | hE
      · exact .inr ⟨e, g5, hE e g7, g8⟩
      · omega
  obtain ⟨⟨b', r⟩, w', h3, ⟨h4, -⟩, T, h5, h6, h7, h8⟩ := source_ioCopy h1' rfl hK (takes_record hN w.log) fuel (b, (n : Int)) w h2
    ⟨[], by simp, by simp, rfl, rfl⟩ (by rw [List.length_take]; exact hf)
  refine ⟨b', w', ?_, by simpa using h4, T, h5, h6, h7, by rw [h8, List.length_take]⟩
  simp only [copyN, h3, List.length_take]
  by_cases hle : n ≤ C.length
  · rw [Nat.min_eq_left hle, if_pos rfl, if_neg (by omega)]
    rw [Int.min_eq_left (by omega)]
  · rw [Nat.min_eq_right (by omega), if_neg (by omega), if_pos ⟨by omega, trivial⟩, if_pos (by omega), Int.min_eq_right (by omega)]

theorem seekOn_ok {step : S → Op → S × Out} {h : Nat} {s s' : S} {off wh n : Int} (e : step s (.seek h off wh) = (s', .seek n none)) :
    seekOn step h s off wh = (s', .ret (n, none)) := by
  simp [seekOn, e]

/-- **C72.** `http.ServeContent` of a closed Body answers 500, and sends nothing; whatever it is asked for. -/
theorem C72_closed_served {step : S → Op → S × Out} {dr dr' : Bool} {h : Nat} {s : S} (hI : Inert step true dr s h) (D : RW ω) (fuel : Nat)
    (isHEAD sniff : Bool) (ranges : Int → Option (Int × Int)) (w : Logged WEv ω) :
    serveContent D.record step dr' h fuel isHEAD sniff ranges s w =
      (s, ⟨(D.writeHeader w.inner 500).1, w.log ++ [.status 500]⟩, (D.writeHeader w.inner 500).2) := by
  have e : step s (.seek h 0 2) = (s, .seek (-1) (some .closed)) := Prod.ext (hI.1 _ rfl) (by rw [hI.2.2.2.1]; rfl)
  simp only [serveContent, seekOn, e]
  rfl

/-- **C72.** `http.ServeContent` of a Body that says its size and then fails to go back to the start answers 500 as well. -/
theorem C72_stuck_served {step : S → Op → S × Out} {dr : Bool} {h : Nat} {s s1 s2 : S} {n n' : Int} {e : Err}
    (h1 : step s (.seek h 0 2) = (s1, .seek n none)) (h2 : step s1 (.seek h 0 0) = (s2, .seek n' (some e))) (D : RW ω) (fuel : Nat)
    (isHEAD sniff : Bool) (ranges : Int → Option (Int × Int)) (w : Logged WEv ω) :
    serveContent D.record step dr h fuel isHEAD sniff ranges s w =
      (s2, ⟨(D.writeHeader w.inner 500).1, w.log ++ [.status 500]⟩, (D.writeHeader w.inner 500).2) := by
  simp only [serveContent, seekOn, h1, h2]
  rfl

/-- **C72.** Of a closed Body `io.ReadAll` and `io.ReadAtLeast` return nothing and the error that it is closed — the latter not if nothing is asked for. -/
theorem C72_closed_read {step : S → Op → S × Out} {sk dr dr' : Bool} {h : Nat} {s : S} (hI : Inert step sk dr s h) (grow : Nat → Nat) (fuel : Nat)
    (hf : 0 < fuel) (size least : Nat) (hs : least ≤ size) :
    readAll (BodyOps.ofFam step dr' h) grow fuel s = (s, .ret ([], some .closed)) ∧
      readAtLeast (BodyOps.ofFam step dr' h) fuel s size least = (s, .ret ([], if least = 0 then none else some .closed)) := by
  have e : ∀ k, step s (.read h k) = (s, .read [] (some .closed)) := fun k => Prod.ext (hI.1 _ rfl) (hI.2.1 k)
  obtain ⟨fuel, rfl⟩ : ∃ f, fuel = f + 1 := ⟨fuel - 1, by omega⟩
  constructor
  · simp [readAll, readAllLoop, BodyOps.ofFam, e]
  · by_cases h0 : least = 0
    · subst h0
      simp [readAtLeast, atLeastLoop]
    · simp [readAtLeast, atLeastLoop, BodyOps.ofFam, e, h0, show ¬ size < least by omega]

/-- The part of `data` that is asked for. -/
def Spec.part (data : List Byte) : Option (Int × Int) → List Byte
  | none => data
  | some (start, len) => (data.drop start.toNat).take len.toNat

/-- **C72.** `http.ServeContent` sends the range that is asked for, or all, with or without having looked at the beginning before, wherever the Body stood. -/
theorem C72_serveContent {step : S → Op → S × Out} {dr : Bool} {h : Nat} {P : S → List Byte → Prop} {data : List Byte}
    (hB : Source (BodyOps.ofFam step dr h) P K (· = .eof)) (hS : Seeks step h P data) (hK : 32768 ≤ K) (hlen : data.length < 2 ^ 63) {s : S} {C : List Byte}
    (hP : P s C) (ranges : Int → Option (Int × Int))
    (hr : ∀ start len, ranges data.length = some (start, len) → 0 ≤ start ∧ 0 ≤ len ∧ start + len ≤ data.length)
    {N : RW ω} (hN : Obliging N (part data (ranges data.length)) K) (isHEAD sniff : Bool) (fuel : Nat) (hf : data.length < fuel) (w : Logged WEv ω) :
    ∃ s' w', serveContent N.record step dr h fuel isHEAD sniff ranges s w = (s', w', .ret ()) ∧
      ∃ T, w'.log = w.log ++ .status (if ranges data.length = none then 200 else 206) :: T ∧ (∀ e ∈ T, passesBody e = true) ∧
        handed T = (if isHEAD then [] else part data (ranges data.length)) ∧
        accepted T = (if isHEAD then [] else part data (ranges data.length)).length := by
  obtain ⟨s1, e1, p1⟩ := hS.fin s C hP
  obtain ⟨s2, e2, p2⟩ := hS.start s1 [] 0 p1 (by omega) (by omega)
  simp only [serveContent, seekOn_ok e1, seekOn_ok e2]
  -- sending, from a state in which at least `n` bytes are left
  have send : ∀ (code : Int) (n : Nat) (D : List Byte) (s : S), 100 ≤ code → code ≤ 999 → P s D → n ≤ D.length → D.length ≤ data.length →
      part data (ranges data.length) = D.take n →
      ∃ s' w', sendContent N.record step dr h fuel isHEAD code n s w = (s', w', .ret ()) ∧
        ∃ T, w'.log = w.log ++ .status code :: T ∧ (∀ e ∈ T, passesBody e = true) ∧
          handed T = (if isHEAD then [] else part data (ranges data.length)) ∧
          accepted T = (if isHEAD then [] else part data (ranges data.length)).length := by
    intro code n D s c1 c2 hD hn hDl hpart
    have hwh : N.record.writeHeader w code = (⟨(N.writeHeader w.inner code).1, w.log ++ [.status code]⟩, .ret ()) := by
      simp only [RW.record, hN.writeHeader w.inner code c1 c2]
    simp only [sendContent, hwh]
    cases isHEAD with
    | true => exact ⟨s, _, rfl, [], by simp, by simp, rfl, rfl⟩
    | false =>
      rw [hpart] at hN
      obtain ⟨s', w', a1, -, T, a3, a4, a5, a6⟩ := C72_copyN hB hK hD n (.inl fun _ h => h) hN fuel (by omega) ⟨(N.writeHeader w.inner code).1, w.log ++ [.status code]⟩
      simp only [Bool.false_eq_true, if_false, a1]
      refine ⟨s', w', rfl, T, by rw [a3]; simp, a4, by rw [a5, hpart], by rw [a6, hpart, List.length_take]⟩
  -- after looking at the beginning, or not
  have rest : ∀ s3, P s3 data → ∃ s' w',
      (match ranges data.length with
        | none => sendContent N.record step dr h fuel isHEAD 200 data.length s3 w
        | some (start, len) => match seekOn step h s3 start 0 with
          | (s, .panic p) => (s, w, .panic p)
          | (s, .hang) => (s, w, .hang)
          | (s, .ret (_, some _)) => sendError N.record 416 s w
          | (s, .ret (_, none)) => sendContent N.record step dr h fuel isHEAD 206 len s w) = (s', w', .ret ()) ∧
      ∃ T, w'.log = w.log ++ .status (if ranges data.length = none then 200 else 206) :: T ∧ (∀ e ∈ T, passesBody e = true) ∧
        handed T = (if isHEAD then [] else part data (ranges data.length)) ∧
        accepted T = (if isHEAD then [] else part data (ranges data.length)).length := by
    intro s3 p3
    cases hra : ranges data.length with
    | none =>
      have := send 200 data.length data s3 (by omega) (by omega) p3 (Nat.le_refl _) (Nat.le_refl _) (by rw [hra]; simp [part])
      rw [hra] at this
      simpa using this
    | some q =>
      obtain ⟨start, len⟩ := q
      obtain ⟨r1, r2, r3⟩ := hr start len hra
      obtain ⟨s4, e4, p4⟩ := hS.start s3 data start p3 r1 (by omega)
      have := send 206 len.toNat (data.drop start.toNat) s4 (by omega) (by omega) p4 (by rw [List.length_drop]; omega) (by rw [List.length_drop]; omega)
        (by rw [hra]; rfl)
      rw [hra, Int.toNat_of_nonneg r2] at this
      simp only [seekOn_ok e4]
      simpa using this
  simp only [serveContentFrom]
  cases sniff with
  | false =>
    simp only [Bool.false_eq_true, if_false]
    exact rest s2 (by simpa using p2)
  | true =>
    simp only [if_true]
    obtain ⟨s5, h5⟩ := C72_readFull hB p2 512 (by omega) fuel (by simpa using hf)
    have hx : ∃ x C', readFull (BodyOps.ofFam step dr h) fuel s2 512 = (s5, .ret x) ∧ P s5 C' := by
      rcases h5 with ⟨-, a, b⟩ | ⟨-, e, -, a, b⟩
      · exact ⟨_, _, a, b⟩
      · exact ⟨_, _, a, b⟩
    obtain ⟨x, C', h6, h7⟩ := hx
    obtain ⟨s6, e6, p6⟩ := hS.start s5 C' 0 h7 (by omega) (by omega)
    simp only [h6, seekOn_ok e6]
    exact rest s6 (by simpa using p6)

/-! ## The Bodies of this repository -/

/-- Whatever (returning) calls of it and its copies have been made before: a Body that is open is a source of a rest of its content, ending with `e`. -/
def Spec.Usable (step : S → Op → S × Out) (Ok : Op → Prop) (dr : Bool) (s₀ : S) (data : List Byte) (K : Nat) (e : Err) (P : Nat → S → List Byte → Prop) :
    Prop :=
  (∀ h, Source (BodyOps.ofFam step dr h) (P h) K (· = e)) ∧ P 0 s₀ data ∧
  ∀ ops : List Op, (∀ op ∈ ops, Ok op) → Out.hang ∉ (Verif.run step s₀ ops).2 → ∀ h, IsOpen step (Verif.run step s₀ ops).1 h →
    ∃ q, P h (Verif.run step s₀ ops).1 (data.drop q)

theorem usable_of_sim {step : S → Op → S × Out} {cfg : Cfg} {Ok : Op → Prop} {Allowed : Choice → Prop} (Rel : S → List Cursor → Prop)
    (hstep : ∀ s f op, Rel s f → Ok op → (step s op).2 ≠ .hang →
      ∃ ch, Allowed ch ∧ (step s op).2 = (Spec.step cfg ch f op).2 ∧ Rel (step s op).1 (Spec.step cfg ch f op).1)
    (dr : Bool) (K : Nat) (s₀ : S) (data : List Byte) (e : Err) (hsrc : ∀ h, Source (BodyOps.ofFam step dr h) (SrcRel Rel h) K (· = e))
    (hinit : SrcRel Rel 0 s₀ data) (hcopy : ∀ h, Ok (.copy h)) (hcont : ∀ (h : Nat) s f (c : Cursor), Rel s f → f[h]? = some c → c.isOpen = true → c.content = data) :
    Usable step Ok dr s₀ data K e (SrcRel Rel) := by
  refine ⟨hsrc, hinit, ?_⟩
  intro ops
  have key : ∀ (ops : List Op) (s : S), (∃ f, Rel s f) → (∀ op ∈ ops, Ok op) → Out.hang ∉ (run step s ops).2 → ∃ f, Rel (run step s ops).1 f := by
    intro ops
    induction ops with
    | nil => intro s h _ _; exact h
    | cons op ops ih =>
      rintro s ⟨f, hf⟩ hok hh
      simp only [run] at hh ⊢
      simp only [List.mem_cons, not_or] at hh
      obtain ⟨ch, -, -, h2⟩ := hstep s f op hf (hok op (by simp)) (fun e => hh.1 e.symm)
      exact ih _ ⟨_, h2⟩ (fun op hm => hok op (by simp [hm])) hh.2
  intro hok hh h ho
  obtain ⟨f₀, _, hf₀, -⟩ := hinit
  obtain ⟨f, hf⟩ := key ops s₀ ⟨f₀, hf₀⟩ hok hh
  obtain ⟨m, hm⟩ := ho
  obtain ⟨ch, -, h1, -⟩ := hstep _ f (.copy h) hf (hcopy h) (by rw [hm]; simp)
  rw [hm] at h1
  simp only [Spec.step, Op.h] at h1
  cases hc : f[h]? with
  | none => simp [hc] at h1
  | some c =>
    simp only [hc] at h1
    by_cases hop : c.isOpen = true
    · have hcc := hcont h _ f c hf hc hop
      by_cases hd : c.done = true
      · exact ⟨data.length, f, c, hf, hc, hop, by simp [Cursor.rest, hd]⟩
      · exact ⟨c.pos, f, c, hf, hc, hop, by simp [Cursor.rest, hd, hcc]⟩
    · simp [hop] at h1

/-- **C72**, for Bodies made by `FromBytes` and `FromString`, also empty ones. -/
theorem C72_bytes (data : List Byte) (hlen : data.length < 2 ^ 63) (K : Nat) :
    ∃ P, Usable MemFam.step (fun op => op.Valid ∧ (data = [] → op.EmptyOk)) true (fromBytes data) data K .eof P ∧
      (∀ h, Seeks MemFam.step h (P h) data) ∧ (∀ h s C, P h s C → ∃ I, I s ∧ ReadsAt MemFam.step h I data) :=
  ⟨SrcRel (MemRel data), usable_of_sim (cfg := memCfg data) (Allowed := (· = {})) (MemRel data) (mem_step_sim' hlen) true K _ data .eof
      (fun h => mem_reads data hlen h K) (mem_source_init data) (fun _ => ⟨trivial, fun _ => trivial⟩) (fun _ _ _ _ hR hc ho => mem_content hR hc ho),
    fun h => mem_seeks data hlen h, fun h _ _ ⟨f, c, h1, h2, h3, _⟩ => ⟨_, ⟨f, c, h1, h2, h3⟩, mem_readsAt data hlen h⟩⟩

/-- **C72**, for the first `n` bytes of a well-behaved `io.ReaderAt`. -/
theorem C72_readerAt {R : Rdr σ} {F : List Byte} {Inv : σ → Prop} (hR : IsReaderAt R F Inv) {st : σ} (hi : Inv st) (n : Nat) (hn : n ≤ F.length)
    (hn63 : n < 2 ^ 63) (K : Nat) :
    ∃ P, Usable (ReaderAtBody.step R) Op.Valid false (ReaderAtBody.init st n) (F.take n) K .eof P ∧
      (∀ h, Seeks (ReaderAtBody.step R) h (P h) (F.take n)) ∧ (∀ h s C, P h s C → ∃ I, I s ∧ ReadsAt (ReaderAtBody.step R) h I (F.take n)) := by
  haveI := hR.closeOk
  refine ⟨SrcRel (PSim (F.take n) Inv), usable_of_sim (cfg := posCfg n) (Allowed := PosAllowed) (PSim (F.take n) Inv) ?_ false K _ _ .eof
      (fun h => readerAt_reads hR n hn hn63 h K) (readerAt_source_init hi n hn) (fun _ => trivial) (fun _ _ _ _ hs hc _ => pos_content hs hc),
    fun h => readerAt_seeks hR n hn hn63 h, fun h _ _ ⟨f, c, h1, h2, h3, _⟩ => ⟨_, ⟨f, c, h1, h2, h3⟩, readerAt_readsAt hR n hn hn63 h⟩⟩
  rw [at_step]
  exact psim_step' (goodGet_at hR) hn hn63

/-- **C72**, for the first `n` bytes of a well-behaved `io.ReadSeeker` that fills the buffer. -/
theorem C72_seeker {R : Rdr σ} {F : List Byte} {At : σ → Nat → Prop} (hR : IsFullSeeker R F At) {st : σ} {p : Nat} (hi : At st p) (n : Nat)
    (hn : n ≤ F.length) (hn63 : n < 2 ^ 63) (K : Nat) :
    ∃ P, Usable (SeekerBody.step R) Op.Valid false (SeekerBody.init st n) (F.take n) K .eof P ∧
      (∀ h, Seeks (SeekerBody.step R) h (P h) (F.take n)) ∧ (∀ h s C, P h s C → ∃ I, I s ∧ ReadsAt (SeekerBody.step R) h I (F.take n)) := by
  haveI := hR.closeOk
  refine ⟨SrcRel (PSim (F.take n) fun st => ∃ p, At st p), usable_of_sim (cfg := posCfg n) (Allowed := PosAllowed) (PSim (F.take n) _) ?_ false K _ _ .eof
      (fun h => seeker_reads hR n hn hn63 h K) ⟨_, _, psim_init ⟨p, hi⟩ hn, rfl, rfl, by simp [Cursor.rest]⟩ (fun _ => trivial)
      (fun _ _ _ _ hs hc _ => pos_content hs hc),
    fun h => seeker_seeks hR n hn hn63 h, fun h _ _ ⟨f, c, h1, h2, h3, _⟩ => ⟨_, ⟨f, c, h1, h2, h3⟩, seeker_readsAt hR n hn hn63 h⟩⟩
  rw [seek_step]
  exact psim_step' (goodGet_seek hR) hn hn63

/-- **C72**, for a stream `T` that comes to its end or fails with `e`, of which at most `L` bytes are read if `L` is not negative. -/
theorem C72_stream {R : Rdr σ} [R.CloseOk] {e : Err} {Inv : σ → List Byte → Prop} (hS : IsStream R e Inv) {B : Nat} {idle : σ → Nat} (hE : Eager R B idle)
    {st : σ} {T : List Byte} (hi : Inv st T) (L : Int) (hL : e = .eof ∨ L ≠ T.length) (K : Nat) (hK : K < 2 ^ 62) (fuel : Nat)
    (hf : (K + 65536) * (B + 1) + B < fuel) :
    ∃ P, Usable (streamStep R fuel) Op.Small false (streamInit st L) (cut T L) K (cutEnd T L e) P :=
  ⟨SrcRel (StreamRel R e Inv T L), usable_of_sim (cfg := streamCfg L (if 0 ≤ L ∧ L < T.length then .eof else e)) (Allowed := fun _ => True)
    (StreamRel R e Inv T L) (streamRel_step hS T L hL fuel) false K _ _ _ (fun h => stream_reads hS hE T L hL K hK fuel hf h)
    (stream_source_init st T hi L) (fun _ => trivial) (fun h s f c hr hc ho => by
      cases hb : s.heap[h]? with
      | none => rw [(hr.rel.none_iff h).1 hb] at hc; cases hc
      | some b =>
        obtain ⟨c', hc', hr'⟩ := hr.rel.get hb
        rw [hc] at hc'
        cases hc'
        exact hr'.content)⟩

/-- **C72.** `io.ReadAll` of a Body that has just been made, or of any open Body of the family later. -/
theorem C72_usable {step : S → Op → S × Out} {Ok : Op → Prop} {dr : Bool} {s₀ : S} {data : List Byte} {e : Err} {P : Nat → S → List Byte → Prop}
    (hU : Usable step Ok dr s₀ data K e P) (hK : 512 ≤ K) (grow : Nat → Nat) (hg : Grows grow data.length K) (fuel : Nat) (hf : data.length < fuel) :
    (readAll (BodyOps.ofFam step dr 0) grow fuel s₀).2 = .ret (data, allError e) ∧
    ∀ ops : List Op, (∀ op ∈ ops, Ok op) → Out.hang ∉ (run step s₀ ops).2 → ∀ h, IsOpen step (run step s₀ ops).1 h →
      ∃ q, (readAll (BodyOps.ofFam step dr h) grow fuel (run step s₀ ops).1).2 = .ret (data.drop q, allError e) := by
  obtain ⟨h1, h2, h3⟩ := hU
  refine ⟨?_, fun ops hok hh h ho => ?_⟩
  · obtain ⟨b', e', a1, rfl, -⟩ := C72_readAll (h1 0) h2 hK grow hg fuel hf
    rw [a1]
  · obtain ⟨q, hq⟩ := h3 ops hok hh h ho
    obtain ⟨b', e', a1, rfl, -⟩ := C72_readAll (h1 h) hq hK grow (fun n hn => hg n (by simp at hn; omega)) fuel (by simp; omega)
    exact ⟨q, by rw [a1]⟩

theorem short_read (F : List Byte) (h0 : F ≠ []) (k : Nat) (h1 : F.length < k) :
    ((BodyOps.ofFam (SeekerBody.step (shortRdr F)) false 0).read (SeekerBody.init 0 F.length) k).2 = .ret (F.take 1, some .eof) := by
  have hp : 0 < F.length := List.length_pos_iff.2 h0
  have hg : goSlice (List.replicate k (0 : Byte)) 0 (F.length : Int) = some (List.replicate F.length 0) := by
    simp [goSlice, List.take_replicate]; omega
  have h2 : ¬ (F.length : Int) < 0 := by omega
  have h3 : ¬ F.length = 0 := by omega
  have h4 : min F.length 1 = 1 := by omega
  simp [BodyOps.ofFam, SeekerBody.step, SeekerBody.init, SeekerBody.ref, SeekerBody.read, Op.h, SeekerBody.commonReadAt, shortRdr, fileRdr, h2, h3, h4, h1, hp, hg]

/-- **C72**, the exception.  Over an `io.ReadSeeker` that delivers one byte at a time (as it may), `io.ReadAll` returns the first byte of any content of 1 to 511
bytes, and no error. -/
theorem C72_short_seeker (F : List Byte) (h0 : F ≠ []) (h1 : F.length < 512) (grow : Nat → Nat) (fuel : Nat) :
    IsSeeker (shortRdr F) F (fun st p => st = p) ∧
    (readAll (BodyOps.ofFam (SeekerBody.step (shortRdr F)) false 0) grow (fuel + 1) (SeekerBody.init 0 F.length)).2 = .ret (F.take 1, none) := by
  refine ⟨shortRdr_seeker F, ?_⟩
  have e1 : (BodyOps.ofFam (SeekerBody.step (shortRdr F)) false 0).read (SeekerBody.init 0 F.length) 512 =
      (((BodyOps.ofFam (SeekerBody.step (shortRdr F)) false 0).read (SeekerBody.init 0 F.length) 512).1, .ret (F.take 1, some .eof)) :=
    Prod.ext rfl (short_read F h0 512 h1)
  simp only [readAll, readAllLoop, List.length_nil]
  rw [if_neg (by omega), Nat.sub_zero, e1]
  simp only [List.nil_append, List.length_take, Nat.zero_add]
  rw [if_neg (by omega)]
  rfl

/-! ## Examples -/

section Examples

private abbrev mem := BodyOps.ofFam MemFam.step true 0
private def five : MemFam := fromBytes [1, 2, 3, 4, 5]

/-- All of it, after a `Seek` a rest of it, and again nothing. -/
example : (readAll mem (· * 2) 9 five).2 = .ret ([1, 2, 3, 4, 5], none) := by decide +kernel
example : (readAll mem (· * 2) 9 (run MemFam.step five [.seek 0 3 0]).1).2 = .ret ([4, 5], none) := by decide +kernel
example : (readAll mem (· * 2) 9 (readAll mem (· * 2) 9 five).1).2 = .ret ([], none) := by decide +kernel

/-- The same by the theorems, for every strategy of `append` within the bounds. -/
example (grow : Nat → Nat) (hg : Grows grow 5 100000) : (readAll mem grow 9 five).2 = .ret ([1, 2, 3, 4, 5], none) := by
  obtain ⟨P, h1, -, -⟩ := C72_bytes [1, 2, 3, 4, 5] (by decide) 100000
  exact (C72_usable h1 (by omega) grow hg 9 (by decide)).1

/-- `io.ReadFull`: twice two bytes, and then one where two were asked for, and then none. -/
example : (readFull mem 9 five 2).2 = .ret ([1, 2], none) ∧ (readFull mem 9 (readFull mem 9 five 4).1 2).2 = .ret ([5], some errUnexpectedEOF) ∧
    (readFull mem 9 (readFull mem 9 five 5).1 2).2 = .ret ([], some .eof) := by decide +kernel

/-- `io.ReadAtLeast` with too small a buffer. -/
example : (readAtLeast mem 9 five 2 3).2 = .ret ([], some errShortBuffer) ∧ (readAtLeast mem 9 five 4 2).2 = .ret ([1, 2, 3, 4], none) := by decide +kernel

/-- `io.LimitReader`, and what is left. -/
example : (readAll (limited mem) (· * 2) 9 (five, 3)).2 = .ret ([1, 2, 3], none) ∧
    (readAll mem (· * 2) 9 (readAll (limited mem) (· * 2) 9 (five, 3)).1.1).2 = .ret ([4, 5], none) := by decide +kernel

/-- `io.MultiReader`, also with an empty Body. -/
example : (readAll (multi mem) (· * 2) 9 [five, fromBytes [], fromBytes [9]]).2 = .ret ([1, 2, 3, 4, 5, 9], none) := by decide +kernel

example (fuel : Nat) (hf : 6 < fuel) (grow : Nat → Nat) (hg : Grows grow 6 512) :
    (readAll (multi (β := MemFam) (BodyOps.ofFam MemFam.step true 0)) grow fuel [fromBytes [1, 2], fromBytes [1, 2], fromBytes [1, 2]]).2 =
      .ret ([1, 2, 1, 2, 1, 2], none) := by
  obtain ⟨P, ⟨h1, h2, -⟩, -, -⟩ := C72_bytes [1, 2] (by decide) 512
  have hP : InTurn (P 0) [fromBytes [1, 2], fromBytes [1, 2], fromBytes [1, 2]] [1, 2, 1, 2, 1, 2] :=
    .cons _ _ [1, 2] [1, 2, 1, 2] h2 (.cons _ _ [1, 2] [1, 2] h2 (.cons _ _ [1, 2] [] h2 .nil))
  obtain ⟨b', e, a1, rfl, -⟩ := C72_readAll (C72_multi (h1 0)) hP (by omega) grow hg fuel hf
  rw [a1]; rfl

/-- `io.SectionReader`; it goes on from where it was, whatever the Body was used for. -/
example : (readAll (sectionOf MemFam.step 0 4) (· * 2) 9 (five, 1)).2 = .ret ([2, 3, 4], none) ∧
    (readAll (sectionOf MemFam.step 0 9) (· * 2) 9 ((run MemFam.step five [.read 0 2]).1, 4)).2 = .ret ([5], none) := by decide +kernel

private def logged {β ω α : Type} (x : β × Logged WEv ω × α) : List WEv × α := (x.2.1.log, x.2.2)

/-- `io.CopyN` of three bytes, and of more than there are. -/
example : logged (copyN plainRW.record mem 9 five ⟨(), []⟩ 3) = ([.write [1, 2, 3] (.ret (3, none))], .ret (3, none)) := by decide +kernel
example : logged (copyN plainRW.record mem 9 five ⟨(), []⟩ 7) = ([.write [1, 2, 3, 4, 5] (.ret (5, none))], .ret (5, some .eof)) := by decide +kernel

/-- `http.ServeContent`: a range, after looking at the beginning; everything; a HEAD request. -/
example : logged (serveContent plainRW.record MemFam.step true 0 9 false true (fun _ => some (1, 2)) five ⟨(), []⟩) =
    ([.status 206, .write [2, 3] (.ret (2, none))], .ret ()) := by decide +kernel
example : logged (serveContent plainRW.record MemFam.step true 0 9 false false (fun _ => none) (run MemFam.step five [.read 0 3]).1 ⟨(), []⟩) =
    ([.status 200, .write [1, 2, 3, 4, 5] (.ret (5, none))], .ret ()) := by decide +kernel
example : logged (serveContent plainRW.record MemFam.step true 0 9 true false (fun n => some (n - 1, 1)) five ⟨(), []⟩) = ([.status 206], .ret ()) := by
  decide +kernel

/-- The assumptions of `C72_serveContent` are met, for a Body over a file as well. -/
example (n : Nat) (hn : n ≤ 5) : ∃ s' w', serveContent plainRW.record (ReaderAtBody.step (fileRdr [1, 2, 3, 4, 5])) false 0 9 false true (fun _ => none)
    (ReaderAtBody.init 0 n) ⟨(), []⟩ = (s', w', .ret ()) ∧ ∃ T, w'.log = .status 200 :: T ∧ handed T = ([1, 2, 3, 4, 5] : List Byte).take n := by
  obtain ⟨P, ⟨h1, h2, -⟩, h3, -⟩ := C72_readerAt (fileRdr_readerAt [1, 2, 3, 4, 5]) (st := 0) trivial n hn (by omega) 65536
  obtain ⟨s', w', a1, T, a2, -, a3, -⟩ := C72_serveContent (h1 0) (h3 0) (by omega) (by simp; omega) h2 (fun _ => none) (by simp)
    (plainRW_obliging _ _) false true 9 (by simp; omega) ⟨(), []⟩
  exact ⟨s', w', a1, T, by simpa using a2, by simpa [part] using a3⟩

/-- Over a stream that fails, `io.ReadAll` returns what has been read before, and the error. -/
example : (readAll (BodyOps.ofFam (streamStep (breaking (.ext 9)) 9) false 0) (· * 2) 9 (streamInit [1, 2, 3] (-1))).2 =
    .ret ([1, 2, 3], some (.ext 9)) := by decide +kernel

/-- The witness of `C72_short_seeker`, for two bytes. -/
example : (readAll (BodyOps.ofFam (SeekerBody.step (shortRdr [1, 2])) false 0) (· * 2) 9 (SeekerBody.init 0 2)).2 = .ret ([1], none) := by decide +kernel

/-- A closed Body, asked for a range. -/
example : logged (serveContent plainRW.record MemFam.step true 0 9 false true (fun _ => some (1, 2)) (run MemFam.step five [.close 0]).1 ⟨(), []⟩) =
    ([.status 500], .ret ()) := by decide +kernel

end Examples

end Verif
