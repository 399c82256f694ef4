import Verif.Spec.Sharing
import Verif.Proofs.Lively

/-! # The Bodies of this repository can be shared -/

set_option autoImplicit false

namespace Verif
open Spec

variable {S : Type} {step : S → Op → S × Out} {cfg : Cfg} {Ok : Op → Prop} {Allowed : Choice → Prop}

/-- A call changes at most the cursor of its own Body. -/
theorem cursor_apart (cfg : Cfg) (ch : Choice) (f : List Cursor) (op : Op) {h : Nat} (hne : op.h ≠ h) {c : Cursor} (hc : f[h]? = some c) :
    (Spec.step cfg ch f op).1[h]? = some c := by
  have hlt : h < f.length := (List.getElem?_eq_some_iff.1 hc).1
  unfold Spec.step
  split
  · exact hc
  · cases op <;> simp only [Op.h] at hne <;> dsimp only <;> (repeat' split) <;>
      first
      | exact hc
      | (rw [List.getElem?_set_ne hne]; exact hc)
      | (rw [List.getElem?_append_left hlt]; exact hc)

theorem shareable_of_sim (Rel : S → List Cursor → Prop)
    (hstep : ∀ s f op, Rel s f → Ok op → (step s op).2 ≠ .hang →
      ∃ ch, Allowed ch ∧ (step s op).2 = (Spec.step cfg ch f op).2 ∧
        Rel (step s op).1 (Spec.step cfg ch f op).1)
    (hN : ∀ s f op, Rel s f → Ok op → (step s op).2 ≠ .hang) (K : Nat) (hlive : ∀ h, Lively (BodyOps.ofFam step cfg.drains h) (SrcRel Rel h) K)
    (hread : ∀ h k, k ≤ K → Ok (.read h k)) (hwrite : cfg.drains = true → ∀ h w, Ok (.writeTo h w)) (hclose : ∀ h, Ok (.close h))
    (hcopy : ∀ h, Ok (.copy h)) : Shareable step cfg.drains (SrcRel Rel) K Ok := by
  refine ⟨hlive, ?_, ?_, hread, hwrite, hclose, ?_⟩
  · rintro hdr h s C ⟨f, c, hR, hc, ho, rfl⟩
    have hlt : h < f.length := (List.getElem?_eq_some_iff.1 hc).1
    have one : ∀ w, (step s (.writeTo h w)).2 = (c.writeTo w).2 ∧
        Rel (step s (.writeTo h w)).1 (f.set h (c.writeTo w).1) := by
      intro w
      obtain ⟨ch, -, h1, h2⟩ := hstep s f (.writeTo h w) hR (hwrite hdr h w) (hN _ _ _ hR (hwrite hdr h w))
      simp only [Spec.step, Op.h, hc, hdr, if_true] at h1 h2
      exact ⟨h1, h2⟩
    have src : ∀ w, (c.writeTo w).1.isOpen = true → (c.writeTo w).1.rest = [] → SrcRel Rel h (step s (.writeTo h w)).1 [] := fun w a b =>
      ⟨_, _, (one w).2, by simp [hlt], a, b.symm⟩
    have e0 : (BodyOps.ofFam step cfg.drains h).writeTo s = match step s (.writeTo h (fun _ => .ok (0, none))) with
      | (s', .wrote none n err) => .done s' n err
      | (_, .wrote (some d) _ _) => .write s d fun n err =>
        match step s (.writeTo h (fun _ => .ok (n, err))) with
        | (s', .wrote _ n err) => .done s' n err
        | (s', .panic p) => .panic s' p
        | (s', _) => .panic s' .nilDeref
      | (s', .panic p) => .panic s' p
      | (s', _) => .panic s' .nilDeref := rfl
    rw [e0]
    obtain ⟨h0, -⟩ := one (fun _ => .ok (0, none))
    have c0 := src (fun _ => .ok (0, none))
    rcases hq : step s (.writeTo h (fun _ => .ok (0, none))) with ⟨s1, o⟩
    rw [hq] at h0 c0
    dsimp only at h0 c0
    by_cases hd : c.done = true
    · have : o = .wrote none 0 none := by rw [h0]; simp [Cursor.writeTo, ho, hd]
      subst this
      exact c0 (by simp [Cursor.writeTo, ho, hd]) (by simp [Cursor.writeTo, ho, hd, Cursor.rest])
    · have hd' : c.done = false := by simpa using hd
      have : o = .wrote (some (c.content.drop c.pos)) 0 none := by
        rw [h0]; simp [Cursor.writeTo, ho, hd']
      subst this
      simp only [WTDrains]
      obtain ⟨h3, -⟩ := one (fun _ => .ok ((c.content.drop c.pos).length, none))
      have c3 := src (fun _ => .ok ((c.content.drop c.pos).length, none))
      rcases hq2 : step s (.writeTo h (fun _ => .ok ((c.content.drop c.pos).length, none))) with ⟨s2, o2⟩
      rw [hq2] at h3 c3
      dsimp only at h3 c3
      have hwt : c.writeTo (fun _ => .ok ((c.content.drop c.pos).length, none)) =
          ({ c with pos := c.pos + (c.content.drop c.pos).length, done := true }, .wrote (some (c.content.drop c.pos)) (c.content.drop c.pos).length none) := by
        simp only [Cursor.writeTo, ho, hd', Bool.not_true, Bool.false_eq_true, if_false]
        rw [if_pos ⟨by omega, by omega⟩]
        rfl
      rw [hwt] at h3 c3
      subst h3
      exact c3 ho (by simp [Cursor.rest])
  · rintro h s C op ⟨f, c, hR, hc, ho, rfl⟩ hok hne
    obtain ⟨ch, -, -, h2⟩ := hstep s f op hR hok (hN _ _ _ hR hok)
    exact ⟨_, c, h2, cursor_apart cfg ch f op hne hc, ho, rfl⟩
  · rintro h s C ⟨f, c, hR, hc, ho, rfl⟩
    obtain ⟨ch, -, h1, h2⟩ := hstep s f (.copy h) hR (hcopy h) (hN _ _ _ hR (hcopy h))
    simp only [Spec.step, Op.h, hc, ho, if_true] at h1 h2
    refine ⟨_, f.length, Prod.ext rfl h1, ⟨_, c, h2, by simp, ho, rfl⟩, ?_⟩
    rintro i C' ⟨g, c', hR', hc', ho', rfl⟩
    obtain ⟨ch', -, h1', h2'⟩ := hstep s g (.copy h) hR' (hcopy h) (hN _ _ _ hR' (hcopy h))
    have hi : i < g.length := (List.getElem?_eq_some_iff.1 hc').1
    rw [h1] at h1'
    cases hg : g[h]? with
    | none => simp [Spec.step, Op.h, hg] at h1'
    | some cg =>
      simp only [Spec.step, Op.h, hg] at h1' h2'
      cases hog : cg.isOpen with
      | false => simp [hog] at h1'
      | true =>
        simp only [hog, if_true, Out.copied.injEq] at h1' h2'
        exact ⟨⟨_, c', h2', by rw [List.getElem?_append_left hi]; exact hc', ho', rfl⟩, by omega⟩

variable {σ : Type}

/-- Bodies made by `FromBytes`/`FromString` from a non-empty string. -/
theorem mem_shareable (data : List Byte) (hlen : data.length < 2 ^ 63) (hne : data ≠ []) (K : Nat) (hK : K < 2 ^ 62) :
    Shareable MemFam.step true (SrcRel (MemRel data)) K Op.Valid :=
  shareable_of_sim (cfg := memCfg data) (Allowed := (· = {})) (MemRel data)
    (fun s f op hR hv hn => mem_step_sim' hlen s f op hR ⟨hv, fun h => absurd h hne⟩ hn) (fun s _ _ _ _ => goOut_ne_hang s _) K
    (fun h => mem_lively data hlen hne h K hK) (fun _ _ _ => trivial) (fun _ _ _ => trivial) (fun _ => trivial) (fun _ => trivial)

/-- Bodies over a well-behaved `io.ReaderAt`. -/
theorem readerAt_shareable {R : Rdr σ} {F : List Byte} {Inv : σ → Prop} (hR : IsReaderAt R F Inv) (hq : CloseNil R) (n : Nat)
    (hn : n ≤ F.length) (hn63 : n < 2 ^ 63) (K : Nat) (hK : K < 2 ^ 62) :
    Shareable (ReaderAtBody.step R) false (SrcRel (PSim (F.take n) Inv)) K Op.Valid := by
  haveI := hR.closeOk
  have hN : ∀ s op, (Pos.step (atKind R) s op).2 ≠ .hang := fun s op => by rw [← at_step]; exact at_noHang R s op
  have live := fun h => readerAt_lively hR hq n hn hn63 h K hK
  rw [at_step] at live ⊢
  exact shareable_of_sim (cfg := posCfg n) (Allowed := PosAllowed) (PSim (F.take n) Inv) (psim_step' (goodGet_at hR) hn hn63)
    (fun s _ _ _ _ => hN s _) K live (fun _ _ _ => trivial) (fun _ _ _ => trivial) (fun _ => trivial) (fun _ => trivial)

/-- Bodies over a well-behaved `io.ReadSeeker` that fills the buffer. -/
theorem seeker_shareable {R : Rdr σ} {F : List Byte} {At : σ → Nat → Prop} (hR : IsFullSeeker R F At) (hq : CloseNil R) (n : Nat)
    (hn : n ≤ F.length) (hn63 : n < 2 ^ 63) (K : Nat) (hK : K < 2 ^ 62) :
    Shareable (SeekerBody.step R) false (SrcRel (PSim (F.take n) fun st => ∃ p, At st p)) K Op.Valid := by
  haveI := hR.closeOk
  have hN : ∀ s op, (Pos.step (seekKind R) s op).2 ≠ .hang := fun s op => by rw [← seek_step]; exact seek_noHang R s op
  have live := fun h => seeker_lively hR hq n hn hn63 h K hK
  rw [seek_step] at live ⊢
  exact shareable_of_sim (cfg := posCfg n) (Allowed := PosAllowed) (PSim (F.take n) fun st => ∃ p, At st p)
    (psim_step' (goodGet_seek hR) hn hn63) (fun s _ _ _ _ => hN s _) K live (fun _ _ _ => trivial) (fun _ _ _ => trivial) (fun _ => trivial)
    (fun _ => trivial)

/-- Reads with buffers of up to `K` bytes. -/
def Spec.ReadsUpTo (K : Nat) : Op → Prop
  | .read _ k => k ≤ K
  | _ => True

/-- Bodies over a plain `io.Reader` that is a stream and not idle for ever. -/
theorem stream_shareable {R : Rdr σ} (hq : CloseNil R) {Inv : σ → List Byte → Prop} (hS : IsStream R .eof Inv) {B : Nat} {idle : σ → Nat}
    (hE : Eager R B idle) (T : List Byte) (L : Int) (K : Nat) (hK : K < 2 ^ 62) (fuel : Nat) (hf : (K + 65536) * (B + 1) + B < fuel) :
    Shareable (streamStep R fuel) false (SrcRel (StreamRel R .eof Inv T L)) K (ReadsUpTo K) := by
  haveI : R.CloseOk := ⟨fun hc st => ⟨none, hq hc st⟩⟩
  have hsm : ∀ op, ReadsUpTo K op → op.Small := by
    intro op h
    cases op <;> simp only [ReadsUpTo, Op.Small] at h ⊢
    omega
  refine shareable_of_sim (cfg := streamCfg L (if 0 ≤ L ∧ L < T.length then .eof else .eof)) (Allowed := fun _ => True)
    (StreamRel R .eof Inv T L) (fun s f op h hok hh => streamRel_step hS T L (.inl rfl) fuel s f op h (hsm op hok) hh)
    (fun s f op hr hok => step_noHang hE fuel L s hr.winv op (hsm op hok) K (fun h k e => by subst e; exact hok) hf) K
    (fun h => stream_lively hq hS hE T L K hK fuel hf h) (fun _ _ h => h) (fun _ _ _ => trivial) (fun _ => trivial) (fun _ => trivial)

end Verif
