import Verif.Props.Told
import Verif.Props.Layer

/-!
# C80: the Bodies of this repository can be served

Bodies over an `io.ReaderAt`, an `io.ReadSeeker`, an `io.Reader`, originals and copies, at any position.
-/

set_option autoImplicit false

namespace Verif
open Spec Spec.Told Spec.Wire ToldP
open Verif.Wire (wire)
variable {α σ τ : Type} {A : Rdr α} {S : Rdr σ} {T : Rdr τ} {loops : Nat}

/-- What a family of cursors says remains is what it said before. -/
theorem sim_remaining {U : Type} {step : U → Op → U × Out} {cfg : Cfg} {Allowed : Choice → Prop} {Rel : U → List Cursor → Prop} {h : Nat}
    (hstep : ∀ s f, Rel s f → ∃ ch, Allowed ch ∧ (step s (.remaining h)).2 = (Spec.step cfg ch f (.remaining h)).2)
    {s : U} {f : List Cursor} {c : Cursor} (hr : Rel s f) (hc : f[h]? = some c) : ∃ ch, Allowed ch ∧ (step s (.remaining h)).2 = .remaining (c.remaining cfg ch) := by
  obtain ⟨ch, h1, h2⟩ := hstep s f hr
  refine ⟨ch, h1, ?_⟩
  rw [h2]
  simp only [Spec.step, Op.h, hc]

/-- The remaining bytes of a cursor that is not at its end. -/
theorem rest_length {c : Cursor} (hp : c.pos ≤ c.content.length) : ((c.content.drop c.pos).length : Int) = c.content.length - c.pos := by
  rw [List.length_drop]; omega

/-- **C80.** A Body over an `io.ReaderAt` that honours its contract, at any position. -/
theorem C80_readerAt {F : List Byte} {Inv : α → Prop} (hR : IsReaderAt A F Inv) (hq : CloseNil A) {n : Nat} (hn : n ≤ F.length) (hn63 : n < 2 ^ 63)
    {s : PosSys α} {f : List Cursor} (hs : PSim (F.take n) Inv s f) {h : Nat} {c : Cursor} (hc : f[h]? = some c) (ho : c.isOpen = true) (hd : c.done = false)
    (hp : c.pos ≤ c.content.length) : (anyKinds A S T loops).Ready (.readerAt s) h (c.content.drop c.pos) := by
  haveI := hR.closeOk
  refine embed_ready (st := ReaderAtBody.step A) (P := SrcRel (PSim (F.take n) Inv) h) (inj := AnyFam.readerAt) (fun _ _ => rfl) false h rfl
    (fun _ => ⟨readerAt_lively hR hq n hn hn63 h 32768 (by decide), readerAt_quits hR n hn hn63 h, f, c, hs, hc, ho, by simp [Cursor.rest, hd]⟩) (.inl ?_)
  rw [at_step]
  obtain ⟨ch, h1, h2⟩ := sim_remaining (cfg := posCfg n) (Allowed := PosAllowed) (h := h) (Rel := PSim (F.take n) Inv) (step := Pos.step (atKind A)) (fun s f hs => by
    obtain ⟨ch, h1, h2, -⟩ := psim_step' (goodGet_at hR) hn hn63 s f (.remaining h) hs trivial (by rw [← at_step]; exact at_noHang A s _)
    exact ⟨ch, h1, h2⟩) hs hc
  rw [h2, rest_length hp]
  simp [Cursor.remaining, ho, h1.1]

/-- **C80.** A Body over an `io.ReadSeeker` that fills its buffers, at any position. -/
theorem C80_seeker {F : List Byte} {At : σ → Nat → Prop} (hR : IsFullSeeker S F At) (hq : CloseNil S) {n : Nat} (hn : n ≤ F.length) (hn63 : n < 2 ^ 63)
    {s : PosSys σ} {f : List Cursor} (hs : PSim (F.take n) (fun st => ∃ p, At st p) s f) {h : Nat} {c : Cursor} (hc : f[h]? = some c) (ho : c.isOpen = true)
    (hd : c.done = false) (hp : c.pos ≤ c.content.length) : (anyKinds A S T loops).Ready (.seeker s) h (c.content.drop c.pos) := by
  haveI := hR.closeOk
  refine embed_ready (st := SeekerBody.step S) (P := SrcRel (PSim (F.take n) fun st => ∃ p, At st p) h) (inj := AnyFam.seeker) (fun _ _ => rfl) false h rfl
    (fun _ => ⟨seeker_lively hR hq n hn hn63 h 32768 (by decide), seeker_quits hR n hn hn63 h, f, c, hs, hc, ho, by simp [Cursor.rest, hd]⟩) (.inl ?_)
  rw [seek_step]
  obtain ⟨ch, h1, h2⟩ := sim_remaining (cfg := posCfg n) (Allowed := PosAllowed) (h := h) (Rel := PSim (F.take n) fun st => ∃ p, At st p)
    (step := Pos.step (seekKind S)) (fun s f hs => by
    obtain ⟨ch, h1, h2, -⟩ := psim_step' (goodGet_seek hR) hn hn63 s f (.remaining h) hs trivial (by rw [← seek_step]; exact seek_noHang S s _)
    exact ⟨ch, h1, h2⟩) hs hc
  rw [h2, rest_length hp]
  simp [Cursor.remaining, ho, h1.1]

theorem stream_remaining_returns (R : Rdr τ) (fuel : Nat) (s : BufSys (Rec τ)) (h : Nat) : (streamStep R fuel s (.remaining h)).2 ≠ .hang := by
  unfold streamStep BufSys.step
  split
  · simp
  · simp only []
    (repeat' split) <;> simp

/-- **C80.** A Body over an `io.Reader` that is going to deliver `U` and then the end of file, with nothing said about its length or with a length that is not more than
there is. -/
theorem C80_stream {Inv : τ → List Byte → Prop} (hS : IsStream T .eof Inv) (hq : CloseNil T) {B : Nat} {idle : τ → Nat} (hE : Eager T B idle)
    (hf : (32768 + 65536) * (B + 1) + B < loops) {U : List Byte} {L : Int} (hL : L ≤ U.length)
    {s : BufSys (Rec τ)} {f : List Cursor} (hs : StreamRel T .eof Inv U L s f) {h : Nat} {c : Cursor} (hc : f[h]? = some c) (ho : c.isOpen = true)
    (hd : c.done = false) (hcut : c.content = cut U L) (hp : c.pos ≤ c.content.length) : (anyKinds A S T loops).Ready (.buffered s) h (c.content.drop c.pos) := by
  haveI : T.CloseOk := ⟨fun hc st => ⟨none, hq hc st⟩⟩
  refine embed_ready (st := streamStep T loops) (P := SrcRel (StreamRel T .eof Inv U L) h) (inj := AnyFam.buffered) (fun _ _ => rfl) false h rfl
    (fun _ => ⟨stream_lively hq hS hE U L 32768 (by decide) loops hf h, stream_quits hq hS U L loops h, f, c, hs, hc, ho, by simp [Cursor.rest, hd]⟩) ?_
  obtain ⟨ch, -, h2⟩ := sim_remaining (cfg := streamCfg L (if 0 ≤ L ∧ L < U.length then .eof else .eof)) (Allowed := fun _ => True) (h := h)
    (Rel := StreamRel T .eof Inv U L) (step := streamStep T loops) (fun s f hs => by
    obtain ⟨ch, h1, h2, -⟩ := streamRel_step hS U L (.inl rfl) loops s f (.remaining h) hs trivial (stream_remaining_returns T loops s h)
    exact ⟨ch, h1, h2⟩) hs hc
  rw [h2, rest_length hp]
  simp only [Cursor.remaining, ho, Bool.not_true, Bool.false_eq_true, if_false, streamCfg]
  by_cases hst : ch.stale = true
  · simp only [hst, if_true]
    by_cases h0 : L < 0
    · simp [h0]
    · refine .inl ?_
      have : (cut U L).length = L.toNat := by rw [cut, if_pos (by omega), List.length_take]; omega
      rw [hcut, this]
      simp only [h0, if_false]
      congr 1
      omega
  · simp [hst]

/-! ## Examples -/

/-- A file that has no `Close`. -/
def stillRdr (F : List Byte) : Rdr Nat := { fileRdr F with isCloser := false }

/-- A pipe that has no `Close`. -/
def pipeRdr (F : List Byte) : Rdr Nat := { plainRdr F with isCloser := false }

theorem stillRdr_readerAt (F : List Byte) : IsReaderAt (stillRdr F) F (fun _ => True) :=
  ⟨⟨fun h => by cases h⟩, (fileRdr_readerAt F).readAt⟩

theorem pipeRdr_stream (F : List Byte) : IsStream (pipeRdr F) .eof (fun p T => T = F.drop p) := ⟨(plainRdr_stream F).read⟩

theorem pipeRdr_eager (F : List Byte) : Eager (pipeRdr F) 0 (fun _ => 0) := ⟨(plainRdr_eager F).1, (plainRdr_eager F).2⟩

/-- A file and a pipe. -/
def twoKinds : Kinds (AnyFam Nat Nat Nat) := anyKinds (stillRdr (lit "a file.")) (stillRdr []) (pipeRdr (lit "a pipe")) 200000

def twoEnv : BEnv (Shelf (AnyFam Nat Nat Nat)) where
  store := Shelf.store twoKinds
  gens _ := defaultGen (Shelf.store twoKinds) (fun _ => [])
  mime := Mime.normal
  spare n := n + 1

theorem twoEnv_noShared : NoShared twoEnv := by
  intro g X
  constructor <;> intros <;> simp [twoEnv, defaultGen]

/-- Body 0: the first six bytes of the file; Body 1: the pipe. -/
def twoBodies : Shelf (AnyFam Nat Nat Nat) :=
  { fams := [.readerAt (ReaderAtBody.init 0 6), .buffered (streamInit 0 (-1))], bodies := [(0, 0), (1, 0)] }

def twoSrc : Nat → Option (List Byte)
  | 0 => some (lit "a file")
  | 1 => some (lit "a pipe")
  | _ => none

theorem two_holds (i : Nat) (C : List Byte) (h : twoSrc i = some C) : twoBodies.Holds twoKinds i C := by
  match i, h with
  | 0, h =>
    injection h with h
    subst h
    exact .inl ⟨0, 0, rfl, by decide, C80_readerAt (F := lit "a file.") (n := 6) (stillRdr_readerAt _) (fun h => by cases h) (by decide) (by decide)
      (psim_init trivial (by decide)) (h := 0) rfl rfl rfl (by decide)⟩
  | 1, h =>
    injection h with h
    subst h
    exact .inl ⟨1, 0, rfl, by decide, C80_stream (B := 0) (loops := 200000) (pipeRdr_stream (lit "a pipe")) (fun h => by cases h) (pipeRdr_eager _) (by decide) (by decide)
      (streamRel_init 0 (lit "a pipe") rfl (-1)) (h := 0) rfl rfl rfl rfl (by decide)⟩

-- So C80 is about Responses with them: both plans are carried out.
example (i : Nat) (C : List Byte) (h : twoSrc i = some C) : ∃ p, LeadsAll { bodies := twoSrc } {} [.status 200, .body (some i)] p ∧ p.body = some C := by
  rcases C80_client twoEnv_noShared rfl (A := { bodies := twoSrc }) rfl rfl (s := { bodies := twoBodies }) (.start _) two_holds [.status 200, .body (some i)]
    (by
      intro x hx
      simp only [List.mem_cons, List.not_mem_nil, or_false] at hx
      rcases hx with rfl | rfl
      · trivial
      · exact ⟨C, h⟩) with ⟨-, h'⟩ | ⟨p, C', h1, h2, -⟩
  · exact absurd ⟨_, C, .cons (.status (by decide) (by decide)) (.cons (.body h) (.nil _)), rfl⟩ h'
  · have := h1
    cases this with
    | cons a b =>
      cases a
      cases b with
      | cons a b =>
        cases b
        cases a with
        | body h'' => exact ⟨_, h1, h''.symm.trans h⟩

-- What the client gets: the file with a Content-Length, ...
example : let s := (BState.handle twoKinds twoEnv { bodies := twoBodies } [.status 200, .body (some 0)]).1
    s.rsps.map (fun r => (r.code, r.body)) = [(200, some 0)] ∧
    s.rsps.map (fun r => (s.heap.lookup r.hdrs (lit "Content-Length"), s.heap.lookup r.hdrs (lit "Content-Type"))) = [(some [lit "6"], some [lit "application/octet-stream"])] ∧
    let x := overNet true 99 true false (s.bodies.ops twoKinds 0) 99 false (fun _ => .ret ())
      (.resp { code := 200, hdrs := [(lit "Content-Type", [lit "application/octet-stream"]), (lit "Content-Length", [lit "6"])], body := s.bodies, err := none })
    receive true false (wire (WireP.plain false x.1) x.1) =
      some ({ status := 200, fields := [(lit "Content-Type", lit "application/octet-stream"), (lit "Content-Length", lit "6"), (lit "Date", [])], body := lit "a file" }, []) := ⟨by decide +kernel, by decide +kernel, by decide +kernel⟩

-- ... and the pipe in chunks.
example : let s := (BState.handle twoKinds twoEnv { bodies := twoBodies } [.status 200, .body (some 1)]).1
    s.rsps.map (fun r => (r.code, r.body)) = [(200, some 1)] ∧
    s.rsps.map (fun r => (s.heap.lookup r.hdrs (lit "Content-Length"), s.heap.lookup r.hdrs (lit "Content-Type"))) = [(none, some [lit "application/octet-stream"])] ∧
    let x := overNet true 4 true false (s.bodies.ops twoKinds 1) 99 false (fun _ => .ret ())
      (.resp { code := 200, hdrs := [(lit "Content-Type", [lit "application/octet-stream"])], body := s.bodies, err := none })
    receive true false (wire (WireP.plain false x.1) x.1) =
      some ({ status := 200, fields := [(lit "Content-Type", lit "application/octet-stream"), (lit "Date", []), (lit "Transfer-Encoding", lit "chunked")], body := lit "a pipe" }, []) := ⟨by decide +kernel, by decide +kernel, by decide +kernel⟩

end Verif
