import Verif.Model.MachineWriter

/-!
# A map between ResponseWriters

If the methods of one do what those of the other do, up to a function on the states, then so do `io.Copy` and `Serve`.
-/

set_option autoImplicit false

namespace Verif
namespace MachineP
variable {β ω ω' : Type}

/-- The run of `ReadFrom` with its states mapped. -/
def mapRF (f : ω → ω') : RF ω → RF ω'
  | .done w n err => .done (f w) n err
  | .read w k cont => .read (f w) k fun d e => mapRF f (cont d e)
  | .drain w cont => .drain (f w) fun n e => mapRF f (cont n e)
  | .panic w p => .panic (f w) p
  | .hang w => .hang (f w)

/-- The methods of `D'` that `io.Copy` uses do what those of `D` do. -/
structure Copies (f : ω → ω') (D : RW ω) (D' : RW ω') : Prop where
  write : ∀ w d, D'.write (f w) d = (f (D.write w d).1, (D.write w d).2)
  readFrom : ∀ w, D'.readFrom (f w) = mapRF f (D.readFrom w)
  isReaderFrom : D'.isReaderFrom = D.isReaderFrom

/-- The methods of `D'` do what those of `D` do. -/
structure Maps (f : ω → ω') (D : RW ω) (D' : RW ω') : Prop extends Copies f D D' where
  setHeader : ∀ w k v, D'.setHeader (f w) k v = f (D.setHeader w k v)
  writeHeader : ∀ w c, D'.writeHeader (f w) c = (f (D.writeHeader w c).1, (D.writeHeader w c).2)
  push : ∀ w u, D'.push (f w) u = (f (D.push w u).1, (D.push w u).2)
  isPusher : D'.isPusher = D.isPusher

theorem runRF_map (f : ω → ω') (B : BodyOps β) (fuel : Nat) (t : RF ω) :
    ∀ b, runRF B fuel (mapRF f t) b = ((runRF B fuel t b).1, f (runRF B fuel t b).2.1, (runRF B fuel t b).2.2) := by
  induction t with
  | done w n err => intro b; rfl
  | panic w p => intro b; rfl
  | hang w => intro b; rfl
  | read w k cont ih =>
    intro b
    simp only [mapRF, runRF]
    rcases B.read b k with ⟨b', ⟨d, e⟩ | p | _⟩
    · exact ih d e b'
    · rfl
    · rfl
  | drain w cont ih =>
    intro b
    simp only [mapRF, runRF]
    rcases discardAll B fuel b with ⟨b', ⟨n, e⟩ | p | _⟩
    · exact ih n e b'
    · rfl
    · rfl

theorem runWT_map {f : ω → ω'} {D : RW ω} {D' : RW ω'} (h : Copies f D D') (t : WT β) :
    ∀ w, runWT D'.write t (f w) = ((runWT D.write t w).1, f (runWT D.write t w).2.1, (runWT D.write t w).2.2) := by
  induction t with
  | done b n err => intro w; rfl
  | panic b p => intro w; rfl
  | hang b => intro w; rfl
  | write b d cont ih =>
    intro w
    simp only [runWT, h.write]
    rcases D.write w d with ⟨w', ⟨n, e⟩ | p | _⟩
    · exact ih n e w'
    · rfl
    · rfl

theorem copyLoop_map {f : ω → ω'} {D : RW ω} {D' : RW ω'} (h : Copies f D D') (B : BodyOps β) (fuel : Nat) :
    ∀ b w n, copyLoop D' B fuel b (f w) n = ((copyLoop D B fuel b w n).1, f (copyLoop D B fuel b w n).2.1, (copyLoop D B fuel b w n).2.2) := by
  induction fuel with
  | zero => intro b w n; rfl
  | succ fuel ih =>
    intro b w n
    simp only [copyLoop, h.write]
    rcases B.read b 32768 with ⟨b', ⟨d, er⟩ | p | _⟩
    · dsimp only
      by_cases hd : d.length > 0
      · rw [if_pos hd, if_pos hd]
        by_cases hk : d.length > 32768
        · rw [if_pos hk, if_pos hk]
        · rw [if_neg hk, if_neg hk]
          rcases D.write w d with ⟨w', ⟨nw, ew⟩ | p | _⟩
          · dsimp only
            generalize (if decide (nw < 0 ∨ (d.length : Int) < nw) = true then 0 else nw) = k
            split
            · rfl
            · by_cases hl : (d.length : Int) ≠ k
              · rw [if_pos hl, if_pos hl]
              · rw [if_neg hl, if_neg hl]
                cases er with
                | none => exact ih _ _ _
                | some e => rfl
          · rfl
          · rfl
      · rw [if_neg hd, if_neg hd]
        cases er with
        | none => exact ih _ _ _
        | some e => rfl
    · rfl
    · rfl

theorem ioCopy_map {f : ω → ω'} {D : RW ω} {D' : RW ω'} (h : Copies f D D') (B : BodyOps β) (fuel : Nat) (b : β) (w : ω) :
    ioCopy D' B fuel b (f w) = ((ioCopy D B fuel b w).1, f (ioCopy D B fuel b w).2.1, (ioCopy D B fuel b w).2.2) := by
  unfold ioCopy
  rw [h.isReaderFrom]
  split
  · exact runWT_map h _ _
  · split
    · rw [h.readFrom]; exact runRF_map f B fuel _ _
    · exact copyLoop_map h B fuel _ _ _

theorem pushAll_map {f : ω → ω'} {D : RW ω} {D' : RW ω'} (h : Maps f D D') (l : List GoStr) : ∀ w, pushAll D' l (f w) = (f (pushAll D l w).1, (pushAll D l w).2) := by
  induction l with
  | nil => intro w; rfl
  | cons u l ih =>
    intro w
    simp only [pushAll, h.push]
    rcases D.push w u with ⟨w', (_ | e) | p | _⟩
    · exact ih _
    · dsimp only
      split
      · rfl
      · exact ih _
    · rfl
    · rfl

theorem setAll_map {f : ω → ω'} {D : RW ω} {D' : RW ω'} (h : Maps f D D') (l : List (GoStr × List GoStr)) : ∀ w, setAll D' l (f w) = f (setAll D l w) := by
  unfold setAll
  induction l with
  | nil => intro w; rfl
  | cons e l ih =>
    intro w
    simp only [List.foldl_cons]
    split
    · rw [h.setHeader]; exact ih _
    · exact ih _

theorem serve_map {f : ω → ω'} {D : RW ω} {D' : RW ω'} (h : Maps f D D') (B : BodyOps β) (fuel : Nat) (r : Resp β) (w : ω) :
    serve D' B fuel r (f w) = ((serve D B fuel r w).1, f (serve D B fuel r w).2.1, (serve D B fuel r w).2.2) := by
  have hp : (if D'.isPusher then pushAll D' (hdrGet r.hdrs headerPush) (f w) else (f w, none)) =
      (f (if D.isPusher then pushAll D (hdrGet r.hdrs headerPush) w else (w, none)).1, (if D.isPusher then pushAll D (hdrGet r.hdrs headerPush) w else (w, none)).2) := by
    rw [h.isPusher]
    split
    · exact pushAll_map h _ _
    · rfl
  simp only [serve]
  rw [hp]
  rcases (if D.isPusher then pushAll D (hdrGet r.hdrs headerPush) w else (w, none)) with ⟨w', o⟩
  cases o with
  | some o => rfl
  | none =>
    dsimp only
    rw [setAll_map h, h.writeHeader]
    rcases D.writeHeader (setAll D r.hdrs w') r.code with ⟨w1, _ | p | _⟩
    · dsimp only
      rw [ioCopy_map h.toCopies]
      rcases ioCopy D B fuel r.body w1 with ⟨b, w2, ⟨n, e⟩ | p | _⟩
      · dsimp only
        rcases B.close b with ⟨b', e2 | p | _⟩ <;> rfl
      · rfl
      · rfl
    · rfl
    · rfl

theorem handle_map {f : ω → ω'} {W : Wr ω} {W' : Wr ω'} (h : Maps f W.toRW W'.toRW) (B : BodyOps β) (fuel : Nat) (hd : Handled β) (w : ω) :
    handle W' B fuel hd (f w) = (f (handle W B fuel hd w).1, (handle W B fuel hd w).2) := by
  cases hd with
  | panic p => rfl
  | hang => rfl
  | resp r =>
    simp only [handle, serve_map h]
    rcases serve W.toRW B fuel r w with ⟨b, w', (_ | e) | p | _⟩ <;> rfl

/-! ## The Writers -/

/-- The counter as the code has it. -/
def wrap (s : WState ω) : WState ω := { s with bytes := i64 s.bytes }

theorem i64_add (a b : Int) : i64 (i64 a + b) = i64 (a + b) := by
  unfold i64
  exact Int.bmod_add_bmod

theorem impl_map (N : RW ω) (s : WState ω) (c : Int) :
    Writer.writeHeaderImpl N (wrap s) c = (wrap (Writer.writeHeaderImpl N s c).1, (Writer.writeHeaderImpl N s c).2) := rfl

theorem maybe_map (N : RW ω) (s : WState ω) (c : Int) :
    Writer.maybeWriteHeader N (wrap s) c = (wrap (Writer.maybeWriteHeader N s c).1, (Writer.maybeWriteHeader N s c).2) := by
  simp only [Writer.maybeWriteHeader]
  rw [show (wrap s).status = s.status from rfl]
  split
  · rfl
  · split
    · rfl
    · split <;> rfl

theorem header_map (N : RW ω) (raises : Bool) (s : WState ω) (c : Int) :
    Writer.writeHeader N raises (wrap s) c = (wrap (Writer.writeHeader N raises s c).1, (Writer.writeHeader N raises s c).2) := by
  simp only [Writer.writeHeader]
  rw [show (wrap s).status = s.status from rfl]
  split
  · rfl
  · split
    · rfl
    · split <;> rfl

theorem write_map (N : RW ω) (s : WState ω) (p : List Byte) : Writer.writeM N (wrap s) p = (wrap (Writer.write N s p).1, (Writer.write N s p).2) := by
  simp only [Writer.writeM, Writer.write, maybe_map]
  rcases Writer.maybeWriteHeader N s 200 with ⟨s', _ | q | _⟩
  · dsimp only
    rw [show (wrap s').isHEAD = s'.isHEAD from rfl, show (wrap s').status = s'.status from rfl, show (wrap s').next = s'.next from rfl]
    split
    · rfl
    · rcases N.write s'.next p with ⟨w, ⟨n, e⟩ | q | _⟩
      · dsimp only
        by_cases hn : ¬ n ≥ 0
        · rw [if_pos hn, if_pos hn]; rfl
        · rw [if_neg hn, if_neg hn]
          have : i64 ((wrap s').bytes + n) = i64 (s'.bytes + n) := i64_add _ _
          rw [this]
          by_cases he : e ≠ none
          · rw [if_pos he, if_pos he]; rfl
          · rw [if_neg he, if_neg he]; rfl
      · rfl
      · rfl
  · rfl
  · rfl

theorem wrapRF_map (s : WState ω) (t : RF ω) : Writer.wrapRFM (wrap s) t = mapRF wrap (Writer.wrapRF s t) := by
  induction t with
  | done w n err =>
    simp only [Writer.wrapRFM, Writer.wrapRF]
    split
    · rfl
    · have : i64 ((wrap s).bytes + n) = i64 (s.bytes + n) := i64_add _ _
      rw [this]
      rfl
  | read w k cont ih => simp only [Writer.wrapRFM, Writer.wrapRF, mapRF, ih]; rfl
  | drain w cont ih => simp only [Writer.wrapRFM, Writer.wrapRF, mapRF, ih]; rfl
  | panic w p => rfl
  | hang w => rfl

theorem readFrom_map (N : RW ω) (s : WState ω) : Writer.readFromM N (wrap s) = mapRF wrap (Writer.readFrom N s) := by
  simp only [Writer.readFromM, Writer.readFrom, maybe_map]
  rcases Writer.maybeWriteHeader N s 200 with ⟨s', _ | q | _⟩
  · dsimp only
    rw [show (wrap s').isHEAD = s'.isHEAD from rfl, show (wrap s').status = s'.status from rfl, show (wrap s').next = s'.next from rfl]
    split
    · rfl
    · split
      · rfl
      · exact wrapRF_map s' _
  · rfl
  · rfl

theorem ops_map (N : RW ω) (raises : Bool) (kind : WKind) : Maps wrap (Writer.ops N raises kind) (Writer.opsM N raises kind) where
  setHeader _ _ _ := rfl
  writeHeader := header_map N raises
  write := write_map N
  push s u := by
    show Writer.push N (wrap s) u = (wrap (Writer.push N s u).1, (Writer.push N s u).2)
    unfold Writer.push
    split <;> rfl
  readFrom := readFrom_map N
  isPusher := rfl
  isReaderFrom := rfl

theorem flush_map (N : RW ω) (s : WState ω) : Writer.flush N (wrap s) = (wrap (Writer.flush N s).1, (Writer.flush N s).2) := by
  simp only [Writer.flush, maybe_map]
  rcases Writer.maybeWriteHeader N s 200 with ⟨s', _ | q | _⟩
  · dsimp only
    split <;> rfl
  · rfl
  · rfl

theorem step_map (N : RW ω) (raises : Bool) (kind : WKind) (fuel : Nat) (s : WState ω) (op : WOp) :
    Writer.stepM N raises kind fuel (wrap s) op = (wrap (Writer.step N raises kind fuel s op).1, (Writer.step N raises kind fuel s op).2) := by
  cases op with
  | setHeader k v => rfl
  | writeHeader c => simp only [Writer.stepM, Writer.step, header_map]
  | maybeWriteHeader c => simp only [Writer.stepM, Writer.step, maybe_map]
  | write p => simp only [Writer.stepM, Writer.step, write_map]
  | push u =>
    show ((Writer.push N (wrap s) u).1, WOut.pushed (Writer.push N (wrap s) u).2) = _
    have := (ops_map N raises kind).push s u
    rw [show Writer.push N (wrap s) u = _ from this]
    rfl
  | flush =>
    simp only [Writer.stepM, Writer.step, flush_map]
    split <;> rfl
  | readFrom src =>
    simp only [Writer.stepM, Writer.step, readFrom_map, runRF_map]
    split <;> rfl
  | closeNotify => simp only [Writer.stepM, Writer.step]; split <;> rfl
  | hijack => simp only [Writer.stepM, Writer.step]; split <;> rfl

theorem run_map (N : RW ω) (raises : Bool) (kind : WKind) (fuel : Nat) (ops : List WOp) : ∀ s : WState ω,
    run (Writer.stepM N raises kind fuel) (wrap s) ops =
      (wrap (run (Writer.step N raises kind fuel) s ops).1, (run (Writer.step N raises kind fuel) s ops).2) := by
  induction ops with
  | nil => intro s; rfl
  | cons op ops ih =>
    intro s
    simp only [run, step_map, ih]

end MachineP
end Verif
