import Verif.Props.Woven
import Verif.Props.Kinds
import Verif.Props.Copies

/-!
# C80: copies of a Response

A handler builds a Response and copies it.  The client gets what was planned from either of the two, also when the other one has been served before.
-/

set_option autoImplicit false

namespace Verif
open Spec Spec.Told ToldP
variable {Φ : Type}

/-- Body `h` of the family has the content `C`. -/
def Kinds.Has (K : Kinds Φ) (m : Φ) (h : Nat) (C : List Byte) : Prop := K.Ready m h C ∨ C = [] ∧ K.Vacant m h

/-- Body `h` of the family has the content `C`, and still has it after any calls that `Serve` makes on Body `g`. -/
def Kinds.Spares (K : Kinds Φ) (m : Φ) (g h : Nat) (C : List Byte) : Prop :=
  ∃ P : Φ → Prop, Keeps (BodyOps.ofFam K.step (K.drains m) g) P ∧ P m ∧ ∀ m', P m' → K.Has m' h C

/-- `Copy` of Body `h` of the family gives a Body of its own, with the same content `C`. -/
def Kinds.Copies (K : Kinds Φ) (m : Φ) (h : Nat) (C : List Byte) : Prop :=
  ∃ m' h', K.step m (.copy h) = (m', .copied h') ∧ K.Spares m' h h' C ∧ K.Spares m' h' h C

/-- Body number `i` has the content `C`, and can be copied. -/
def Shelf.Copies (K : Kinds Φ) (X : Shelf Φ) (i : Nat) (C : List Byte) : Prop :=
  ∃ f h, X.bodies[i]? = some (f, h) ∧ f < X.fams.length ∧ K.Copies (X.fam K f) h C

/-- However Body `a` is served (with a ResponseWriter that asks for less than `2^62` bytes at a time), Body `b` has the content `C` afterwards. -/
def Shelf.Spares (K : Kinds Φ) (X : Shelf Φ) (a b : Nat) (C : List Byte) : Prop :=
  ∀ (ω : Type) (D : RW ω), (D.isReaderFrom = true → ∀ w, SmallReads (D.readFrom w)) → ∀ (fuel : Nat) (r : Resp (Shelf Φ)) (w : ω), r.body = X →
    (serve D (X.ops K a) fuel r w).2.2 = .hang ∨ (serve D (X.ops K a) fuel r w).1.Holds K b C

theorem shelf_holds {K : Kinds Φ} {X : Shelf Φ} {i f h : Nat} {C : List Byte} (hi : X.bodies[i]? = some (f, h)) (hf : f < X.fams.length) (hh : K.Has (X.fam K f) h C) :
    X.Holds K i C := by
  rcases hh with hh | ⟨hC, hh⟩
  · exact .inl ⟨f, h, hi, hf, hh⟩
  · exact .inr ⟨hC, f, h, hi, hf, hh⟩

theorem shelf_spares {K : Kinds Φ} {X : Shelf Φ} {a b f g h : Nat} {C : List Byte} (ha : X.bodies[a]? = some (f, g)) (hb : X.bodies[b]? = some (f, h))
    (hf : f < X.fams.length) (hs : K.Spares (X.fam K f) g h C) : X.Spares K a b C := by
  intro ω D hD fuel r w hr
  obtain ⟨P, h1, h2, h3⟩ := hs
  have e : X.ops K a = (BodyOps.ofFam K.step (K.drains (X.fam K f)) g).focus (fun X => X.fam K f) (fun X m => X.setFam f m) := by
    simp only [Shelf.ops, ha, Shelf.famOps]
  rw [e]
  have hk := keeps_focus h1 (get := fun X : Shelf Φ => X.fam K f) (put := fun X m => X.setFam f m) (Ok := fun X => f < X.fams.length ∧ X.bodies[b]? = some (f, h))
    fun Y m hY => ⟨(fam_setFam K hY.1 m).1, (fam_setFam K hY.1 m).2, hY.2⟩
  rcases keeps_serve hD hk fuel r w (by rw [hr]; exact ⟨⟨hf, hb⟩, h2⟩) with h' | ⟨⟨k1, k2⟩, k3⟩
  · exact .inl h'
  · exact .inr (shelf_holds k2 k1 (h3 _ k3))

/-- Copying a Body. -/
theorem shelf_copy {K : Kinds Φ} {X : Shelf Φ} {i : Nat} {C : List Byte} (h : X.Copies K i C) :
    ∃ Y, (Shelf.store K).copy X i = (Y, .ret (.ok X.bodies.length)) ∧ Y.Holds K i C ∧ Y.Holds K X.bodies.length C ∧
      Y.Spares K i X.bodies.length C ∧ Y.Spares K X.bodies.length i C := by
  obtain ⟨f, h, hi, hf, m', h', e, s1, s2⟩ := h
  obtain ⟨g1, g2⟩ := fam_setFam K hf m'
  have hlt : i < X.bodies.length := (List.getElem?_eq_some_iff.1 hi).1
  let Y : Shelf Φ := { X.setFam f m' with bodies := X.bodies ++ [(f, h')] }
  have y1 : Y.bodies[i]? = some (f, h) := by
    show (X.bodies ++ [(f, h')])[i]? = _
    rw [List.getElem?_append_left hlt]; exact hi
  have y2 : Y.bodies[X.bodies.length]? = some (f, h') := by show (X.bodies ++ [(f, h')])[X.bodies.length]? = _; simp
  have yf : Y.fam K f = m' := g1
  rw [← yf] at s1 s2
  refine ⟨Y, by simp only [Shelf.store, hi, e, Y], shelf_holds y1 g2 ?_, shelf_holds y2 g2 ?_, shelf_spares y1 y2 g2 s1, shelf_spares y2 y1 g2 s2⟩
  · obtain ⟨P, -, p2, p3⟩ := s2; exact p3 _ p2
  · obtain ⟨P, -, p2, p3⟩ := s1; exact p3 _ p2

/-- **C80.** A handler makes calls on a Builder, builds a Response with a Body that can be copied, and copies the Response.  Then the client gets what was planned from
either of the two; also when the other one has been served before. -/
theorem C80_copied {K : Kinds Φ} {E : BEnv (Shelf Φ)} (hE : NoShared E) (hst : E.store = Shelf.store K) {A : Around} (hd : E.gens 0 = defaultGen E.store A.text)
    (hm : E.mime = Mime.normal) {s : BState (Shelf Φ)} (hs : s.Lived E) (hsrc : ∀ i C, A.bodies i = some C → s.bodies.Holds K i C)
    (l : List Say) (hl : ∀ x ∈ l, x.Known K E A s.heap) {s' : BState (Shelf Φ)} {j : Nat} (hh : s.handle K E l = (s', .made j)) :
    ∃ p C r i, LeadsAll A {} l p ∧ p.body = some C ∧ s'.rsps[j]? = some r ∧ r.body = some i ∧ (s'.bodies.Copies K i C →
      ∃ t r' i', s'.step E (.respCopy j) = (t, .made s'.rsps.length) ∧ t.rsps[j]? = some r ∧ t.rsps[s'.rsps.length]? = some r' ∧ r'.body = some i' ∧
        Arrives K t j p C ∧ Arrives K t s'.rsps.length p C ∧
        ∀ (ω : Type) (D : RW ω), (D.isReaderFrom = true → ∀ w, SmallReads (D.readFrom w)) → ∀ (fuel : Nat) (q : Resp (Shelf Φ)) (w : ω), q.body = t.bodies →
          ((serve D (t.bodies.ops K i) fuel q w).2.2 = .hang ∨ Arrives K { t with bodies := (serve D (t.bodies.ops K i) fuel q w).1 } s'.rsps.length p C) ∧
          ((serve D (t.bodies.ops K i') fuel q w).2.2 = .hang ∨ Arrives K { t with bodies := (serve D (t.bodies.ops K i') fuel q w).1 } j p C)) := by
  rcases handle_planned hE hst hd hm hs hsrc l hl with ⟨⟨e, h⟩, -⟩ | ⟨p, C, h1, h2, s1, h3, om, oa, σ, i, R, h4⟩
  · rw [hh] at h; cases h
  rw [hh] at h3
  cases h3
  obtain ⟨sr, f, n, code, k1, k2, k3⟩ := h4.made
  rcases R.rsp s.rsps.length with ⟨-, e⟩ | ⟨r, sr', e1, e2, e3⟩
  · rw [k1] at e; cases e
  rw [k1] at e2; cases e2
  have hb : r.body = some i := e3.body.trans k2
  refine ⟨p, C, r, i, h1, h2, e1, hb, fun hc => ?_⟩
  obtain ⟨Y, c1, c2, c3, c4, c5⟩ := shelf_copy hc
  have hlt : s.rsps.length < s'.rsps.length := (List.getElem?_eq_some_iff.1 e1).1
  have hstep : s'.step E (.respCopy s.rsps.length) =
      ({ s' with bodies := Y, rsps := s'.rsps ++ [{ r with body := some s'.bodies.bodies.length }] }, .made s'.rsps.length) := by
    simp only [BState.step, e1, copyBody, hb, hst, c1]
  obtain ⟨-, om', oa', R'⟩ := step_sim hE R (op := .respCopy s.rsps.length) trivial
  have hσ : (σ.step E (argOf s'.heap (.respCopy s.rsps.length)) (.respCopy s.rsps.length)).1 =
      { σ with bodies := Y, rsps := σ.rsps ++ [{ sr with body := some s'.bodies.bodies.length }] } := by
    simp only [SState.step, k1, copied, k2, hst, ← R.bodies, c1]
  rw [hstep, hσ] at R'
  have P1 : ∀ Z : Shelf Φ, Z.Holds K i C → Arrives K { s' with bodies := Z, rsps := s'.rsps ++ [{ r with body := some s'.bodies.bodies.length }] } s.rsps.length p C :=
    fun Z hZ => ToldP.Planned.arrives (R'.bodies_only Z) (i := i) ⟨⟨sr, f, n, code, by
      show (σ.rsps ++ [_])[s.rsps.length]? = _
      rw [List.getElem?_append_left (by rw [← R.nr]; exact hlt)]; exact k1, k2, k3⟩, hZ⟩
  have P2 : ∀ Z : Shelf Φ, Z.Holds K s'.bodies.bodies.length C →
      Arrives K { s' with bodies := Z, rsps := s'.rsps ++ [{ r with body := some s'.bodies.bodies.length }] } s'.rsps.length p C :=
    fun Z hZ => ToldP.Planned.arrives (R'.bodies_only Z) (i := s'.bodies.bodies.length) ⟨⟨{ sr with body := some s'.bodies.bodies.length }, f, n, code, by
      show (σ.rsps ++ [_])[s'.rsps.length]? = _
      rw [R.nr]; simp, rfl, k3⟩, hZ⟩
  refine ⟨_, { r with body := some s'.bodies.bodies.length }, s'.bodies.bodies.length, hstep, ?_, by simp, rfl, P1 _ c2, P2 _ c3, fun ω D hD fuel q w hq => ⟨?_, ?_⟩⟩
  · show (s'.rsps ++ [_])[s.rsps.length]? = _
    rw [List.getElem?_append_left hlt]; exact e1
  · exact (c4 ω D hD fuel q w hq).imp id (P2 _)
  · exact (c5 ω D hD fuel q w hq).imp id (P1 _)

/-- **C80.** A Response whose Body was closed can be copied, and the Body of the copy is closed too: it has nothing, and every call fails. -/
theorem C80_copied_closed {K : Kinds Φ} {E : BEnv (Shelf Φ)} (hst : E.store = Shelf.store K) {s : BState (Shelf Φ)} {j : Nat} {r : Rsp} (hr : s.rsps[j]? = some r)
    {i f h : Nat} (hb : r.body = some i) (hi : s.bodies.bodies[i]? = some (f, h)) {m : Φ} (hc : K.step (s.bodies.fam K f) (.copy h) = (m, .copiedClosed)) :
    ∃ t i', s.step E (.respCopy j) = (t, .made s.rsps.length) ∧ t.rsps = s.rsps ++ [{ r with body := some i' }] ∧ t.heap = s.heap ∧
      t.bodies.bodies[i]? = some (f, h) ∧ let B := t.bodies.ops K i'
      B.remaining t.bodies = 0 ∧ (B.close t.bodies).2 = .ret (some .closed) ∧ ∀ k, (B.read t.bodies k).2 = .ret ([], some .closed) := by
  have hlt : i < s.bodies.bodies.length := (List.getElem?_eq_some_iff.1 hi).1
  let Y : Shelf Φ := ((s.bodies.setFam f m).add (K.mem closedFam)).1
  have e1 : (Shelf.store K).copy s.bodies i = (Y, .ret (.ok s.bodies.bodies.length)) := by
    simp only [Shelf.store, hi, hc]; rfl
  have e2 : Y.bodies[s.bodies.bodies.length]? = some ((s.bodies.setFam f m).fams.length, 0) := by
    show (s.bodies.bodies ++ [_])[s.bodies.bodies.length]? = _
    simp
  have e3 : Y.fam K (s.bodies.setFam f m).fams.length = K.mem closedFam := by
    show ((((s.bodies.setFam f m).fams ++ [K.mem closedFam])[_]?).getD _) = _
    simp
  have e4 : Y.ops K s.bodies.bodies.length = Y.famOps K (s.bodies.setFam f m).fams.length 0 := by simp only [Shelf.ops, e2]
  refine ⟨{ s with bodies := Y, rsps := s.rsps ++ [{ r with body := some s.bodies.bodies.length }] }, s.bodies.bodies.length, ?_, rfl, rfl, ?_, ?_⟩
  · simp only [BState.step, hr, copyBody, hb, hst, e1]
  · show (s.bodies.bodies ++ [_])[i]? = _
    rw [List.getElem?_append_left hlt]; exact hi
  · dsimp only
    rw [e4]
    simp only [Shelf.famOps, BodyOps.focus, e3, BodyOps.ofFam, K.step_mem]
    exact ⟨rfl, rfl, fun _ => rfl⟩

/-! ## The Bodies of this repository can be copied -/

section Embed
variable {S : Type} {K : Kinds Φ} {st : S → Op → S × Out} {inj : S → Φ}

theorem embed_keeps (hinj : ∀ s op, K.step (inj s) op = (inj (st s op).1, (st s op).2)) (d : Bool) (g : Nat) {P : S → Prop} (hk : Keeps (BodyOps.ofFam st d g) P) :
    Keeps (BodyOps.ofFam K.step d g) (fun m => ∃ s, m = inj s ∧ P s) where
  read m k hk' hm := by
    obtain ⟨s, rfl, hP⟩ := hm
    rw [embed_read hinj]
    exact (hk.read s k hk' hP).imp id fun h => ⟨_, rfl, h⟩
  close m hm := by
    obtain ⟨s, rfl, hP⟩ := hm
    rw [embed_close hinj]
    exact (hk.close s hP).imp id fun h => ⟨_, rfl, h⟩
  writeTo hw m hm := by
    obtain ⟨s, rfl, hP⟩ := hm
    rw [embed_writeTo hinj]
    exact wtAll_map (fun s hs => ⟨s, rfl, hs⟩) (hk.writeTo hw s hP)

/-- Bodies that are like cursors. -/
theorem copies_of_sim (hinj : ∀ s op, K.step (inj s) op = (inj (st s op).1, (st s op).2)) {cfg : Cfg} {Allowed : Choice → Prop} {Ok : Op → Prop}
    (Rel : S → List Cursor → Prop) (hd : ∀ s, K.drains (inj s) = cfg.drains)
    (hstep : ∀ s f op, Rel s f → Ok op → (st s op).2 ≠ .hang → ∃ ch, Allowed ch ∧ (st s op).2 = (Spec.step cfg ch f op).2 ∧ Rel (st s op).1 (Spec.step cfg ch f op).1)
    (hread : ∀ h k, k < 2 ^ 62 → Ok (.read h k)) (hclose : ∀ h, Ok (.close h)) (hwrite : cfg.drains = true → ∀ h w, Ok (.writeTo h w))
    (hw0 : ∀ s h w, (st s (.writeTo h w)).2 ≠ .hang) {h : Nat} (hok : Ok (.copy h)) {s : S} (hnh : (st s (.copy h)).2 ≠ .hang) {f : List Cursor} {c : Cursor}
    (hR : Rel s f) (hc : f[h]? = some c) (ho : c.isOpen = true) {C : List Byte}
    (ready : ∀ s f h, Rel s f → f[h]? = some c → K.Ready (inj s) h C) : K.Copies (inj s) h C := by
  obtain ⟨s', h', f', e, hne, r1, c1, c2⟩ := copy_cursor Rel hstep h hok s hnh hR hc ho
  have sp : ∀ a b, a ≠ b → f'[b]? = some c → K.Spares (inj s') a b C := by
    intro a b hab hb
    refine ⟨fun m => ∃ s, m = inj s ∧ ∃ f, Rel s f ∧ f[b]? = some c, ?_, ⟨s', rfl, f', r1, hb⟩, ?_⟩
    · rw [hd]
      exact embed_keeps hinj _ a (keeps_cursor Rel hstep a (hread a) (hclose a) (fun h w => hwrite h a w) (fun s w => hw0 s a w) hab c)
    · rintro _ ⟨s2, rfl, f2, r2, b2⟩
      exact .inl (ready s2 f2 b r2 b2)
  exact ⟨inj s', h', by rw [hinj, e], sp h h' hne c2, sp h' h (Ne.symm hne) c1⟩

end Embed

/-- A Body of bytes, at any position. -/
theorem mem_ready_at (K : Kinds Φ) {d : List Byte} (hne : d ≠ []) (hlen : d.length < 2 ^ 63) {s : MemFam} {f : List Cursor} (hs : MemRel d s f) {h : Nat} {c : Cursor}
    (hc : f[h]? = some c) (ho : c.isOpen = true) (hd : c.done = false) (hp : c.pos ≤ c.content.length) : K.Ready (K.mem s) h (c.content.drop c.pos) := by
  refine embed_ready (st := MemFam.step) (P := SrcRel (MemRel d) h) K.step_mem true h (K.drains_mem _)
    (fun _ => ⟨mem_lively d hlen hne h 32768 (by decide), mem_quits d hlen hne h, f, c, hs, hc, ho, by simp [Cursor.rest, hd]⟩) (.inl ?_)
  obtain ⟨ch, h1, h2⟩ := sim_remaining (cfg := memCfg d) (Allowed := (· = {})) (h := h) (Rel := MemRel d) (step := MemFam.step) (fun s f hs => by
    obtain ⟨ch, h1, h2, -⟩ := mem_step_sim' hlen s f (.remaining h) hs ⟨trivial, fun h => absurd h hne⟩ (goOut_ne_hang s _)
    exact ⟨ch, h1, h2⟩) hs hc
  rw [h2, rest_length hp]
  subst h1
  simp [Cursor.remaining, ho]

/-- **C80.** A Body that was made of bytes can be copied, at any position. -/
theorem C80_mem_copies (K : Kinds Φ) {d : List Byte} (hne : d ≠ []) (hlen : d.length < 2 ^ 63) {s : MemFam} {f : List Cursor} (hs : MemRel d s f) {h : Nat} {c : Cursor}
    (hc : f[h]? = some c) (ho : c.isOpen = true) (hd : c.done = false) (hp : c.pos ≤ c.content.length) : K.Copies (K.mem s) h (c.content.drop c.pos) :=
  copies_of_sim K.step_mem (cfg := memCfg d) (Allowed := (· = {})) (Ok := fun op => op.Valid ∧ (d = [] → op.EmptyOk)) (MemRel d) (fun _ => K.drains_mem _) (mem_step_sim' hlen)
    (fun _ _ _ => ⟨trivial, fun h => absurd h hne⟩) (fun _ => ⟨trivial, fun h => absurd h hne⟩) (fun _ _ _ => ⟨trivial, fun h => absurd h hne⟩)
    (fun s _ _ => goOut_ne_hang s _) ⟨trivial, fun h => absurd h hne⟩ (goOut_ne_hang s _) hs hc ho (fun _ _ _ hs hc => mem_ready_at K hne hlen hs hc ho hd hp)

theorem empty_other {l : List EmptyBody} {op : Op} {h : Nat} (hne : op.h ≠ h) {b : EmptyBody} (hb : l[h]? = some b) : (EmptyBody.step l op).1[h]? = some b := by
  unfold EmptyBody.step
  split
  · exact hb
  · cases op <;> simp only [Op.h] at hne <;> dsimp only <;> repeat' split
    all_goals first
      | exact hb
      | (rw [List.getElem?_set_ne hne]; exact hb)
      | (rw [List.getElem?_append_left (List.getElem?_eq_some_iff.1 hb).1]; exact hb)

/-- **C80.** An empty Body can be copied. -/
theorem C80_empty_copies (K : Kinds Φ) {l : List EmptyBody} {h : Nat} {b : EmptyBody} (hb : l[h]? = some b) (ho : b.closed = false) : K.Copies (K.mem (.empty l)) h [] := by
  have hlt : h < l.length := (List.getElem?_eq_some_iff.1 hb).1
  have sp : ∀ l a h b, a ≠ h → l[h]? = some b → b.closed = false → K.Spares (K.mem (.empty l)) a h [] := by
    intro l a h b hab hb ho
    refine ⟨fun m => ∃ s, m = K.mem s ∧ ∃ l, s = .empty l ∧ l[h]? = some b, ?_, ⟨_, rfl, l, rfl, hb⟩, ?_⟩
    · rw [K.drains_mem]
      refine embed_keeps K.step_mem true a (keeps_of_steps (Ok := fun _ => True) a ?_ (fun _ _ => trivial) trivial (fun _ _ => trivial) (fun s w => goOut_ne_hang s _))
      rintro _ op he - - ⟨l, rfl, hl⟩
      exact ⟨_, rfl, empty_other (by rw [he]; exact hab) hl⟩
    · rintro _ ⟨_, rfl, l, rfl, hl⟩
      exact .inr ⟨rfl, l, b, rfl, hl, ho⟩
  refine ⟨K.mem (.empty (l ++ [{ eof := b.eof }])), l.length, ?_, sp _ _ _ { eof := b.eof } (by omega) (by simp) rfl,
    sp _ _ _ b (by omega) (by rw [List.getElem?_append_left hlt]; exact hb) ho⟩
  rw [K.step_mem]
  simp [MemFam.step, EmptyBody.step, Op.h, hb, ho]

variable {α σ τ : Type} {A : Rdr α} {S : Rdr σ} {T : Rdr τ} {loops : Nat}

/-- **C80.** A Body over an `io.ReaderAt` that honours its contract can be copied, at any position. -/
theorem C80_readerAt_copies {F : List Byte} {Inv : α → Prop} (hR : IsReaderAt A F Inv) (hq : CloseNil A) {n : Nat} (hn : n ≤ F.length) (hn63 : n < 2 ^ 63)
    {s : PosSys α} {f : List Cursor} (hs : PSim (F.take n) Inv s f) {h : Nat} {c : Cursor} (hc : f[h]? = some c) (ho : c.isOpen = true) (hd : c.done = false)
    (hp : c.pos ≤ c.content.length) : (anyKinds A S T loops).Copies (.readerAt s) h (c.content.drop c.pos) := by
  haveI := hR.closeOk
  have hN : ∀ s op, (Pos.step (atKind A) s op).2 ≠ .hang := fun s op => by rw [← at_step]; exact at_noHang A s op
  exact copies_of_sim (st := Pos.step (atKind A)) (inj := AnyFam.readerAt) (fun s op => by rw [← at_step]; rfl) (cfg := posCfg n) (Allowed := PosAllowed)
    (PSim (F.take n) Inv) (fun _ => rfl) (psim_step' (goodGet_at hR) hn hn63) (fun _ _ _ => trivial) (fun _ => trivial) (fun _ _ _ => trivial)
    (fun s _ _ => hN s _) trivial (hN _ _) hs hc ho (fun _ _ _ hs hc => C80_readerAt hR hq hn hn63 hs hc ho hd hp)

/-- **C80.** A Body over an `io.ReadSeeker` that fills its buffers can be copied, at any position. -/
theorem C80_seeker_copies {F : List Byte} {At : σ → Nat → Prop} (hR : IsFullSeeker S F At) (hq : CloseNil S) {n : Nat} (hn : n ≤ F.length) (hn63 : n < 2 ^ 63)
    {s : PosSys σ} {f : List Cursor} (hs : PSim (F.take n) (fun st => ∃ p, At st p) s f) {h : Nat} {c : Cursor} (hc : f[h]? = some c) (ho : c.isOpen = true)
    (hd : c.done = false) (hp : c.pos ≤ c.content.length) : (anyKinds A S T loops).Copies (.seeker s) h (c.content.drop c.pos) := by
  haveI := hR.closeOk
  have hN : ∀ s op, (Pos.step (seekKind S) s op).2 ≠ .hang := fun s op => by rw [← seek_step]; exact seek_noHang S s op
  exact copies_of_sim (st := Pos.step (seekKind S)) (inj := AnyFam.seeker) (fun s op => by rw [← seek_step]; rfl) (cfg := posCfg n) (Allowed := PosAllowed)
    (PSim (F.take n) fun st => ∃ p, At st p) (fun _ => rfl) (psim_step' (goodGet_seek hR) hn hn63) (fun _ _ _ => trivial) (fun _ => trivial) (fun _ _ _ => trivial)
    (fun s _ _ => hN s _) trivial (hN _ _) hs hc ho (fun _ _ _ hs hc => C80_seeker hR hq hn hn63 hs hc ho hd hp)

/-- **C80.** A Body over an `io.Reader` can be copied, though the Reader can be read only once. -/
theorem C80_stream_copies {Inv : τ → List Byte → Prop} (hS : IsStream T .eof Inv) (hq : CloseNil T) {B : Nat} {idle : τ → Nat} (hE : Eager T B idle)
    (hf : (32768 + 65536) * (B + 1) + B < loops) {U : List Byte} {L : Int} (hL : L ≤ U.length)
    {s : BufSys (Rec τ)} {f : List Cursor} (hs : StreamRel T .eof Inv U L s f) {h : Nat} {c : Cursor} (hc : f[h]? = some c) (ho : c.isOpen = true)
    (hd : c.done = false) (hcut : c.content = cut U L) (hp : c.pos ≤ c.content.length) : (anyKinds A S T loops).Copies (.buffered s) h (c.content.drop c.pos) := by
  haveI : T.CloseOk := ⟨fun hc st => ⟨none, hq hc st⟩⟩
  have hnh : (streamStep T loops s (.copy h)).2 ≠ .hang := by
    obtain ⟨ext, S⟩ := buf_step T loops L s hs.winv (.copy h) trivial
    intro hh
    obtain ⟨_, _, h'⟩ := S.hang hh
    cases h'
  exact copies_of_sim (st := streamStep T loops) (inj := AnyFam.buffered) (fun _ _ => rfl) (cfg := streamCfg L (if 0 ≤ L ∧ L < U.length then .eof else .eof))
    (Allowed := fun _ => True) (Ok := Op.Small) (StreamRel T .eof Inv U L) (fun _ => rfl) (streamRel_step hS U L (.inl rfl) loops) (fun _ _ hk => hk) (fun _ => trivial)
    (fun _ _ _ => trivial) (fun s h w => by
        unfold streamStep BufSys.step
        split
        · simp
        · simp) trivial hnh hs hc ho (fun _ _ _ hs hc => C80_stream hS hq hE hf hL hs hc ho hd hcut hp)

/-! ## Examples -/

-- The pipe of `twoKinds` as the Body of a Response: both the Response and its copy get to the client, in any order.
example : ∃ s' p t r r' i i', BState.handle twoKinds twoEnv { bodies := twoBodies } [.status 200, .body (some 1)] = (s', .made 0) ∧
    s'.step twoEnv (.respCopy 0) = (t, .made 1) ∧ t.rsps[0]? = some r ∧ t.rsps[1]? = some r' ∧ r.body = some i ∧ r'.body = some i' ∧
    Arrives twoKinds t 0 p (lit "a pipe") ∧ Arrives twoKinds t 1 p (lit "a pipe") ∧
    ∀ (http1 : Bool) (n fuel : Nat) (q : Resp _) (w : NetW), q.body = t.bodies → (netRW http1 n).isReaderFrom = false →
      ((serve (netRW http1 n) (t.bodies.ops twoKinds i) fuel q w).2.2 = .hang ∨
        Arrives twoKinds { t with bodies := (serve (netRW http1 n) (t.bodies.ops twoKinds i) fuel q w).1 } 1 p (lit "a pipe")) := by
  have hh : BState.handle twoKinds twoEnv { bodies := twoBodies } [.status 200, .body (some 1)] =
      ((BState.handle twoKinds twoEnv { bodies := twoBodies } [.status 200, .body (some 1)]).1, .made 0) := Prod.ext rfl rfl
  have h1 : (BState.handle twoKinds twoEnv { bodies := twoBodies } [.status 200, .body (some 1)]).1.rsps.map (·.body) = [some 1] := by decide +kernel
  have h2 : (BState.handle twoKinds twoEnv { bodies := twoBodies } [.status 200, .body (some 1)]).1.bodies = twoBodies := rfl
  generalize (BState.handle twoKinds twoEnv { bodies := twoBodies } [.status 200, .body (some 1)]).1 = s' at *
  obtain ⟨p, C, r, i, k1, k2, k3, k4, k5⟩ := C80_copied twoEnv_noShared rfl (A := { bodies := twoSrc }) rfl rfl (s := { bodies := twoBodies }) (.start _) two_holds
    [.status 200, .body (some 1)] (by
      intro x hx
      simp only [List.mem_cons, List.not_mem_nil, or_false] at hx
      rcases hx with rfl | rfl
      · trivial
      · exact ⟨_, rfl⟩) hh
  have hC : C = lit "a pipe" := by
    cases k1 with
    | cons a b =>
      cases a
      cases b with
      | cons a b =>
        cases b
        cases a with
        | body h'' => exact Option.some.inj (k2.symm.trans h''.symm)
  subst hC
  have hi : i = 1 := by
    have := congrArg (·[0]?) h1
    simp only [List.getElem?_map, k3, Option.map_some, k4] at this
    simpa using this
  subst hi
  have hlen : s'.rsps.length = 1 := by simpa using congrArg List.length h1
  obtain ⟨t, r', i', g1, g2, g3, g4, g5, g6, g7⟩ := k5 (by
    rw [h2]
    exact ⟨1, 0, rfl, by decide, C80_stream_copies (B := 0) (loops := 200000) (pipeRdr_stream (lit "a pipe")) (fun h => by cases h) (pipeRdr_eager _) (by decide) (by decide)
      (streamRel_init 0 (lit "a pipe") rfl (-1)) (h := 0) rfl rfl rfl rfl (by decide)⟩)
  rw [hlen] at g1 g3 g6 g7
  exact ⟨s', p, t, r, r', 1, i', hh, g1, g2, g3, k4, g4, g5, g6, fun http1 n fuel q w hq hn => (g7 _ _ (fun h => by rw [hn] at h; cases h) fuel q w hq).1⟩

-- The Response with the pipe is served; then its copy is: the client gets the pipe again, and the Body of the first is closed.
example : let s := (BState.handle twoKinds twoEnv { bodies := twoBodies } [.status 200, .body (some 1)]).1
    let t := (s.step twoEnv (.respCopy 0)).1
    let x := serve (netRW true 99) (t.bodies.ops twoKinds 1) 99 { code := 200, hdrs := [], body := t.bodies } { isHEAD := false }
    let y := overNet true 4 true false (x.1.ops twoKinds 2) 99 false (fun _ => .ret ())
      (.resp { code := 200, hdrs := [(lit "Content-Type", [lit "application/octet-stream"])], body := x.1, err := none })
    t.rsps.map (fun r => (r.code, r.body)) = [(200, some 1), (200, some 2)] ∧
    x.2.1.body = lit "a pipe" ∧ ((x.1.ops twoKinds 1).close x.1).2 = .ret (some .closed) ∧
    (Wire.receive true false (Wire.wire (WireP.plain false y.1) y.1)).map (fun z => z.1.body) = some (lit "a pipe") :=
  ⟨by decide +kernel, by decide +kernel, by decide +kernel, by decide +kernel⟩

end Verif
