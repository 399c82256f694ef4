import Verif.Model.Adaptor
import Verif.Proofs.Writer
import Verif.Proofs.Strconv
import Verif.Proofs.Serve

/-! # What serving does to a Writer -/

set_option autoImplicit false

namespace Verif
open Spec
variable {β ω : Type}

theorem copyLoop_pres (D : RW ω) (B : BodyOps β) (I : ω → Prop) (hw : ∀ w d, I w → I (D.write w d).1) (fuel : Nat) (b : β) (w : ω)
    (n : Int) (hI : I w) : I (copyLoop D B fuel b w n).2.1 := by
  induction fuel generalizing b w n with
  | zero => exact hI
  | succ fuel ih =>
    simp only [copyLoop]
    rcases B.read b 32768 with ⟨b', r⟩
    cases r with
    | panic p => exact hI
    | hang => exact hI
    | ret a =>
      obtain ⟨d, er⟩ := a
      simp only
      have h1 := hw w d hI
      rcases hq : D.write w d with ⟨w', q⟩
      rw [hq] at h1
      rcases q with ⟨nw, ew⟩ | p | _
      all_goals (dsimp only; repeat' (first | exact hI | exact h1 | exact ih _ _ _ hI | exact ih _ _ _ h1 | split))

/-- What every method of a ResponseWriter preserves, `io.Copy` preserves. -/
theorem ioCopy_pres (D : RW ω) (B : BodyOps β) (fuel : Nat) (I : ω → Prop)
    (hw : ∀ w d, I w → I (D.write w d).1)
    (hrf : ∀ w b, I w → I (runRF B fuel (D.readFrom w) b).2.1) (b : β) (w : ω) (h : I w) :
    I (ioCopy D B fuel b w).2.1 := by
  unfold ioCopy
  split
  · generalize B.writeTo b = t
    induction t generalizing w with
    | done b n e => exact h
    | write b d cont ih =>
      simp only [runWT]
      have h1 := hw w d h
      rcases hq : D.write w d with ⟨w', r⟩
      rw [hq] at h1
      cases r with
      | ret a => exact ih _ _ w' h1
      | panic p => exact h1
      | hang => exact h1
    | panic b p => exact h
    | hang b => exact h
  · split
    · exact hrf w b h
    · exact copyLoop_pres D B I hw fuel b w 0 h

theorem setAll_pres (D : RW ω) (I : ω → Prop) (hset : ∀ w k v, I w → I (D.setHeader w k v))
    (hdrs : List (GoStr × List GoStr)) (w : ω) (h : I w) : I (setAll D hdrs w) := by
  induction hdrs generalizing w with
  | nil => exact h
  | cons e hdrs ih =>
    simp only [setAll, List.foldl_cons] at ih ⊢
    apply ih
    split
    · exact hset _ _ _ h
    · exact h

theorem pushAll_pres (D : RW ω) (I : ω → Prop) (hp : ∀ w u, I w → I (D.push w u).1) (urls : List GoStr) (w : ω) (h : I w) :
    I (pushAll D urls w).1 := by
  induction urls generalizing w with
  | nil => exact h
  | cons u urls ih =>
    simp only [pushAll]
    have h1 := hp w u h
    rcases hq : D.push w u with ⟨w', r⟩
    rw [hq] at h1
    cases r with
    | panic p => exact h1
    | hang => exact h1
    | ret o =>
      cases o with
      | none => exact ih w' h1
      | some e =>
        simp only
        split
        · exact h1
        · exact ih w' h1

/-- `ReadFrom` of the Writer, on any source. -/
theorem writer_readFrom_inv (N : RW ω) (B : BodyOps β) (fuel : Nat) (s : WState (Logged WEv ω)) (hs : WInvariant s) (b : β) :
    WInvariant (runRF B fuel (Writer.readFrom N.record s) b).2.1 ∧
      (s.status ≠ 0 → (runRF B fuel (Writer.readFrom N.record s) b).2.1.status = s.status) := by
  simp only [Writer.readFrom]
  obtain ⟨a1, a2, a3, a4, ⟨ext, a5, a6⟩, a7⟩ := maybe_spec N s hs 200
  have a8 : s.status ≠ 0 → (Writer.maybeWriteHeader N.record s 200).1 = s := by
    intro h; simp [Writer.maybeWriteHeader, h]
  rcases hm : Writer.maybeWriteHeader N.record s 200 with ⟨s1, r⟩
  rw [hm] at a1 a2 a3 a4 a5 a7 a8
  dsimp only at a1 a2 a3 a4 a5 a7 a8
  have a9 : s.status ≠ 0 → s1.status = s.status := fun h => by rw [a8 h]
  cases r with
  | panic q => exact ⟨a1, a9⟩
  | hang => exact ⟨a1, a9⟩
  | ret u =>
    simp only
    by_cases hh : (s1.isHEAD || decide (s1.status = 204)) = true
    · rw [if_pos hh]
      have : (runRF B fuel (RF.drain s1 fun n err => RF.done s1 n err) b).2.1 = s1 := by
        simp only [runRF]
        rcases discardAll B fuel b with ⟨b, r⟩
        cases r <;> rfl
      rw [this]; exact ⟨a1, a9⟩
    · rw [if_neg hh]
      have hh' : ¬ (s1.isHEAD = true ∨ s1.status = 204) := by simpa using hh
      split
      · exact ⟨a1, a9⟩
      · have hst : statuses s1.next.log ≠ [] := by
          have h0 := (a7 rfl).1
          rcases a1.status with h | h
          · exact absurd h.1 h0
          · simp [h.2.2]
        simp only [RW.record]
        obtain ⟨ex, w', e1, e2⟩ := wrapRF_spec B fuel s1 (N.readFrom s1.next.inner) (s1.next.log ++ [.readFrom]) b
        rw [e1]
        have hst2 : statuses (WEv.readFrom :: ex) = [] := by
          have := statuses_took e2
          simpa [statuses] using this
        refine ⟨⟨?_, ?_, ?_, fun h => absurd h hh'⟩, a9⟩
        · have := a1.first.append_send hst hst2
          simpa using this
        · have : statuses (s1.next.log ++ [.readFrom] ++ ex) = statuses s1.next.log := by
            rw [List.append_assoc, List.singleton_append, statuses_append, hst2]; simp
          simp only [this]
          exact a1.status
        · simp [accepted_append, accepted, a1.bytes]

theorem writer_write_status (N : RW ω) (s : WState ω) (p : List Byte) (h : s.status ≠ 0) : (Writer.write N s p).1.status = s.status := by
  have : Writer.maybeWriteHeader N s 200 = (s, .ret ()) := by simp [Writer.maybeWriteHeader, h]
  simp only [Writer.write, this]
  split
  · rfl
  · rcases N.write s.next p with ⟨w, r⟩
    cases r with
    | panic q => rfl
    | hang => rfl
    | ret a =>
      obtain ⟨n, e⟩ := a
      simp only
      split
      · rfl
      · split <;> rfl

theorem writer_push_status (N : RW ω) (s : WState ω) (u : GoStr) : (Writer.push N s u).1.status = s.status := by
  unfold Writer.push; split <;> rfl

theorem writer_ioCopy (N : RW ω) (raises : Bool) (kind : WKind) (B : BodyOps β) (fuel : Nat) (b : β) (c : Int) (hc : c ≠ 0)
    (s : WState (Logged WEv ω)) (hs : WInvariant s) (hst : s.status = c) :
    WInvariant (ioCopy (Writer.ops N.record raises kind) B fuel b s).2.1 ∧
    (ioCopy (Writer.ops N.record raises kind) B fuel b s).2.1.status = c := by
  refine ioCopy_pres (Writer.ops N.record raises kind) B fuel (fun s => WInvariant s ∧ s.status = c) ?_ ?_ b s ⟨hs, hst⟩
  · rintro s d ⟨h1, h2⟩
    refine ⟨(writer_step N raises kind fuel s h1 (.write d)).inv, ?_⟩
    exact (writer_write_status N.record s d (by omega)).trans h2
  · rintro s b ⟨h1, h2⟩
    obtain ⟨i1, i2⟩ := writer_readFrom_inv N B fuel s h1 b
    exact ⟨i1, (i2 (by omega)).trans h2⟩

/-- Pushing through the Writer. -/
theorem writer_pushAll (N : RW ω) (raises : Bool) (kind : WKind) (urls : List GoStr)
    (s : WState (Logged WEv ω)) (hs : WInvariant s) :
    WInvariant (pushAll (Writer.ops N.record raises kind) urls s).1 ∧
    (pushAll (Writer.ops N.record raises kind) urls s).1.status = s.status ∧
    ((pushAll (Writer.ops N.record raises kind) urls s).2 = none ∨
      PushFailed (pushAll (Writer.ops N.record raises kind) urls s).1.next.log) := by
  induction urls generalizing s with
  | nil => exact ⟨hs, rfl, .inl rfl⟩
  | cons u urls ih =>
    have h1 : WInvariant (Writer.push N.record s u).1 := (writer_step N raises kind 0 s hs (.push u)).inv
    have h2 := writer_push_status N.record s u
    have h3 : (Writer.push N.record s u).2 = .ret (some .notSupported) ∨
        WEv.push u (Writer.push N.record s u).2 ∈ (Writer.push N.record s u).1.next.log := by
      unfold Writer.push
      split
      · right; simp [RW.record]
      · left; rfl
    have e : (Writer.ops N.record raises kind).push s u = Writer.push N.record s u := rfl
    simp only [pushAll, e]
    rcases hq : Writer.push N.record s u with ⟨s', r⟩
    rw [hq] at h1 h2 h3
    dsimp only at h1 h2 h3
    have step : WInvariant (pushAll (Writer.ops N.record raises kind) urls s').1 ∧
        (pushAll (Writer.ops N.record raises kind) urls s').1.status = s.status ∧
        ((pushAll (Writer.ops N.record raises kind) urls s').2 = none ∨
        PushFailed (pushAll (Writer.ops N.record raises kind) urls s').1.next.log) := by
      obtain ⟨i1, i2, i3⟩ := ih s' h1
      exact ⟨i1, i2.trans h2, i3⟩
    have bad : ∀ r, r ≠ .ret none → r ≠ .ret (some .notSupported) →
        (r = .ret (some .notSupported) ∨ WEv.push u r ∈ s'.next.log) → PushFailed s'.next.log := by
      intro r n1 n2 hr
      exact ⟨u, r, hr.resolve_left n2, n1, n2⟩
    cases r with
    | panic p => exact ⟨h1, h2, .inr (bad _ (by simp) (by simp) h3)⟩
    | hang => exact ⟨h1, h2, .inr (bad _ (by simp) (by simp) h3)⟩
    | ret o =>
      cases o with
      | none => exact step
      | some e =>
        simp only
        by_cases he : e = .notSupported
        · rw [if_neg (by simpa using he)]; exact step
        · rw [if_pos he]
          exact ⟨h1, h2, .inr (bad _ (by simp) (by simpa using he) h3)⟩

/-- Serving through the Writer: the invariant holds afterwards; and if no push failed and the code is legal, the status is the
code of the Response, if it was not already set before. -/
theorem writer_serve (N : RW ω) (raises : Bool) (kind : WKind) (B : BodyOps β) (fuel : Nat) (r : Resp β)
    (s : WState (Logged WEv ω)) (hs : WInvariant s) :
    WInvariant (serve (Writer.ops N.record raises kind) B fuel r s).2.1 ∧
    (100 ≤ r.code → r.code ≤ 999 → s.status = 0 →
      (serve (Writer.ops N.record raises kind) B fuel r s).2.1.status = r.code ∨
      PushFailed (serve (Writer.ops N.record raises kind) B fuel r s).2.1.next.log) ∧
    (s.status ≠ 0 → (serve (Writer.ops N.record raises kind) B fuel r s).2.1.status = s.status) := by
  have hp : (if (Writer.ops N.record raises kind).isPusher = true then
      pushAll (Writer.ops N.record raises kind) (hdrGet r.hdrs headerPush) s else (s, none)) =
      pushAll (Writer.ops N.record raises kind) (hdrGet r.hdrs headerPush) s := rfl
  unfold serve
  simp only [hp]
  obtain ⟨i1, i2, i3⟩ := writer_pushAll N raises kind (hdrGet r.hdrs headerPush) s hs
  rcases hq : pushAll (Writer.ops N.record raises kind) (hdrGet r.hdrs headerPush) s with ⟨s1, o⟩
  rw [hq] at i1 i2 i3
  dsimp only at i1 i2 i3
  cases o with
  | some o =>
    refine ⟨i1, fun _ _ _ => .inr (i3.resolve_left (by simp)), fun _ => i2⟩
  | none =>
    simp only
    obtain ⟨j1, j2⟩ := setAll_pres (Writer.ops N.record raises kind) (fun s => WInvariant s ∧ s.status = s1.status)
      (fun s k v h => ⟨(writer_step N raises kind fuel s h.1 (.setHeader k v)).inv, h.2⟩) r.hdrs s1 ⟨i1, rfl⟩
    generalize setAll (Writer.ops N.record raises kind) r.hdrs s1 = s2 at j1 j2
    have k1 : WInvariant (Writer.writeHeader N.record raises s2 r.code).1 :=
      (writer_step N raises kind fuel s2 j1 (.writeHeader r.code)).inv
    have k2 : 100 ≤ r.code → r.code ≤ 999 → s2.status = 0 → (Writer.writeHeader N.record raises s2 r.code).1.status = r.code := by
      intro h1 h2 h3
      unfold Writer.writeHeader
      rw [if_neg (by omega), if_neg (by omega), if_neg (by simp [h3])]
      rfl
    have k3 : s2.status ≠ 0 → (Writer.writeHeader N.record raises s2 r.code).1.status = s2.status := by
      intro h
      unfold Writer.writeHeader
      split
      · rfl
      · split
        · rfl
        · simp only [h, ne_eq, not_false_eq_true, if_true]
    have k4 : (Writer.writeHeader N.record raises s2 r.code).2 = .ret () →
        (Writer.writeHeader N.record raises s2 r.code).1.status ≠ 0 := by
      unfold Writer.writeHeader
      split
      · simp
      · split
        · simp
        · split
          · intro _; assumption
          · simp only [Writer.writeHeaderImpl]; intro _; omega
    have e : (Writer.ops N.record raises kind).writeHeader s2 r.code = Writer.writeHeader N.record raises s2 r.code := rfl
    rw [e]
    rcases hm : Writer.writeHeader N.record raises s2 r.code with ⟨s3, q⟩
    rw [hm] at k1 k2 k3 k4
    dsimp only at k1 k2 k3 k4
    have key : ∀ s4 : WState (Logged WEv ω), WInvariant s4 → s4.status = s3.status →
        WInvariant s4 ∧ (100 ≤ r.code → r.code ≤ 999 → s.status = 0 → s4.status = r.code ∨ PushFailed s4.next.log) ∧
        (s.status ≠ 0 → s4.status = s.status) := by
      intro s4 h1 h2
      refine ⟨h1, fun g1 g2 g3 => .inl (h2.trans (k2 g1 g2 (by omega))), fun g => ?_⟩
      rw [h2, k3 (by omega)]; omega
    cases q with
    | panic p => exact key s3 k1 rfl
    | hang => exact key s3 k1 rfl
    | ret u =>
      simp only
      obtain ⟨c1, c2⟩ := writer_ioCopy N raises kind B fuel r.body s3.status (k4 rfl) s3 k1 rfl
      rcases hc : ioCopy (Writer.ops N.record raises kind) B fuel r.body s3 with ⟨b', s4, a⟩
      rw [hc] at c1 c2
      dsimp only at c1 c2
      cases a with
      | panic p => exact key s4 c1 c2
      | hang => exact key s4 c1 c2
      | ret a =>
        obtain ⟨n, er⟩ := a
        simp only
        rcases B.close b' with ⟨b'', q⟩
        cases q with
        | panic p => exact key s4 c1 c2
        | hang => exact key s4 c1 c2
        | ret e2 => exact key s4 c1 c2

end Verif
