import Verif.Props.NetHttp
import Verif.Model.Conn

/-!
# What every response over `net/http` satisfies, whatever its Body does
-/

set_option autoImplicit false

namespace Verif
variable {β ω : Type}

/-- All states of a ResponseWriter within a run of `ReadFrom`. -/
def rfAll (I : ω → Prop) : RF ω → Prop
  | .done w _ _ => I w
  | .read w _ cont => I w ∧ ∀ d e, rfAll I (cont d e)
  | .drain w cont => I w ∧ ∀ n e, rfAll I (cont n e)
  | .panic w _ => I w
  | .hang w => I w

theorem runRF_all {I : ω → Prop} (B : BodyOps β) (fuel : Nat) (t : RF ω) (b : β) (h : rfAll I t) : I (runRF B fuel t b).2.1 := by
  induction t generalizing b with
  | done w n e => exact h
  | read w k cont ih =>
    simp only [runRF]
    rcases B.read b k with ⟨b', r⟩
    cases r with
    | ret a => exact ih _ _ b' (h.2 _ _)
    | panic p => exact h.1
    | hang => exact h.1
  | drain w cont ih =>
    simp only [runRF]
    rcases discardAll B fuel b with ⟨b', r⟩
    cases r with
    | ret a => exact ih _ _ b' (h.2 _ _)
    | panic p => exact h.1
    | hang => exact h.1
  | panic w p => exact h
  | hang w => exact h

theorem wrapRF_all {I : ω → Prop} (s : WState ω) (t : RF ω) (h : rfAll I t) :
    rfAll (fun s' => I s'.next ∧ s'.status = s.status ∧ (0 ≤ s.bytes → 0 ≤ s'.bytes)) (Writer.wrapRF s t) := by
  induction t with
  | done w n e =>
    simp only [Writer.wrapRF]
    split
    · exact ⟨h, rfl, id⟩
    · exact ⟨h, rfl, fun h0 => by dsimp only; omega⟩
  | read w k cont ih => exact ⟨⟨h.1, rfl, id⟩, fun d e => ih d e (h.2 d e)⟩
  | drain w cont ih => exact ⟨⟨h.1, rfl, id⟩, fun d e => ih d e (h.2 d e)⟩
  | panic w p => exact ⟨h, rfl, id⟩
  | hang w => exact ⟨h, rfl, id⟩

/-- A Writer that has sent its status: what the wrapped one preserves, copying to it preserves. -/
theorem writer_ioCopy_pres {N : RW ω} {I : ω → Prop} (hw : ∀ w d, I w → I (N.write w d).1) (hrf : ∀ w, I w → rfAll I (N.readFrom w))
    (raises : Bool) (kind : WKind) (B : BodyOps β) (fuel : Nat) (b : β) (s : WState ω) (hs : s.status ≠ 0) (hb : 0 ≤ s.bytes) (h : I s.next) :
    I (ioCopy (Writer.ops N raises kind) B fuel b s).2.1.next ∧ (ioCopy (Writer.ops N raises kind) B fuel b s).2.1.status = s.status ∧
      0 ≤ (ioCopy (Writer.ops N raises kind) B fuel b s).2.1.bytes := by
  have hm : ∀ s' : WState ω, s'.status = s.status → Writer.maybeWriteHeader N s' 200 = (s', .ret ()) := by
    intro s' h
    unfold Writer.maybeWriteHeader
    rw [if_neg (by omega), if_neg (by omega), if_pos (by omega)]
  refine ioCopy_pres (Writer.ops N raises kind) B fuel (fun s' => I s'.next ∧ s'.status = s.status ∧ 0 ≤ s'.bytes) ?_ ?_ b s ⟨h, rfl, hb⟩
  · rintro s' d ⟨h1, h2, h3⟩
    show I (Writer.write N s' d).1.next ∧ (Writer.write N s' d).1.status = s.status ∧ 0 ≤ (Writer.write N s' d).1.bytes
    unfold Writer.write
    rw [hm s' h2]
    dsimp only
    split
    · exact ⟨h1, h2, h3⟩
    · have h4 := hw s'.next d h1
      rcases hq : N.write s'.next d with ⟨w, q⟩
      rw [hq] at h4
      rcases q with ⟨n, e⟩ | p | _
      · dsimp only
        split
        · exact ⟨h4, h2, h3⟩
        · split
          · exact ⟨h4, h2, by dsimp only; omega⟩
          · exact ⟨h4, h2, by dsimp only; omega⟩
      · exact ⟨h4, h2, h3⟩
      · exact ⟨h4, h2, h3⟩
  · rintro s' b ⟨h1, h2, h3⟩
    refine runRF_all (I := fun s' : WState ω => I s'.next ∧ s'.status = s.status ∧ 0 ≤ s'.bytes) B fuel _ b ?_
    show rfAll _ (Writer.readFrom N s')
    unfold Writer.readFrom
    rw [hm s' h2]
    dsimp only
    split
    · exact ⟨⟨h1, h2, h3⟩, fun _ _ => ⟨h1, h2, h3⟩⟩
    · split
      · exact ⟨h1, h2, h3⟩
      · have : ∀ (J J' : WState ω → Prop) (t : RF (WState ω)), (∀ x, J x → J' x) → rfAll J t → rfAll J' t := by
          intro J J' t hJ ht
          induction t with
          | done w n e => exact hJ _ ht
          | read w k cont ih => exact ⟨hJ _ ht.1, fun d e => ih d e (ht.2 d e)⟩
          | drain w cont ih => exact ⟨hJ _ ht.1, fun d e => ih d e (ht.2 d e)⟩
          | panic w p => exact hJ _ ht
          | hang w => exact hJ _ ht
        exact this _ _ _ (fun x hx => ⟨hx.1, hx.2.1.trans h2, hx.2.2 h3⟩) (wrapRF_all s' _ (hrf s'.next h1))

/-- A response whose status has been sent, as far as its body goes. -/
structure NetInv (isHEAD : Bool) (code : Int) (declared : Option Nat) (hdrs : List (GoStr × List GoStr)) (w : NetW) : Prop where
  head : w.isHEAD = isHEAD
  status : w.status = code
  length : w.declared = declared
  headers : w.hdrs = hdrs
  empty : isHEAD = true ∨ bodyAllowed code = false → w.body = []
  within : ∀ n, declared = some n → w.body.length ≤ n
  counted : ∀ n, declared = some n → w.written ≤ n → isHEAD = false → bodyAllowed code = true → w.body.length = w.written

variable {isHEAD : Bool} {code : Int} {declared : Option Nat} {hdrs : List (GoStr × List GoStr)}

theorem netInv_write (hc : code ≠ 0) (w : NetW) (d : List Byte) (h : NetInv isHEAD code declared hdrs w) :
    NetInv isHEAD code declared hdrs (w.write d).1 := by
  obtain ⟨a1, a2, a3, a4, a5, a6, a7⟩ := h
  have hs0 : ¬ w.status = 0 := by omega
  unfold NetW.write
  rw [if_neg hs0]
  dsimp only
  split
  · exact ⟨a1, a2, a3, a4, a5, a6, a7⟩
  · split
    · exact ⟨a1, a2, a3, a4, a5, a6, a7⟩
    · rename_i hb
      have hb' : bodyAllowed code = true := by rw [← a2]; simpa using hb
      split
      · rename_i he
        refine ⟨a1, a2, a3, a4, a5, a6, fun n hn hw => ?_⟩
        rw [a3, hn] at he
        simp only [exceeds, decide_eq_true_eq] at he
        dsimp only at hw
        omega
      · rename_i he
        refine ⟨a1, a2, a3, a4, ?_, fun n hn => ?_, fun n hn hw hh _ => ?_⟩
        · rintro (h | h)
          · dsimp only; rw [a1, if_pos h, a5 (.inl h)]
          · rw [hb'] at h; cases h
        · rw [a3, hn] at he
          simp only [exceeds, decide_eq_true_eq] at he
          dsimp only
          cases hh : isHEAD with
          | true => rw [a1, if_pos hh]; exact a6 n hn
          | false =>
            rw [a1, if_neg (by simp [hh]), List.length_append]
            have := a7 n hn (by omega) hh hb'
            omega
        · dsimp only at hw ⊢
          rw [a1, if_neg (by simp [hh]), List.length_append]
          have := a7 n hn (by omega) hh hb'
          omega

theorem netInv_copy (hc : code ≠ 0) (fuel : Nat) : ∀ (w : NetW) (n : Nat), NetInv isHEAD code declared hdrs w →
    rfAll (NetInv isHEAD code declared hdrs) (NetW.copy fuel w n) := by
  induction fuel with
  | zero => intro w n h; exact h
  | succ fuel ih =>
    intro w n h
    refine ⟨h, fun d er => ?_⟩
    dsimp only
    split
    · split
      · exact h
      · have h1 := netInv_write hc w d h
        rcases hq : w.write d with ⟨w', q⟩
        rw [hq] at h1
        rcases q with ⟨nw, ew⟩ | p | _
        · cases ew with
          | some e => exact h1
          | none =>
            cases er with
            | some e => exact h1
            | none => exact ih _ _ h1
        · exact h1
        · exact h1
    · cases er with
      | some e => exact h
      | none => exact ih _ _ h

/-- The Writer over `net/http`, and its `Serve` from the start. -/
theorem netServe_inv (B : BodyOps β) (http1 : Bool) (n : Nat) (raises isHEAD : Bool) (kind : WKind) (fuel : Nat) (r : Resp β)
    (h1 : 100 ≤ r.code) (h2 : r.code ≤ 999) (hnd : (r.hdrs.map Prod.fst).Nodup) :
    let y := serve (Writer.ops (netRW http1 n) raises kind) B fuel r (Writer.init { isHEAD := isHEAD } isHEAD)
    NetInv isHEAD r.code (declaredLength r.hdrs) (r.hdrs.filter fun e => e.1 ≠ headerPush) y.2.1.next ∧ y.2.1.status = r.code ∧ 0 ≤ y.2.1.bytes := by
  let N := netRW http1 n
  let w₀ : NetW := { isHEAD := isHEAD }
  let s₀ : WState NetW := Writer.init w₀ isHEAD
  have a1 : (if (Writer.ops N raises kind).isPusher then pushAll (Writer.ops N raises kind) (hdrGet r.hdrs headerPush) s₀ else (s₀, none)) = (s₀, none) := by
    have : (Writer.ops N raises kind).isPusher = true := rfl
    rw [if_pos this, through_pushAll]
    have e : pushAll N (hdrGet r.hdrs headerPush) s₀.next = (s₀.next, none) := net_pushAll _ _ _ _
    simp only [e, ite_self]
  let H := r.hdrs.filter fun e => e.1 ≠ headerPush
  let w₂ : NetW := { isHEAD := isHEAD, hdrs := H, status := r.code, declared := declaredLength r.hdrs }
  let s₂ : WState NetW := { s₀ with next := w₂, status := r.code }
  have hwh : (Writer.ops N raises kind).writeHeader (setAll (Writer.ops N raises kind) r.hdrs s₀) r.code = (s₂, .ret ()) := by
    rw [through_setAll]
    have e : setAll N r.hdrs s₀.next = { w₀ with hdrs := H } := net_setAll http1 n r.hdrs w₀ hnd
    rw [e]
    show Writer.writeHeader N raises _ r.code = _
    simp only [Writer.writeHeader, Writer.writeHeaderImpl]
    rw [if_neg (by omega), if_neg (by omega), if_neg (by simp [Writer.init, s₀])]
    have e2 : N.writeHeader { w₀ with hdrs := H } r.code = (w₂, .ret ()) := by
      have e3 : N.writeHeader = NetW.writeHeader := rfl
      rw [e3]
      unfold NetW.writeHeader
      rw [if_neg (by simp [w₀]), if_neg (by omega)]
      show (({ w₀ with hdrs := H, status := r.code, declared := declaredLength H } : NetW), (Res.ret () : Res Unit)) = _
      rw [show declaredLength H = declaredLength r.hdrs from declared_filter r.hdrs]
    simp only [e2]
    rfl
  have hI : NetInv isHEAD r.code (declaredLength r.hdrs) H w₂ := ⟨rfl, rfl, rfl, rfl, fun _ => rfl, fun n _ => Nat.zero_le _, fun n _ _ _ _ => rfl⟩
  have hc0 : r.code ≠ 0 := by omega
  obtain ⟨c1, c2, c3⟩ := writer_ioCopy_pres (N := N) (I := NetInv isHEAD r.code (declaredLength r.hdrs) H)
    (fun w d h => netInv_write hc0 w d h) (fun w h => netInv_copy hc0 n w 0 h) raises kind B fuel r.body s₂ hc0 (by show (0 : Int) ≤ 0; omega) hI
  dsimp only
  show NetInv _ _ _ _ (serve (Writer.ops N raises kind) B fuel r s₀).2.1.next ∧ _
  change _ ∧ (serve (Writer.ops N raises kind) B fuel r s₀).2.1.status = _ ∧ 0 ≤ (serve (Writer.ops N raises kind) B fuel r s₀).2.1.bytes
  unfold serve
  rw [a1]
  dsimp only
  rw [hwh]
  dsimp only
  rcases hq : ioCopy (Writer.ops N raises kind) B fuel r.body s₂ with ⟨b, s, q⟩
  rw [hq] at c1 c2 c3
  rcases q with ⟨m, e⟩ | p | _
  · dsimp only
    rcases B.close b with ⟨b', q⟩
    cases q <;> exact ⟨c1, c2, c3⟩
  · exact ⟨c1, c2, c3⟩
  · exact ⟨c1, c2, c3⟩

/-- Any Body: the status and the headers of the Response are sent; the body is no longer than it may be. -/
theorem overNet_inv (B : BodyOps β) (http1 : Bool) (n : Nat) (raises isHEAD : Bool) (fuel : Nat) (assertErr : Bool)
    (onPanic : PanicArg → Res Unit) (r : Resp β) (h1 : 100 ≤ r.code) (h2 : r.code ≤ 999) (hnd : (r.hdrs.map Prod.fst).Nodup) :
    NetInv isHEAD r.code (declaredLength r.hdrs) (r.hdrs.filter fun e => e.1 ≠ headerPush)
      (overNet http1 n raises isHEAD B fuel assertErr onPanic (.resp r)).1 := by
  let N := netRW http1 n
  let kind := Writer.kindFor N
  obtain ⟨i1, i2, -⟩ := netServe_inv B http1 n raises isHEAD kind fuel r h1 h2 hnd
  have key : ∀ (s : WState NetW) p, s.status ≠ 0 → (deferred (Writer.wr N raises kind) assertErr onPanic p s).1 = s := by
    intro s p hs
    have hm : (Writer.wr N raises kind).maybeWriteHeader s 500 = (s, .ret ()) := by
      show Writer.maybeWriteHeader N s 500 = _
      unfold Writer.maybeWriteHeader
      rw [if_neg (by omega), if_neg (by omega), if_pos hs]
    unfold deferred
    rw [hm]
    dsimp only
    split
    · rfl
    · cases p <;> rfl
  show NetInv _ _ _ _ (adaptor (Writer.wr N raises kind) B fuel assertErr onPanic (.resp r) (Writer.init { isHEAD := isHEAD } isHEAD)).1.next
  have et : (Writer.wr N raises kind).toRW = Writer.ops N raises kind := rfl
  rcases hq : serve (Writer.ops N raises kind) B fuel r (Writer.init { isHEAD := isHEAD } isHEAD) with ⟨b, s, q⟩
  rw [hq] at i1 i2
  dsimp only at i1 i2
  have hs : s.status ≠ 0 := by omega
  have fin : ∀ o, handle (Writer.wr N raises kind) B fuel (.resp r) (Writer.init { isHEAD := isHEAD } isHEAD) = (s, o) →
      (adaptor (Writer.wr N raises kind) B fuel assertErr onPanic (.resp r) (Writer.init { isHEAD := isHEAD } isHEAD)).1 = s := by
    intro o ho
    unfold adaptor
    rw [ho]
    rcases o with u | p | _
    · exact key s _ hs
    · exact key s _ hs
    · rfl
  rcases q with o | p | _
  · cases o with
    | none => rw [fin (.ret ()) (by simp only [handle, et, hq])]; exact i1
    | some e => rw [fin (.panic (.error e)) (by simp only [handle, et, hq])]; exact i1
  · rw [fin (.panic p) (by simp only [handle, et, hq])]; exact i1
  · rw [fin .hang (by simp only [handle, et, hq])]; exact i1

/-- A handler that panics: an empty response with status 500. -/
theorem overNet_panic (B : BodyOps β) (http1 : Bool) (n : Nat) (raises isHEAD : Bool) (fuel : Nat) (assertErr : Bool)
    (onPanic : PanicArg → Res Unit) (p : Panic) :
    (overNet http1 n raises isHEAD B fuel assertErr onPanic (.panic p)).1 = { isHEAD := isHEAD, status := 500 } := by
  cases p <;> rfl

end Verif
