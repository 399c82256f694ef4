import Verif.Model.TimeoutHandler
import Verif.Props.NetHttp

/-! # C86: an Adaptor in a `http.TimeoutHandler` -/

set_option autoImplicit false

namespace Verif
open Spec
variable {β σ : Type}

/-! ## What the Adaptor does -/

theorem time_pushAll (urls : List GoStr) (w : TimeW) : pushAll timeRW urls w = (w, none) := by
  induction urls with
  | nil => rfl
  | cons u urls ih =>
    have e : timeRW.push w u = (w, .ret (some .notSupported)) := rfl
    simp only [pushAll, e]
    simpa using ih

theorem time_setAll (hdrs : List (GoStr × List GoStr)) :
    ∀ w : TimeW, (w.hdrs.map Prod.fst ++ hdrs.map Prod.fst).Nodup →
      setAll timeRW hdrs w = { w with hdrs := w.hdrs ++ hdrs.filter fun e => e.1 ≠ headerPush } := by
  induction hdrs with
  | nil => intro w _; simp [setAll]
  | cons e hdrs ih =>
    intro w hnd
    simp only [setAll, List.foldl_cons] at ih ⊢
    by_cases h : e.1 ≠ headerPush
    · rw [if_pos h]
      have hx : e.1 ∉ w.hdrs.map Prod.fst := by
        intro hm
        rw [List.nodup_append] at hnd
        exact hnd.2.2 _ hm _ (by simp) rfl
      have e1 : timeRW.setHeader w e.1 e.2 = { w with hdrs := w.hdrs ++ [e] } := by
        show ({ w with hdrs := NetW.set e.1 e.2 w.hdrs } : TimeW) = _
        rw [netSet_new _ _ _ hx]
      rw [e1, ih]
      · simp [h]
      · simpa using hnd
    · rw [if_neg h, ih]
      · have : e.1 = headerPush := by simpa using h
        simp [this]
      · rw [List.map_cons] at hnd
        exact hnd.sublist (List.Sublist.append_left (List.sublist_cons_self _ _) _)

theorem copyHdrs_eq (l : List (GoStr × List GoStr)) (h : (l.map Prod.fst).Nodup) : copyHdrs l = l := by
  have key : ∀ (l m : List (GoStr × List GoStr)), (m.map Prod.fst ++ l.map Prod.fst).Nodup → l.foldl (fun m e => NetW.set e.1 e.2 m) m = m ++ l := by
    intro l
    induction l with
    | nil => intro m _; simp
    | cons e l ih =>
      intro m hnd
      have hx : e.1 ∉ m.map Prod.fst := by
        intro hm
        rw [List.nodup_append] at hnd
        exact hnd.2.2 _ hm _ (by simp) rfl
      rw [List.foldl_cons, netSet_new _ _ _ hx, ih]
      · simp
      · simpa using hnd
  simpa [copyHdrs] using key l [] (by simpa using h)

/-- Everything is kept. -/
theorem time_takes (code : Int) (hc : code ≠ 0) (H : List (GoStr × List GoStr)) (K : Nat) (C : List Byte) :
    Takes timeRW K (fun w l => w = { left := none, hdrs := H, code, buf := l }) C := by
  refine ⟨?_, fun h => by cases h⟩
  rintro w l d rfl
  refine ⟨_, ?_, rfl⟩
  have e : timeRW.write = TimeW.write := rfl
  rw [e]
  simp [TimeW.write, TimeW.timedOut, TimeW.tick, hc]

/-- Copying to a ResponseWriter that refuses everything. -/
theorem refused_ioCopy {ω : Type} {D : RW ω} {e : Err} {w : ω} (hw : ∀ d, (D.write w d).2 = .ret (0, some e)) (hr : D.isReaderFrom = false) {B : BodyOps β}
    {P : β → List Byte → Prop} {K : Nat} (hB : Lively B P K) (hK : 32768 ≤ K) (hQ : Quits B P) {C : List Byte} (hC : C ≠ []) {b : β} (hP : P b C) (fuel : Nat)
    (hf : C.length < fuel) : ∃ d n, (ioCopy D B fuel b w).2 = ((D.write w d).1, .ret (n, some e)) ∧ ∃ r, (B.close (ioCopy D B fuel b w).1).2 = .ret r := by
  unfold ioCopy
  by_cases h1 : B.isWriterTo = true
  · rw [if_pos h1]
    have g := hB.writeTo h1 b C hP
    have q := hQ.writeTo h1 b C hP
    cases ht : B.writeTo b with
    | done b' n err => rw [ht] at g; exact absurd g.2.1 hC
    | write b' d cont =>
      rw [ht] at q
      obtain ⟨b₂, n, h3, h4⟩ := q.1 e
      refine ⟨d, n, ?_⟩
      rcases hd : D.write w d with ⟨w', a⟩
      have := hw d
      rw [hd] at this
      dsimp only at this
      subst this
      simp only [runWT, hd, h3]
      exact ⟨trivial, h4⟩
    | panic b' p => rw [ht] at g; exact g.elim
    | hang b' => rw [ht] at g; exact g.elim
  · rw [if_neg h1, if_neg (by simp [hr])]
    cases fuel with
    | zero => omega
    | succ fuel =>
      obtain ⟨b', d, er, C', g1, g2, rfl, g4, g5⟩ := hB.read b C 32768 (by omega) hK hP
      have hd : d ≠ [] := by
        rintro rfl
        rcases g5 with ⟨-, h⟩ | ⟨-, rfl⟩
        · exact h rfl
        · exact hC rfl
      have hd0 : 0 < d.length := List.length_pos_iff.2 hd
      refine ⟨d, 0, ?_⟩
      rcases hw' : D.write w d with ⟨w', a⟩
      have := hw d
      rw [hw'] at this
      dsimp only at this
      subst this
      have hbad : decide ((0 : Int) < 0 ∨ (d.length : Int) < 0) = false := by simp
      simp only [copyLoop, g1]
      rw [if_pos hd0, if_neg (by omega), hw']
      simp only [hbad, Bool.false_and, Bool.false_eq_true, if_false]
      exact ⟨rfl, hQ.close b' C' g4⟩

/-! A ResponseWriter that takes everything until it refuses with `e`; `ok w l`: the bytes `l` have been taken; `fin w l`: and then it refused. -/

structure Fickle {ω : Type} (D : RW ω) (ok fin : ω → List Byte → Prop) (e : Err) : Prop where
  write : ∀ w l d, ok w l → (∃ w', D.write w d = (w', .ret (d.length, none)) ∧ ok w' (l ++ d)) ∨ ∃ w', D.write w d = (w', .ret (0, some e)) ∧ fin w' l
  readFrom : D.isReaderFrom = false

/-- Either all of `C` has been copied, or a part, and then it was refused. -/
def CopiedOr {ω : Type} (B : BodyOps β) (ok fin : ω → List Byte → Prop) (e : Err) (C : List Byte) (x : β × ω × WAns) : Prop :=
  (∃ n, x.2.2 = .ret (n, none) ∧ ok x.2.1 C ∧ (B.close x.1).2 = .ret none) ∨
  ∃ n l, x.2.2 = .ret (n, some e) ∧ l <+: C ∧ fin x.2.1 l ∧ ∃ r, (B.close x.1).2 = .ret r

theorem fickle_ioCopy {ω : Type} {D : RW ω} {ok fin : ω → List Byte → Prop} {e : Err} (hD : Fickle D ok fin e) {B : BodyOps β}
    {P : β → List Byte → Prop} {K : Nat} (hB : Lively B P K) (hK : 32768 ≤ K) (hQ : Quits B P) {C : List Byte} {b : β} (hP : P b C) {w : ω} (hw : ok w []) (fuel : Nat)
    (hf : C.length < fuel) : CopiedOr B ok fin e C (ioCopy D B fuel b w) := by
  have viaWT : ∀ (t : WT β) (C l : List Byte) (w : ω), WTGives B t C → WTStops B t → ok w l → CopiedOr B ok fin e (l ++ C) (runWT D.write t w) := by
    intro t
    induction t with
    | done b n err =>
      rintro C l w ⟨rfl, rfl, h⟩ - hw
      exact .inl ⟨n, rfl, by simpa [runWT] using hw, h⟩
    | write b d cont ih =>
      rintro C l w ⟨C', rfl, h⟩ ⟨hs, hs'⟩ hw
      rcases hD.write w l d hw with ⟨w', h1, h2⟩ | ⟨w', h1, h2⟩
      · simp only [runWT, h1]
        have := ih d.length none C' (l ++ d) w' h hs' h2
        simpa using this
      · obtain ⟨b', n, h3, h4⟩ := hs e
        simp only [runWT, h1, h3]
        exact .inr ⟨n, l, rfl, List.prefix_append _ _, h2, h4⟩
    | panic b p => rintro C l w h; exact h.elim
    | hang b => rintro C l w h; exact h.elim
  have viaRead : ∀ (fuel : Nat) (C l : List Byte) (b : β) (w : ω) (n : Int), P b C → ok w l → C.length < fuel →
      CopiedOr B ok fin e (l ++ C) (copyLoop D B fuel b w n) := by
    intro fuel
    induction fuel with
    | zero => intro C l b w n _ _ h; omega
    | succ fuel ih =>
      intro C l b w n hP hw hf
      obtain ⟨b', d, er, C', h1, h2, rfl, h4, h5⟩ := hB.read b C 32768 (by omega) hK hP
      simp only [copyLoop, h1]
      by_cases hd : d = []
      · subst hd
        rcases h5 with ⟨-, h5⟩ | ⟨rfl, rfl⟩
        · exact absurd rfl h5
        · simp only [List.length_nil, gt_iff_lt, Nat.lt_irrefl, if_false, if_true, List.append_nil]
          exact .inl ⟨_, rfl, hw, hB.close b' h4⟩
      · have hd0 : 0 < d.length := List.length_pos_iff.2 hd
        rw [if_pos hd0, if_neg (by omega)]
        rcases hD.write w l d hw with ⟨w', h6, h7⟩ | ⟨w', h6, h7⟩
        · rw [h6]
          have hbad : decide ((d.length : Int) < 0 ∨ (d.length : Int) < d.length) = false := by simp
          simp only [hbad, Bool.false_and, Bool.false_eq_true, if_false, ne_eq, not_true_eq_false]
          rcases h5 with ⟨rfl, -⟩ | ⟨rfl, rfl⟩
          · have := ih C' (l ++ d) b' w' (n + d.length) h4 h7 (by simp at hf; omega)
            simpa using this
          · simp only [if_true, List.append_nil]
            exact .inl ⟨_, rfl, h7, hB.close b' h4⟩
        · rw [h6]
          have hbad : decide ((0 : Int) < 0 ∨ (d.length : Int) < 0) = false := by simp
          simp only [hbad, Bool.false_and, Bool.false_eq_true, if_false]
          exact .inr ⟨_, l, rfl, List.prefix_append _ _, h7, hQ.close b' C' h4⟩
  unfold ioCopy
  by_cases h1 : B.isWriterTo = true
  · rw [if_pos h1]
    simpa using viaWT _ C [] w (hB.writeTo h1 b C hP) (hQ.writeTo h1 b C hP) hw
  · rw [if_neg h1, if_neg (by simp [hD.readFrom])]
    simpa using viaRead fuel C [] b w 0 hP hw hf

theorem time_kind : Writer.kindFor timeRW = .basic := rfl

/-- Up to the copying: the headers are set and the status is written. -/
theorem time_begin (left : Option Nat) (raises isHEAD : Bool) (r : Resp β) (h1 : 200 ≤ r.code) (h2 : r.code ≤ 999) (hnd : (r.hdrs.map Prod.fst).Nodup) :
    let D := Writer.ops timeRW raises .basic
    let s₀ : WState TimeW := Writer.init { left } isHEAD
    (if D.isPusher then pushAll D (hdrGet r.hdrs headerPush) s₀ else (s₀, none)) = (s₀, none) ∧
    D.writeHeader (setAll D r.hdrs s₀) r.code = ({ s₀ with
      next := { left := left.map (· - 1), hdrs := r.hdrs.filter fun e => e.1 ≠ headerPush, code := if left = some 0 then 0 else r.code }, status := r.code }, .ret ()) := by
  intro D s₀
  refine ⟨?_, ?_⟩
  · have : D.isPusher = true := rfl
    rw [if_pos this, through_pushAll]
    have e : pushAll timeRW (hdrGet r.hdrs headerPush) s₀.next = (s₀.next, none) := time_pushAll _ _
    simp only [e, ite_self]
  · rw [through_setAll]
    have e : setAll timeRW r.hdrs s₀.next = { left, hdrs := r.hdrs.filter fun e => e.1 ≠ headerPush } :=
      time_setAll r.hdrs { left } (by simpa using hnd)
    rw [e]
    show Writer.writeHeader timeRW raises _ r.code = _
    simp only [Writer.writeHeader, Writer.writeHeaderImpl]
    rw [if_neg (by omega), if_neg (by omega), if_neg (by simp [Writer.init, s₀])]
    have e2 : timeRW.writeHeader { left, hdrs := r.hdrs.filter fun e => e.1 ≠ headerPush } r.code =
        ({ left := left.map (· - 1), hdrs := r.hdrs.filter fun e => e.1 ≠ headerPush, code := if left = some 0 then 0 else r.code }, .ret ()) := by
      have e3 : timeRW.writeHeader = TimeW.writeHeader := rfl
      rw [e3]
      unfold TimeW.writeHeader TimeW.setCode TimeW.timedOut
      rw [if_neg (by omega)]
      by_cases hl : left = some 0
      · simp [hl, TimeW.tick]
      · simp [hl, TimeW.tick]
    simp only [e2]

theorem time_final {left : Option Nat} {raises isHEAD : Bool} {B : BodyOps β} {fuel : Nat} {r : Resp β} (h1 : 200 ≤ r.code) (assertErr : Bool) (onPanic : PanicArg → Res Unit)
    {b : β} {s' : WState TimeW} {o : Option Err} (hs : serve (Writer.ops timeRW raises .basic) B fuel r (Writer.init { left } isHEAD) = (b, s', .ret o))
    (hst : s'.status = r.code) (hb : 0 ≤ s'.bytes) :
    serveHTTP raises isHEAD (.plain timeRW) B fuel assertErr onPanic (.resp r) { left } =
      (s'.next, metricsOf (itoa r.code) s'.bytes (o.map .error) assertErr, ended onPanic o) := by
  have := adaptor_served assertErr onPanic hs (by rw [hst]; omega) hb
  rw [hst] at this
  show (let x := adaptor (Writer.wr timeRW raises .basic) B fuel assertErr onPanic (.resp r) (Writer.init { left } isHEAD); (x.1.next, x.2)) = _
  rw [this]

/-- In time: everything is kept, and nothing is reported. -/
theorem time_kept {C : List Byte} {K : Nat} (hK : 32768 ≤ K) {B : BodyOps β} {P : β → List Byte → Prop} (hB : Lively B P K)
    (raises isHEAD : Bool) (fuel : Nat) (hf : C.length < fuel) (assertErr : Bool)
    (onPanic : PanicArg → Res Unit) (r : Resp β) (hP : P r.body C) (h1 : 200 ≤ r.code) (h2 : r.code ≤ 999) (hnd : (r.hdrs.map Prod.fst).Nodup) :
    serveHTTP raises isHEAD (.plain timeRW) B fuel assertErr onPanic (.resp r) { left := none } =
      ({ left := none, hdrs := r.hdrs.filter fun e => e.1 ≠ headerPush, code := r.code, buf := sentBody isHEAD r.code C },
        metricsOf (itoa r.code) (sentBody isHEAD r.code C).length none assertErr, .ret ()) := by
  obtain ⟨a1, a2⟩ := time_begin none raises isHEAD r h1 h2 hnd
  by_cases hm : isHEAD = true ∨ r.code = 204
  · obtain ⟨b1, b2⟩ := serve_copied (B := B) (fuel := fuel) (C := C) a1 a2
      (takes_ioCopy hB hK (takes_mute timeRW C K raises .basic _ ⟨hm, by show r.code ≠ 0; omega⟩) fuel _ _ hP rfl hf)
    rcases hq : serve (Writer.ops timeRW raises .basic) B fuel r (Writer.init { left := none } isHEAD) with ⟨b, s', o⟩
    rw [hq] at b1 b2
    dsimp only at b1 b2
    subst b1 b2
    rw [time_final h1 assertErr onPanic hq rfl (by show (0 : Int) ≤ 0; omega)]
    simp only [sentBody, if_pos hm]
    rfl
  · have hh : isHEAD = false := by cases isHEAD <;> simp at hm ⊢
    obtain ⟨b1, b2, b3⟩ := serve_copied (B := B) (fuel := fuel) (C := C) a1 a2
      (takes_ioCopy hB hK (takes_writer (time_takes r.code (by omega) (r.hdrs.filter fun e => e.1 ≠ headerPush) K C) raises .basic (fun h => by cases h)
        { (Writer.init { left := none } isHEAD : WState TimeW) with next := { left := none, hdrs := r.hdrs.filter fun e => e.1 ≠ headerPush, code := r.code }, status := r.code }
        ⟨hh, by show r.code ≠ 0; omega, fun h => hm (.inr h)⟩) fuel _ _ hP ⟨rfl, rfl⟩ hf)
    rcases hq : serve (Writer.ops timeRW raises .basic) B fuel r (Writer.init { left := none } isHEAD) with ⟨b, s', o⟩
    rw [hq] at b1 b2 b3
    dsimp only at b1 b2 b3
    subst b1
    have c1 : s'.status = r.code := by rw [b2]
    have c2 : s'.bytes = C.length := by rw [b2]
    rw [time_final h1 assertErr onPanic hq c1 (by omega), c2, b3]
    simp only [sentBody, if_neg hm]
    rfl

/-! ## In time -/

/-- What `net/http` does with what was kept. -/
theorem net_once (isHEAD : Bool) (H : List (GoStr × List GoStr)) (code : Int) (h1 : 200 ≤ code) (h2 : code ≤ 999) (C : List Byte) :
    let x := ((NetW.writeHeader { isHEAD, hdrs := H } code).1.write C).1
    x.isHEAD = isHEAD ∧ x.hdrs = H ∧ x.status = code ∧ x.declared = declaredLength H ∧
    x.body = if isHEAD = true ∨ room code (declaredLength H) C < C.length then [] else C := by
  have e : (NetW.writeHeader { isHEAD, hdrs := H } code).1 = { isHEAD, hdrs := H, status := code, declared := declaredLength H } := by
    unfold NetW.writeHeader
    rw [if_neg (by simp), if_neg (by omega)]
  rw [e]
  dsimp only
  have hb : bodyAllowed code = !decide (code = 204 ∨ code = 304) := by
    unfold bodyAllowed
    rw [if_neg (by omega)]
    by_cases h3 : code = 204 <;> by_cases h4 : code = 304 <;> simp [h3, h4]
  unfold NetW.write
  dsimp only
  rw [if_neg (show ¬ code = 0 by omega)]
  by_cases hC : C.length = 0
  · rw [if_pos hC]
    have : C = [] := List.length_eq_zero_iff.1 hC
    subst this
    simp
  · rw [if_neg hC, hb]
    by_cases hn : code = 204 ∨ code = 304
    · rw [if_pos (by simp [hn])]
      have : room code (declaredLength H) C < C.length := by simp only [room, if_pos hn]; omega
      simp [this]
    · rw [if_neg (by simp [hn])]
      cases hd : declaredLength H with
      | none =>
        simp only [exceeds, room, if_neg hn, Option.getD_none, Bool.false_eq_true, if_false]
        cases isHEAD <;> simp
      | some k =>
        by_cases hk : C.length > k
        · have : exceeds (some k) (0 + C.length) = true := by simp [exceeds]; omega
          rw [if_pos this]
          have h' : room code (some k) C < C.length := by simp only [room, if_neg hn, Option.getD_some]; omega
          rw [if_pos (.inr h')]
          exact ⟨rfl, rfl, rfl, rfl, rfl⟩
        · have : exceeds (some k) (0 + C.length) = false := by simp [exceeds]; omega
          rw [if_neg (by rw [this]; simp)]
          rw [Nat.zero_add] at this
          have h' : ¬ room code (some k) C < C.length := by simp only [room, if_neg hn, Option.getD_some]; omega
          cases isHEAD <;> simp [h', this]

/-- **C86.** The handler returns in time a Response whose Body delivers `C`.  The status and the headers (without `Push`) are on the wire, and the
metrics are those of a Response that was sent completely; nothing is reported.  The body is on the wire as a whole, if the status and the
Content-Length header allow it, and else nothing of it. -/
theorem C86_in_time {C : List Byte} {K : Nat} (hK : 32768 ≤ K) {B : BodyOps β} {P : β → List Byte → Prop} (hB : Lively B P K)
    (msg : List Byte) (raises isHEAD : Bool) (fuel : Nat) (hf : C.length < fuel) (assertErr : Bool)
    (onPanic : PanicArg → Res Unit) (r : Resp β) (hP : P r.body C) (h1 : 200 ≤ r.code) (h2 : r.code ≤ 999) (hnd : (r.hdrs.map Prod.fst).Nodup) :
    let x := underTimeout none false msg raises isHEAD B fuel assertErr onPanic (.resp r)
    x.1.isHEAD = isHEAD ∧ x.1.status = r.code ∧ x.1.declared = declaredLength r.hdrs ∧ x.1.hdrs = (r.hdrs.filter fun e => e.1 ≠ lit "Push") ∧
    x.1.body = (if room r.code (declaredLength r.hdrs) C < C.length then [] else sentBody isHEAD r.code C) ∧
    x.2.1 = metricsOf (itoa r.code) (sentBody isHEAD r.code C).length none assertErr ∧ x.2.2 = .ret () := by
  have hH : ((r.hdrs.filter fun e => e.1 ≠ headerPush).map Prod.fst).Nodup := hnd.sublist (List.Sublist.map _ List.filter_sublist)
  unfold underTimeout
  rw [time_kept hK hB raises isHEAD fuel hf assertErr onPanic r hP h1 h2 hnd]
  unfold timeoutServe
  rw [if_neg (by simp)]
  dsimp only
  rw [if_neg (show ¬ r.code = 0 by omega), copyHdrs_eq _ hH]
  obtain ⟨a1, a2, a3, a4, a5⟩ := net_once isHEAD (r.hdrs.filter fun e => e.1 ≠ headerPush) r.code h1 h2 (sentBody isHEAD r.code C)
  rw [declared_filter] at a4 a5
  refine ⟨a1, a3, a4, a2, ?_, rfl, rfl⟩
  rw [a5]
  by_cases hm : isHEAD = true ∨ r.code = 204
  · simp [sentBody, hm]
  · have hh : isHEAD = false := by cases isHEAD <;> simp at hm ⊢
    have hs : sentBody isHEAD r.code C = C := by simp only [sentBody, if_neg hm]
    rw [hs]
    simp [hh]

/-- **C86.** In time, the Responses that arrive intact are the same as without the `http.TimeoutHandler` (`C64_iff`). -/
theorem C86_iff {C : List Byte} {K : Nat} (hK : 32768 ≤ K) {B : BodyOps β} {P : β → List Byte → Prop} (hB : Lively B P K)
    (msg : List Byte) (raises isHEAD : Bool) (fuel : Nat) (hf : C.length < fuel) (assertErr : Bool)
    (onPanic : PanicArg → Res Unit) (r : Resp β) (hP : P r.body C) (h1 : 200 ≤ r.code) (h2 : r.code ≤ 999) (hnd : (r.hdrs.map Prod.fst).Nodup) :
    Intact (underTimeout none false msg raises isHEAD B fuel assertErr onPanic (.resp r)) isHEAD r.code C ↔ HasRoom isHEAD r.code (declaredLength r.hdrs) C := by
  obtain ⟨a1, a2, a3, a4, a5, a6, a7⟩ := C86_in_time hK hB msg raises isHEAD fuel hf assertErr onPanic r hP h1 h2 hnd
  generalize underTimeout none false msg raises isHEAD B fuel assertErr onPanic (.resp r) = x at a1 a2 a3 a4 a5 a6 a7 ⊢
  have calm : panicsCounted x.2.1 = 0 := by rw [a6]; exact (metricsOf_facts _ _ _ _).2.2.2.1
  by_cases hm : isHEAD = true ∨ r.code = 204
  · have hs : sentBody isHEAD r.code C = [] := by simp [sentBody, hm]
    have hb : x.1.body = [] := by rw [a5, hs, ite_self]
    refine ⟨fun _ => by rcases hm with h | h <;> simp [HasRoom, h], fun _ => ⟨?_, a2, by rw [hb, if_pos hm], calm, a7⟩⟩
    unfold Framed
    rw [a1, a2, if_pos (by rcases hm with h | h <;> simp [h]), hb]
  · have hs : sentBody isHEAD r.code C = C := by simp [sentBody, hm]
    rw [hs] at a5
    have hh : isHEAD = false := by cases isHEAD <;> simp at hm ⊢
    have h4 : r.code ≠ 204 := fun h => hm (.inr h)
    by_cases h3 : r.code = 304
    · have hr : room r.code (declaredLength r.hdrs) C = 0 := by simp [room, h3]
      rw [hr] at a5
      have hb : x.1.body = [] := by
        rw [a5]
        split
        · rfl
        · exact List.length_eq_zero_iff.1 (by omega)
      refine ⟨fun h => .inr (.inr (.inl ⟨h3, ?_⟩)), fun h => ⟨?_, a2, ?_, calm, a7⟩⟩
      · have := h.body
        rw [hb, if_neg hm] at this
        exact this.symm
      · unfold Framed
        rw [a1, a2, if_pos (by simp [h3]), hb]
      · rcases h with h | h | h | h
        · exact absurd (.inl h) hm
        · exact absurd h h4
        · rw [hb, if_neg hm, h.2]
        · exact absurd h3 h.1
    · have hr : room r.code (declaredLength r.hdrs) C = (declaredLength r.hdrs).getD C.length := by simp [room, h3, h4]
      rw [hr] at a5
      have hfr : Framed x.1 ↔ ∀ n, declaredLength r.hdrs = some n → x.1.body.length = n := by
        unfold Framed
        rw [a1, a2, a3, if_neg (by rintro (h | h | h) <;> simp_all)]
      refine ⟨fun h => .inr (.inr (.inr ⟨h3, fun n hn => ?_⟩)), fun h => ?_⟩
      · have e1 := hfr.1 h.framed n hn
        have e2 := h.body
        rw [if_neg hm] at e2
        rw [e2] at e1
        exact e1.symm
      · rcases h with h | h | h | ⟨-, h⟩
        · exact absurd (.inl h) hm
        · exact absurd h h4
        · exact absurd h.1 h3
        · have hb : x.1.body = C := by
            rw [a5]
            cases hd : declaredLength r.hdrs with
            | none => simp
            | some n => simp [h n hd]
          exact ⟨hfr.2 fun n hn => by rw [hb]; exact (h n hn).symm, a2, by rw [if_neg hm, hb], calm, a7⟩

/-- **C86.** But with a Content-Length header that is too small the client gets nothing of the body, and nobody is told (else that is reported:
`C64_too_long`): the metrics count the whole body as sent. -/
theorem C86_unnoticed {C : List Byte} {K : Nat} (hK : 32768 ≤ K) {B : BodyOps β} {P : β → List Byte → Prop} (hB : Lively B P K)
    (msg : List Byte) (raises : Bool) (fuel : Nat) (hf : C.length < fuel) (assertErr : Bool)
    (onPanic : PanicArg → Res Unit) (r : Resp β) (hP : P r.body C) (h1 : 200 ≤ r.code) (h2 : r.code ≤ 999) (h3 : r.code ≠ 204) (h4 : r.code ≠ 304)
    (hnd : (r.hdrs.map Prod.fst).Nodup) (k : Nat) (hk : declaredLength r.hdrs = some k) (hC : k < C.length) :
    let x := underTimeout none false msg raises false B fuel assertErr onPanic (.resp r)
    x.1.body = [] ∧ x.1.declared = some k ∧ x.2.1 = metricsOf (itoa r.code) C.length none assertErr ∧ panicsCounted x.2.1 = 0 ∧ panicsReported x.2.1 = [] ∧
    x.2.2 = .ret () := by
  obtain ⟨a1, a2, a3, a4, a5, a6, a7⟩ := C86_in_time hK hB msg raises false fuel hf assertErr onPanic r hP h1 h2 hnd
  have hs : sentBody false r.code C = C := by simp [sentBody, h3]
  rw [hs] at a6
  have f := metricsOf_facts (itoa r.code) C.length none assertErr
  refine ⟨?_, by rw [a3, hk], a6, by rw [a6, f.2.2.2.1]; rfl, by rw [a6, f.2.2.2.2.1], a7⟩
  rw [a5, if_pos (by simp [room, h3, h4, hk, hC])]

/-- **C86.** A handler that panics in time: if `OnPanic` returns, the client gets an empty 500; if `OnPanic` panics, nothing at all is sent, and the panic
goes on to the server, which cuts the connection (without the `http.TimeoutHandler` the empty 500 has been sent by then). -/
theorem C86_panics (p q : Panic) (hp : p.recovered = some p) (msg : List Byte) (raises isHEAD : Bool) (B : BodyOps β) (fuel : Nat) (assertErr : Bool)
    (onPanic : PanicArg → Res Unit) :
    let a := if p.isErr assertErr then PanicArg.itself p else .panicError p
    let x := underTimeout none false msg raises isHEAD B fuel assertErr onPanic (.panic p)
    x.2.1 = metricsOf (lit "0") 0 (some p) assertErr ∧
    (onPanic a = .ret () → x.1 = { isHEAD, status := 500 } ∧ x.2.2 = .ret ()) ∧
    (onPanic a = .panic q → x.1 = { isHEAD } ∧ x.2.2 = .panic q) := by
  have hg : p ≠ .goexit := by rintro rfl; cases hp
  have e : serveHTTP raises isHEAD (.plain timeRW) B fuel assertErr onPanic (.panic p) { left := none } =
      ({ left := none, code := 500 }, metricsOf (lit "0") 0 (some p) assertErr, onPanic (if p.isErr assertErr then PanicArg.itself p else .panicError p)) := by
    show (let x := adaptor (Writer.wr timeRW raises .basic) B fuel assertErr onPanic (.panic p) (Writer.init { left := none } isHEAD); (x.1.next, x.2)) = _
    unfold adaptor handle
    dsimp only
    rw [hp, if_neg hg]
    rfl
  intro a x
  have hx : x = timeoutServe isHEAD false msg ({ left := none, code := 500 }, metricsOf (lit "0") 0 (some p) assertErr, onPanic a) := by
    show timeoutServe _ _ _ _ = _
    rw [e]
  rw [hx]
  unfold timeoutServe
  rw [if_neg (by simp)]
  refine ⟨?_, fun h => ?_, fun h => ?_⟩
  · cases onPanic a <;> rfl
  · rw [h]; exact ⟨rfl, rfl⟩
  · rw [h]; exact ⟨rfl, rfl⟩

/-! ## Late -/

/-- **C86.** If the time is up, then the client gets 503 and the message, in a message that can be read to its end, whatever the handler has
done or will do: no header, no byte of its Response. -/
theorem C86_late (left : Option Nat) (msg : List Byte) (raises isHEAD : Bool) (B : BodyOps β) (fuel : Nat) (assertErr : Bool) (onPanic : PanicArg → Res Unit)
    (h : Handled β) :
    let x := underTimeout left true msg raises isHEAD B fuel assertErr onPanic h
    x.1.status = 503 ∧ x.1.hdrs = [] ∧ x.1.body = (if isHEAD then [] else msg) ∧ Framed x.1 ∧ x.2.2 = .ret () := by
  obtain ⟨a1, a2, a3, a4, a5⟩ := net_once isHEAD [] 503 (by omega) (by omega) msg
  have e : declaredLength [] = none := by decide +kernel
  rw [e] at a4 a5
  have hb : ((NetW.writeHeader { isHEAD } 503).1.write msg).1.body = if isHEAD then [] else msg := by
    refine a5.trans ?_
    simp [room]
  refine ⟨a3, a2, hb, ?_, rfl⟩
  show Framed ((NetW.writeHeader { isHEAD } 503).1.write msg).1
  unfold Framed
  split
  · rename_i h'
    rw [a1, a3] at h'
    rw [hb]
    rcases h' with h' | h' | h'
    · simp [h']
    · cases h'
    · cases h'
  · intro n hn
    rw [a4] at hn
    cases hn

/-- **C86.** If the time is up before the first byte of a Body with something in it is written, then the handler is told: the Body is given up,
`http.ErrHandlerTimeout` is counted and reported as a panic.  The label is the status of the Response, although the client got 503. -/
theorem C86_told {C : List Byte} (hC : C ≠ []) {K : Nat} (hK : 32768 ≤ K) {B : BodyOps β} {P : β → List Byte → Prop} (hB : Lively B P K) (hQ : Quits B P)
    (k : Nat) (hk : k ≤ 1) (msg : List Byte) (raises : Bool) (fuel : Nat) (hf : C.length < fuel) (assertErr : Bool)
    (onPanic : PanicArg → Res Unit) (r : Resp β) (hP : P r.body C) (h1 : 200 ≤ r.code) (h2 : r.code ≤ 999) (h3 : r.code ≠ 204)
    (hnd : (r.hdrs.map Prod.fst).Nodup) :
    let x := underTimeout (some k) true msg raises false B fuel assertErr onPanic (.resp r)
    x.1.status = 503 ∧ x.2.1 = metricsOf (itoa r.code) 0 (some (.error errHandlerTimeout)) assertErr ∧ panicsCounted x.2.1 = 1 ∧
    panicsReported x.2.1 = [.itself (.error errHandlerTimeout)] := by
  obtain ⟨a1, a2⟩ := time_begin (some k) raises false r h1 h2 hnd
  have hs : (underTimeout (some k) true msg raises false B fuel assertErr onPanic (.resp r)).2.1 =
      metricsOf (itoa r.code) 0 (some (.error errHandlerTimeout)) assertErr := by
    show (serveHTTP raises false (.plain timeRW) B fuel assertErr onPanic (.resp r) { left := some k }).2.1 = _
    let s₂ : WState TimeW := { (Writer.init { left := some k } false : WState TimeW) with
      next := { left := (some k).map (· - 1), hdrs := r.hdrs.filter fun e => e.1 ≠ headerPush, code := if (some k) = some 0 then 0 else r.code }, status := r.code }
    have hw : ∀ d, (Writer.ops timeRW raises .basic).write s₂ d = ({ s₂ with sawError := true }, .ret (0, some errHandlerTimeout)) := by
      intro d
      have ht : timeRW.write s₂.next d = (s₂.next, .ret (0, some errHandlerTimeout)) := by
        have e : timeRW.write = TimeW.write := rfl
        have : s₂.next.timedOut = true := by simp [TimeW.timedOut, s₂]; omega
        rw [e]
        simp [TimeW.write, this]
      show Writer.write timeRW s₂ d = _
      simp only [Writer.write, passing_maybe timeRW s₂ (show r.code ≠ 0 by omega)]
      rw [if_neg (by simp [s₂, Writer.init, h3]), ht]
      simp [s₂, Writer.init]
    obtain ⟨d, n, b1, b2⟩ := refused_ioCopy (D := Writer.ops timeRW raises .basic) (w := s₂) (e := errHandlerTimeout) (fun d => by rw [hw]) rfl hB hK hQ hC hP fuel hf
    rw [hw] at b1
    have hq : ∃ b, serve (Writer.ops timeRW raises .basic) B fuel r (Writer.init { left := some k } false) =
        (b, { s₂ with sawError := true }, .ret (some errHandlerTimeout)) := by
      unfold serve
      rw [a1]
      dsimp only
      rw [a2]
      dsimp only
      rcases hx : ioCopy (Writer.ops timeRW raises .basic) B fuel r.body s₂ with ⟨b', w', q⟩
      rw [hx] at b1 b2
      obtain ⟨r', b2⟩ := b2
      dsimp only at b1 b2
      cases b1
      rcases hc : B.close b' with ⟨b'', q⟩
      rw [hc] at b2
      dsimp only at b2
      subst b2
      dsimp only
      rw [hc]
      exact ⟨_, rfl⟩
    obtain ⟨b, hq⟩ := hq
    rw [time_final h1 assertErr onPanic hq rfl (by show (0 : Int) ≤ 0; omega)]
    rfl
  have f := metricsOf_facts (itoa r.code) 0 (some (.error errHandlerTimeout)) assertErr
  exact ⟨(C86_late (some k) msg raises false B fuel assertErr onPanic (.resp r)).1, hs, by rw [hs, f.2.2.2.1]; simp,
    by rw [hs, f.2.2.2.2.1]; simp [Panic.isErr]⟩

/-- **C86.** If the time is up after the last `Write`, then nobody is told: the metrics are those of a Response that was sent completely, and the client
got 503. -/
theorem C86_too_late {C : List Byte} {K : Nat} (hK : 32768 ≤ K) {B : BodyOps β} {P : β → List Byte → Prop} (hB : Lively B P K)
    (msg : List Byte) (raises isHEAD : Bool) (fuel : Nat) (hf : C.length < fuel) (assertErr : Bool)
    (onPanic : PanicArg → Res Unit) (r : Resp β) (hP : P r.body C) (h1 : 200 ≤ r.code) (h2 : r.code ≤ 999) (hnd : (r.hdrs.map Prod.fst).Nodup) :
    let x := underTimeout none true msg raises isHEAD B fuel assertErr onPanic (.resp r)
    x.1.status = 503 ∧ x.2.1 = metricsOf (itoa r.code) (sentBody isHEAD r.code C).length none assertErr := by
  refine ⟨(C86_late none msg raises isHEAD B fuel assertErr onPanic (.resp r)).1, ?_⟩
  show (serveHTTP raises isHEAD (.plain timeRW) B fuel assertErr onPanic (.resp r) { left := none }).2.1 = _
  rw [time_kept hK hB raises isHEAD fuel hf assertErr onPanic r hP h1 h2 hnd]

/-- Until the time is up everything is kept; then everything is refused. -/
theorem time_fickle (raises : Bool) (s₀ : WState TimeW) (hp : Passing s₀) :
    Fickle (Writer.ops timeRW raises .basic)
      (fun s l => s.status = s₀.status ∧ s.isHEAD = s₀.isHEAD ∧ s.bytes = l.length ∧ s.next.left.isSome = s₀.next.left.isSome)
      (fun s l => s.status = s₀.status ∧ s.bytes = l.length ∧ s₀.next.left.isSome = true) errHandlerTimeout := by
  refine ⟨?_, rfl⟩
  rintro s l d ⟨h1, h2, h3, h4⟩
  have e : timeRW.write = TimeW.write := rfl
  have hm : Writer.maybeWriteHeader timeRW s 200 = (s, .ret ()) := passing_maybe timeRW s (by rw [h1]; exact hp.sent)
  have hb : ¬ (s.isHEAD = true ∨ s.status = 204) := by
    rw [h1, h2, hp.head]
    rintro (h | h)
    · cases h
    · exact hp.body h
  by_cases ht : s.next.timedOut = true
  · right
    have hw : timeRW.write s.next d = (s.next, .ret (0, some errHandlerTimeout)) := by rw [e]; simp [TimeW.write, ht]
    refine ⟨{ s with sawError := true }, ?_, h1, h3, ?_⟩
    · show Writer.write timeRW s d = _
      simp only [Writer.write, hm]
      rw [if_neg (by simpa using hb), hw]
      simp
    · have : s.next.left = some 0 := by simpa [TimeW.timedOut] using ht
      rw [← h4, this]; rfl
  · left
    have hw : ∃ w', timeRW.write s.next d = (w', .ret (d.length, none)) ∧ w'.left.isSome = s.next.left.isSome := by
      rw [e]
      unfold TimeW.write
      rw [if_neg ht]
      refine ⟨_, rfl, ?_⟩
      split
      · unfold TimeW.setCode
        rw [if_neg (by omega), if_neg ht]
        split <;> simp [TimeW.tick]
      · simp [TimeW.tick]
    obtain ⟨w', hw, hw'⟩ := hw
    refine ⟨{ s with next := w', bytes := s.bytes + d.length }, ?_, h1, h2, ?_, hw'.trans h4⟩
    · show Writer.write timeRW s d = _
      simp only [Writer.write, hm]
      rw [if_neg (by simpa using hb), hw]
      simp
    · show s.bytes + _ = _
      rw [h3]; simp

/-- **C86.** Whenever the time is up: either the whole Response is counted as sent under its own status and nothing is reported, or a part of it,
and `http.ErrHandlerTimeout` is counted and reported, once. -/
theorem C86_any {C : List Byte} {K : Nat} (hK : 32768 ≤ K) {B : BodyOps β} {P : β → List Byte → Prop} (hB : Lively B P K) (hQ : Quits B P)
    (left : Option Nat) (msg : List Byte) (raises isHEAD : Bool) (fuel : Nat) (hf : C.length < fuel) (assertErr : Bool)
    (onPanic : PanicArg → Res Unit) (r : Resp β) (hP : P r.body C) (h1 : 200 ≤ r.code) (h2 : r.code ≤ 999)
    (hnd : (r.hdrs.map Prod.fst).Nodup) :
    let x := underTimeout left true msg raises isHEAD B fuel assertErr onPanic (.resp r)
    x.2.1 = metricsOf (itoa r.code) (sentBody isHEAD r.code C).length none assertErr ∨
    (left ≠ none ∧ isHEAD = false ∧ r.code ≠ 204 ∧
      ∃ l, l <+: C ∧ x.2.1 = metricsOf (itoa r.code) l.length (some (.error errHandlerTimeout)) assertErr) := by
  obtain ⟨a1, a2⟩ := time_begin left raises isHEAD r h1 h2 hnd
  show (serveHTTP raises isHEAD (.plain timeRW) B fuel assertErr onPanic (.resp r) { left }).2.1 = _ ∨ _ ∧ _ ∧ _ ∧ ∃ l, _ ∧
    (serveHTTP raises isHEAD (.plain timeRW) B fuel assertErr onPanic (.resp r) { left }).2.1 = _
  by_cases hm : isHEAD = true ∨ r.code = 204
  · left
    obtain ⟨b1, b2⟩ := serve_copied (B := B) (fuel := fuel) (C := C) a1 a2
      (takes_ioCopy hB hK (takes_mute timeRW C K raises .basic _ ⟨hm, by show r.code ≠ 0; omega⟩) fuel _ _ hP rfl hf)
    rcases hq : serve (Writer.ops timeRW raises .basic) B fuel r (Writer.init { left } isHEAD) with ⟨b, s', o⟩
    rw [hq] at b1 b2
    dsimp only at b1 b2
    subst b1 b2
    rw [time_final h1 assertErr onPanic hq rfl (by show (0 : Int) ≤ 0; omega)]
    simp only [sentBody, if_pos hm]
    rfl
  · have hh : isHEAD = false := by cases isHEAD <;> simp at hm ⊢
    have h3 : r.code ≠ 204 := fun h => hm (.inr h)
    have hs : sentBody isHEAD r.code C = C := by simp only [sentBody, if_neg hm]
    rw [hs]
    generalize hs₂ : ({ (Writer.init { left } isHEAD : WState TimeW) with
      next := { left := left.map (· - 1), hdrs := r.hdrs.filter fun e => e.1 ≠ headerPush, code := if left = some 0 then 0 else r.code }, status := r.code } : WState TimeW) = s₂ at a2
    have hp : Passing s₂ := by
      subst hs₂
      exact ⟨hh, by show r.code ≠ 0; omega, h3⟩
    have e1 : s₂.status = r.code := by subst hs₂; rfl
    have e2 : s₂.bytes = 0 := by subst hs₂; rfl
    have e3 : s₂.next.left.isSome = left.isSome := by subst hs₂; simp
    have key := fickle_ioCopy (time_fickle raises s₂ hp) hB hK hQ hP (w := s₂) ⟨rfl, rfl, e2, rfl⟩ fuel hf
    rcases hx : ioCopy (Writer.ops timeRW raises .basic) B fuel r.body s₂ with ⟨b', w', q⟩
    rw [hx] at key
    have hsv : ∀ n err r', q = .ret (n, err) → (B.close b').2 = .ret r' →
        ∃ b, serve (Writer.ops timeRW raises .basic) B fuel r (Writer.init { left } isHEAD) = (b, w', .ret (if err = none then r' else err)) := by
      intro n err r' hq hc
      subst hq
      rcases hcl : B.close b' with ⟨b'', q⟩
      rw [hcl] at hc
      dsimp only at hc
      subst hc
      unfold serve
      rw [a1]
      dsimp only
      rw [a2]
      dsimp only
      rw [hx]
      dsimp only
      rw [hcl]
      exact ⟨_, rfl⟩
    rcases key with ⟨n, k1, ⟨k2, -, k3, -⟩, k4⟩ | ⟨n, l, k1, k2, ⟨k3, k4, k5⟩, r', k6⟩
    · left
      obtain ⟨b, hq⟩ := hsv n none none k1 k4
      dsimp only at k2 k3
      rw [time_final h1 assertErr onPanic hq (k2.trans e1) (by omega), k3]
      rfl
    · right
      obtain ⟨b, hq⟩ := hsv n _ r' k1 k6
      dsimp only at k3 k4 k5
      refine ⟨?_, hh, h3, l, k2, ?_⟩
      · rintro rfl
        rw [e3] at k5
        cases k5
      · rw [time_final h1 assertErr onPanic hq (k3.trans e1) (by omega), k4]
        rfl

/-! ## The Bodies of this repository -/

/-- **C86**, for `FromBytes` and `FromString` of a non-empty string. -/
theorem C86_bytes {data : List Byte} (hlen : data.length < 2 ^ 63) (hne : data ≠ []) (msg : List Byte)
    (raises isHEAD : Bool) (fuel : Nat) (hf : data.length < fuel) (assertErr : Bool) (onPanic : PanicArg → Res Unit) (code : Int) (h1 : 200 ≤ code)
    (h2 : code ≤ 999) (hdrs : List (GoStr × List GoStr)) (hnd : (hdrs.map Prod.fst).Nodup) (err : Option Err) :
    Intact (underTimeout none false msg raises isHEAD (BodyOps.ofFam MemFam.step true 0) fuel assertErr onPanic
      (.resp { code, hdrs, body := fromBytes data, err })) isHEAD code data ↔ HasRoom isHEAD code (declaredLength hdrs) data :=
  C86_iff (Nat.le_refl 32768) (mem_lively data hlen hne 0 _ (by omega)) msg raises isHEAD fuel hf assertErr onPanic
    { code, hdrs, body := fromBytes data, err } (mem_source_init data) h1 h2 hnd

/-- **C86**, for the first `m` bytes of a well-behaved `io.ReaderAt`. -/
theorem C86_readerAt {R : Rdr σ} {F : List Byte} {Inv : σ → Prop} (hR : IsReaderAt R F Inv) (hq : CloseNil R) (m : Nat)
    (hm : m ≤ F.length) (hm63 : m < 2 ^ 63) {st : σ} (hi : Inv st) (msg : List Byte)
    (raises isHEAD : Bool) (fuel : Nat) (hf : m < fuel) (assertErr : Bool) (onPanic : PanicArg → Res Unit) (code : Int) (h1 : 200 ≤ code)
    (h2 : code ≤ 999) (hdrs : List (GoStr × List GoStr)) (hnd : (hdrs.map Prod.fst).Nodup) (err : Option Err) :
    Intact (underTimeout none false msg raises isHEAD (BodyOps.ofFam (ReaderAtBody.step R) false 0) fuel assertErr onPanic
      (.resp { code, hdrs, body := ReaderAtBody.init st m, err })) isHEAD code (F.take m) ↔ HasRoom isHEAD code (declaredLength hdrs) (F.take m) :=
  C86_iff (Nat.le_refl 32768) (readerAt_lively hR hq m hm hm63 0 _ (by omega)) msg raises isHEAD fuel
    (by simp; omega) assertErr onPanic { code, hdrs, body := ReaderAtBody.init st m, err } (readerAt_source_init hi m hm) h1 h2 hnd

/-- **C86**, for the first `m` bytes of a well-behaved `io.ReadSeeker` that fills the buffer. -/
theorem C86_seeker {R : Rdr σ} {F : List Byte} {At : σ → Nat → Prop} (hR : IsFullSeeker R F At) (hq : CloseNil R) (m : Nat)
    (hm : m ≤ F.length) (hm63 : m < 2 ^ 63) {st : σ} {p : Nat} (hi : At st p) (msg : List Byte)
    (raises isHEAD : Bool) (fuel : Nat) (hf : m < fuel) (assertErr : Bool) (onPanic : PanicArg → Res Unit) (code : Int) (h1 : 200 ≤ code)
    (h2 : code ≤ 999) (hdrs : List (GoStr × List GoStr)) (hnd : (hdrs.map Prod.fst).Nodup) (err : Option Err) :
    Intact (underTimeout none false msg raises isHEAD (BodyOps.ofFam (SeekerBody.step R) false 0) fuel assertErr onPanic
      (.resp { code, hdrs, body := SeekerBody.init st m, err })) isHEAD code (F.take m) ↔ HasRoom isHEAD code (declaredLength hdrs) (F.take m) :=
  C86_iff (Nat.le_refl 32768) (seeker_lively hR hq m hm hm63 0 _ (by omega)) msg raises isHEAD fuel
    (by simp; omega) assertErr onPanic { code, hdrs, body := SeekerBody.init st m, err } ⟨_, _, psim_init ⟨p, hi⟩ hm, rfl, rfl, by simp [Cursor.rest]⟩ h1 h2 hnd

/-- **C86**, for a stream (its first `L` bytes if a length `L` was given) that comes to its end. -/
theorem C86_stream {R : Rdr σ} (hq : CloseNil R) {Inv : σ → List Byte → Prop} (hS : IsStream R .eof Inv) {b : Nat} {idle : σ → Nat}
    (hE : Eager R b idle) {st : σ} {T : List Byte} (hi : Inv st T) (L : Int) (loops : Nat) (hl : 98304 * (b + 1) + b < loops) (msg : List Byte)
    (raises isHEAD : Bool) (fuel : Nat) (hf : T.length < fuel) (assertErr : Bool) (onPanic : PanicArg → Res Unit) (code : Int)
    (h1 : 200 ≤ code) (h2 : code ≤ 999) (hdrs : List (GoStr × List GoStr)) (hnd : (hdrs.map Prod.fst).Nodup) (err : Option Err) :
    Intact (underTimeout none false msg raises isHEAD (BodyOps.ofFam (streamStep R loops) false 0) fuel assertErr onPanic
      (.resp { code, hdrs, body := streamInit st L, err })) isHEAD code (cut T L) ↔ HasRoom isHEAD code (declaredLength hdrs) (cut T L) := by
  have hc : (cut T L).length ≤ T.length := by
    unfold cut
    split
    · rw [List.length_take]; omega
    · exact Nat.le_refl _
  exact C86_iff (Nat.le_refl 32768) (stream_lively hq hS hE T L _ (by omega) loops (by omega) 0) msg raises
    isHEAD fuel (by omega) assertErr onPanic { code, hdrs, body := streamInit st L, err } (stream_source_init st T hi L) h1 h2 hnd

/-! ## Examples -/

def exTime (left : Option Nat) (late isHEAD : Bool) (code : Int) (cl : GoStr) : NetW × List MEv × Res Unit :=
  underTimeout left late (lit "late") false isHEAD (BodyOps.ofFam MemFam.step true 0) 100 true (fun _ => .ret ())
    (.resp { code, hdrs := [(lit "Content-Length", [cl]), (lit "Push", [lit "/a"])], body := fromBytes (lit "hello"), err := none })

/-- A Body with three bytes, whose `WriteTo` writes three times. -/
def thrice : BodyOps Unit where
  read b _ := (b, .ret ([], some .eof))
  close b := (b, .ret none)
  remaining _ := 3
  isWriterTo := true
  writeTo b := .write b (lit "x") fun n e => if e = none then .write b (lit "y") fun n' e => if e = none then .write b (lit "z") fun n'' e =>
    .done b (n + n' + n'') e else .done b (n + n') e else .done b n e

/-- In time. -/
example : (exTime none false false 200 (lit "5")).1 =
    { isHEAD := false, hdrs := [(lit "Content-Length", [lit "5"])], status := 200, declared := some 5, written := 5, body := lit "hello" } := by
  decide +kernel

/-- The hypotheses of `C86_bytes` are satisfied, and both sides are true. -/
example : Intact (exTime none false false 200 (lit "5")) false 200 (lit "hello") :=
  (C86_bytes (by decide +kernel) (by decide +kernel) (lit "late") false false 100 (by decide +kernel) true (fun _ => .ret ()) 200 (by decide)
    (by decide) [(lit "Content-Length", [lit "5"]), (lit "Push", [lit "/a"])] (by decide +kernel) none).2
    (.inr (.inr (.inr ⟨by decide, fun n hn => by
      have : declaredLength [(lit "Content-Length", [lit "5"]), (lit "Push", [lit "/a"])] = some 5 := by decide +kernel
      rw [this] at hn; cases hn; decide +kernel⟩)))

/-- What the ResponseWriter does with handlers that do not use a Writer: the first status counts, and `Write` begins with 200. -/
example : (((TimeW.writeHeader { left := none } 404).1.writeHeader 500).1.write (lit "a")).1 = { left := none, code := 404, buf := lit "a" } ∧
    ((TimeW.write { left := none } (lit "a")).1.write (lit "b")).1 = { left := none, code := 200, buf := lit "ab" } ∧
    (timeoutServe false false [] ({ left := none }, [], .ret ())).1.status = 200 := by
  decide +kernel

/-- A Pusher, but no more than that. -/
example : timeRW.isPusher = true ∧ timeRW.isFlusher = false ∧ timeRW.isReaderFrom = false ∧ timeRW.isHijacker = false ∧ timeRW.isCloseNotifier = false :=
  ⟨rfl, rfl, rfl, rfl, rfl⟩

/-- A panic. -/
example :
    let x := underTimeout none false (lit "late") false false thrice 100 true (fun _ => .panic (.value 7)) (.panic (.value 3))
    x.1.status = 0 ∧ x.2.2 = .panic (.value 7) :=
  have h := (C86_panics (.value 3) (.value 7) rfl (lit "late") false false thrice 100 true (fun _ => .panic (.value 7))).2.2 rfl
  ⟨by rw [h.1], h.2⟩

/-- Too small a Content-Length: nothing arrives, nothing is reported, and five bytes are counted. -/
example : (exTime none false false 200 (lit "4")).1.body = [] ∧ panicsReported (exTime none false false 200 (lit "4")).2.1 = [] ∧
    MEv.sendBytesTotal (lit "200") 5 ∈ (exTime none false false 200 (lit "4")).2.1 := by
  decide +kernel

/-- 304 with a Body: no panic, unlike without the `http.TimeoutHandler`. -/
example : (exTime none false false 304 (lit "5")).1.body = [] ∧ panicsReported (exTime none false false 304 (lit "5")).2.1 = [] := by
  decide +kernel

/-- The time is up before the first byte. -/
example : (exTime (some 1) true false 200 (lit "5")).1 = { isHEAD := false, status := 503, written := 4, body := lit "late" } ∧
    panicsReported (exTime (some 1) true false 200 (lit "5")).2.1 = [.itself (.error errHandlerTimeout)] ∧
    MEv.requestsTotal (lit "200") ∈ (exTime (some 1) true false 200 (lit "5")).2.1 := by
  decide +kernel

/-- Between two Writes of one Body: a part is counted. -/
example :
    let x := underTimeout (some 3) true (lit "late") false false thrice 100 true (fun _ => .ret ()) (.resp { code := 200, hdrs := [], body := (), err := none })
    panicsReported x.2.1 = [.itself (.error errHandlerTimeout)] ∧ MEv.sendBytesTotal (lit "200") 2 ∈ x.2.1 ∧ x.1.status = 503 := by
  decide +kernel

/-- The time is up after the last byte. -/
example : (exTime none true false 200 (lit "5")).1.status = 503 ∧ panicsReported (exTime none true false 200 (lit "5")).2.1 = [] ∧
    MEv.sendBytesTotal (lit "200") 5 ∈ (exTime none true false 200 (lit "5")).2.1 := by
  decide +kernel

/-- The hypotheses of `C86_told` are satisfied. -/
example : panicsReported (exTime (some 0) true false 200 (lit "5")).2.1 = [.itself (.error errHandlerTimeout)] :=
  (C86_told (by decide +kernel) (Nat.le_refl 32768) (mem_lively (lit "hello") (by decide +kernel) (by decide +kernel) 0 _ (by omega))
    (mem_quits (lit "hello") (by decide +kernel) (by decide +kernel) 0) 0 (by omega) (lit "late") false 100 (by decide +kernel) true (fun _ => .ret ())
    { code := 200, hdrs := [(lit "Content-Length", [lit "5"]), (lit "Push", [lit "/a"])], body := fromBytes (lit "hello"), err := none }
    (mem_source_init _) (by decide) (by decide) (by decide) (by decide +kernel)).2.2.2

end Verif
