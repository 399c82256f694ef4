import Verif.Props.CalmBody
import Verif.Props.Adaptor

/-! # C60: the Adaptor -/

set_option autoImplicit false

namespace Verif
open Spec
variable {β ω : Type} {P : Panic → Prop} {H : Prop} {C : Int → Prop}

theorem record_rf {Inv : ω → Prop} (t : RF ω) (ht : RFWithin P H Inv t) (l : List WEv) :
    RFWithin P H (fun s : Logged WEv ω => Inv s.inner) (t.record l) := by
  induction t generalizing l with
  | done w n err => exact ht
  | read w k cont ih => exact ⟨ht.1, fun d e hl => ih d e (ht.2 d e hl) _⟩
  | drain w cont ih => intro n e hl; exact ih n e (ht n e hl) _
  | panic w p => exact ht
  | hang w => exact ht

/-- Recording changes nothing. -/
theorem record_within {N : RW ω} {Fresh Inv : ω → Prop} (hN : ClientWithin P H C Fresh Inv N) :
    ClientWithin P H C (fun s => Fresh s.inner) (fun s => Inv s.inner) N.record where
  fresh s h := hN.fresh s.inner h
  setHeader s k v := hN.setHeader s.inner k v
  push h s url hi := hN.push h s.inner url hi
  writeHeader s code h hc := hN.writeHeader s.inner code h hc
  write s d h := hN.write s.inner d h
  flush h s hi := hN.flush h s.inner hi
  readFrom h s hi := record_rf _ (hN.readFrom h s.inner hi) _

/-- The handler and the sending of its Response. -/
theorem handle_within {N : RW ω} {Fresh Inv : ω → Prop} (hN : ClientWithin (fun p => p = .goexit → P .goexit) H StatusOk Fresh Inv N)
    {B : BodyOps β} {InvB : Nat → β → Prop} (hB : BodyWithin (fun p => p = .goexit → P .goexit) H InvB B) (n fuel : Nat) (hf : H ∨ n < fuel)
    (h : Handled β) (hr : ∀ r, h = .resp r → InvB n r.body) (hh : h = .hang → H) (hx : h = .panic .goexit → P .goexit)
    (raises isHEAD : Bool) (w : ω) (hfresh : Fresh w) :
    Within (fun p => p = .goexit → P .goexit) H (fun _ => True)
      (handle (Writer.wr N.record raises (Writer.kindFor N.record)) B fuel h (Writer.init ⟨w, []⟩ isHEAD)).2 := by
  cases h with
  | hang => exact hh rfl
  | panic p => intro e; exact hx (by rw [e])
  | resp r =>
    have hW := C60_writer (record_within hN) raises (C := fun _ => True) (fun _ _ => .inr nofun)
    have := C60_serve hW hB fuel n r trivial (Writer.init ⟨w, []⟩ isHEAD) ⟨rfl, hfresh⟩ (hr r rfl) hf
    simp only [handle]
    have e : (Writer.wr N.record raises (Writer.kindFor N.record)).toRW = Writer.ops N.record raises (Writer.kindFor N.record) := rfl
    rw [e]
    generalize serve (Writer.ops N.record raises (Writer.kindFor N.record)) B fuel r (Writer.init ⟨w, []⟩ isHEAD) = q at this
    obtain ⟨b, s, o⟩ := q
    cases o with
    | ret e => cases e <;> first | trivial | nofun
    | panic p => exact this
    | hang => exact this

/-- **C60.** A request that is handled by the Adaptor: whatever the handler and the Body and the client panic with, the call panics only if
`OnPanic` or the `WriteHeader` of the client does; it returns unless the handler, the Body, the client or `OnPanic` do not; and it ends the
goroutine only if one of these does. -/
theorem C60_adaptor {N : RW ω} {Fresh Inv : ω → Prop} (hN : ClientWithin (fun p => p = .goexit → P .goexit) H StatusOk Fresh Inv N)
    {B : BodyOps β} {InvB : Nat → β → Prop} (hB : BodyWithin (fun p => p = .goexit → P .goexit) H InvB B) (n fuel : Nat) (hf : H ∨ n < fuel)
    (h : Handled β) (hr : ∀ r, h = .resp r → InvB n r.body) (hh : h = .hang → H) (hx : h = .panic .goexit → P .goexit)
    (hw : ∀ w, Within P H (fun _ => True) (N.writeHeader w 500).2) (onPanic : PanicArg → Res Unit)
    (hp : ∀ a, Within P H (fun _ => True) (onPanic a)) (raises isHEAD assertErr : Bool) (w : ω) (hfresh : Fresh w) :
    Within P H (fun _ => True) (request N raises isHEAD B fuel assertErr onPanic h w).2.2 := by
  rw [request_eq]
  have hd := handle_within hN hB n fuel hf h hr hh hx raises isHEAD w hfresh
  obtain ⟨-, h1 | h1⟩ := adaptor_spec N raises (Writer.kindFor N.record) B fuel assertErr onPanic h _ (winvariant_init w isHEAD)
  · obtain ⟨-, -, ⟨h2, h3⟩ | ⟨w', h3⟩⟩ := h1
    · dsimp only
      rw [h3]
      rw [h2] at hd
      exact hd
    · dsimp only
      rw [← h3]
      exact hw w'
  · obtain ⟨-, -, -, -, -, h2⟩ := h1
    dsimp only
    rw [h2]
    split
    · split
      · rename_i he
        rw [he] at hd
        exact hd rfl
      · trivial
    · exact hp _

/-- **C60.** In particular, if nothing blocks or ends the goroutine, and `OnPanic` and the `WriteHeader` of the client do not panic, the Adaptor returns. -/
theorem C60_request {N : RW ω} {Fresh Inv : ω → Prop} (hN : ClientWithin (· ≠ .goexit) False StatusOk Fresh Inv N)
    {B : BodyOps β} {InvB : Nat → β → Prop} (hB : BodyWithin (· ≠ .goexit) False InvB B) (n fuel : Nat) (hf : n < fuel)
    (h : Handled β) (hr : ∀ r, h = .resp r → InvB n r.body) (hh : h ≠ .hang) (hx : h ≠ .panic .goexit)
    (hw : ∀ w, (N.writeHeader w 500).2 = .ret ()) (onPanic : PanicArg → Res Unit) (hp : ∀ a, onPanic a = .ret ())
    (raises isHEAD assertErr : Bool) (w : ω) (hfresh : Fresh w) :
    (request N raises isHEAD B fuel assertErr onPanic h w).2.2 = .ret () := by
  have := C60_adaptor (P := fun _ => False) hN hB n fuel (.inr hf) h hr (fun e => hh e) (fun e => hx e) (fun w => by rw [hw]; trivial) onPanic
    (fun a => by rw [hp]; trivial) raises isHEAD assertErr w hfresh
  cases hq : (request N raises isHEAD B fuel assertErr onPanic h w).2.2 with
  | ret u => rfl
  | panic p => rw [hq] at this; exact this.elim
  | hang => rw [hq] at this; exact this.elim

/-- **C60.** While the handler does not return, nothing is sent to the client, nothing is counted, and the call does not return either. -/
theorem C60_blocked (N : RW ω) (raises isHEAD : Bool) (B : BodyOps β) (fuel : Nat) (assertErr : Bool) (onPanic : PanicArg → Res Unit) (w : ω) :
    request N raises isHEAD B fuel assertErr onPanic .hang w = ([], [], .hang) := rfl

/-! Example: a client that panics if it is to write a `1` first. -/

def jumpyRW : RW Bool := { strictRW with writeHeader := fun _ _ => (true, .ret ()) }

theorem jumpyRW_within : ClientWithin (· ≠ .goexit) False StatusOk (fun w => w = false) (fun _ => True) jumpyRW where
  fresh _ _ := trivial
  setHeader _ _ _ := ⟨id, id⟩
  push _ _ _ _ := ⟨trivial, id⟩
  writeHeader w code h _ := trivial
  write w d _ := by
    simp only [jumpyRW, strictRW]
    split
    · exact nofun
    · exact ⟨Int.natCast_nonneg _, Int.le_refl _, trivial⟩
  flush _ _ _ := trivial
  readFrom h := by cases h

/-- Any status (also out of range), any headers, any content. -/
example (code : Int) (hdrs : List (GoStr × List GoStr)) (data : List Byte) (hlen : data.length < 2 ^ 63) (isHEAD : Bool) :
    (request jumpyRW true isHEAD (BodyOps.ofFam MemFam.step true 0) (data.length + 1) false (fun _ => .ret ())
      (.resp { code := code, hdrs := hdrs, body := fromBytes data }) false).2.2 = .ret () :=
  C60_request jumpyRW_within (C60_memory _ _ data hlen 0) data.length _ (Nat.lt_succ_self _) _
    (fun r e => by cases e; exact ⟨_, _, mem_init data, rfl, Nat.sub_le _ _⟩) (by simp) (by simp) (fun _ => rfl) _ (fun _ => rfl) true isHEAD false false rfl

/-- Such a panic is counted and reported. -/
example : (request jumpyRW true false (BodyOps.ofFam MemFam.step true 0) 3 false (fun _ => .ret ())
      (.resp { code := 200, hdrs := [], body := fromBytes [1, 2] }) false).2 =
    ([.panicsTotal, .requestsTotal (lit "200"), .latencyTotal (lit "200"), .recvBytesTotal (lit "200") 0, .sendBytesTotal (lit "200") 0,
      .latencyHist, .recvBytesHist 0, .sendBytesHist 0, .onPanic (.itself (.error (.ext 5)))], .ret ()) := by decide +kernel

end Verif
