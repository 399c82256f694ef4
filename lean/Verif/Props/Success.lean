import Verif.Proofs.Success
import Verif.Proofs.Lively
import Verif.Props.Adaptor

/-!
# C55: when everything goes well, the request is answered completely

`C55_serve`: a Response served to a client.  `C55_request`: a handler's Response served by the Adaptor: exactly one status, the
headers before it, the whole body after it, the right numbers in the metrics, and no panic.  `C55_bytes`, `C55_readerAt`,
`C55_seeker`, `C55_stream`: for the Bodies of this repository.
-/

set_option autoImplicit false

namespace Verif
open Spec
variable {β ω : Type}

theorem conversation_of {P log : List WEv} {hdrs : List (GoStr × List GoStr)} {code : Int} {urls : List GoStr} {C : List Byte}
    {s : Logged WEv ω} (h1 : PushesOk P) (h2 : pushes P = urls) (hs : Took (P ++ headerEvents hdrs ++ [.status code]) s C)
    (hl : s.log = log) : Conversation log urls hdrs code C := by
  obtain ⟨T, h3, h4, h5, h6⟩ := hs
  exact ⟨P, T, by rw [← hl, h3]; simp, h1, h2, h4, h5, h6⟩

/-- **C55.** A Response with a Body that delivers `C`, served to a client that takes it: the pushes, the headers, one status, then exactly `C`; the outcome is nil. -/
theorem C55_serve {N : RW ω} {C : List Byte} {K : Nat} (hN : Obliging N C K) (hK : 32768 ≤ K) {B : BodyOps β} {P : β → List Byte → Prop}
    (hB : Lively B P K) (fuel : Nat) (hf : C.length < fuel) (r : Resp β) (hP : P r.body C) (h1 : 100 ≤ r.code) (h2 : r.code ≤ 999) (w : ω) :
    (serve N.record B fuel r ⟨w, []⟩).2.2 = .ret none ∧
    Conversation (serve N.record B fuel r ⟨w, []⟩).2.1.log (if N.isPusher then hdrGet r.hdrs (lit "Push") else []) r.hdrs r.code C := by
  obtain ⟨w₁, Q, a1, a2, a3, a4⟩ := oblige_head hN r.hdrs ⟨w, []⟩
  have hwh : N.record.writeHeader (setAll N.record r.hdrs w₁) r.code =
      (⟨(N.writeHeader (setAll N.record r.hdrs w₁).inner r.code).1, (setAll N.record r.hdrs w₁).log ++ [.status r.code]⟩, .ret ()) := by
    simp only [RW.record, hN.writeHeader _ _ h1 h2]
  obtain ⟨b1, b2⟩ := serve_copied (B := B) (fuel := fuel) (ok := Took (Q ++ headerEvents r.hdrs ++ [.status r.code])) (C := C) a1 hwh
    (takes_ioCopy hB hK (takes_record hN _) fuel _ _ hP ⟨[], by simp [a2], by simp, rfl, rfl⟩ hf)
  exact ⟨b1, conversation_of a3 a4 b2 rfl⟩

/-- What is sent of the body. -/
def Spec.sentBody (isHEAD : Bool) (code : Int) (C : List Byte) : List Byte := if isHEAD = true ∨ code = 204 then [] else C

/-- A Response served well through a new Writer. -/
theorem serve_through {N : RW ω} {C : List Byte} {K : Nat} (hN : Obliging N C K) (hK : 32768 ≤ K) {B : BodyOps β} {P : β → List Byte → Prop}
    (hB : Lively B P K) (raises isHEAD : Bool) (fuel : Nat) (hf : C.length < fuel) (r : Resp β) (hP : P r.body C) (h1 : 100 ≤ r.code)
    (h2 : r.code ≤ 999) (w : ω) (kind : WKind) (hk : kind = .fancy → N.isReaderFrom = true) :
    let x := serve (Writer.ops N.record raises kind) B fuel r (Writer.init ⟨w, []⟩ isHEAD)
    x.2.2 = .ret none ∧ x.2.1.status = r.code ∧ x.2.1.bytes = (sentBody isHEAD r.code C).length ∧
    Conversation x.2.1.next.log (if N.isPusher then hdrGet r.hdrs (lit "Push") else []) r.hdrs r.code (sentBody isHEAD r.code C) := by
  obtain ⟨w₁, Q, a1, a2, a3, a4⟩ := oblige_head hN r.hdrs ⟨w, []⟩
  have a1' : (if (Writer.ops N.record raises kind).isPusher then pushAll (Writer.ops N.record raises kind) (hdrGet r.hdrs headerPush)
      (Writer.init ⟨w, []⟩ isHEAD) else (Writer.init ⟨w, []⟩ isHEAD, none)) = (({ Writer.init (⟨w, []⟩ : Logged WEv ω) isHEAD with next := w₁ } : WState (Logged WEv ω)), none) := by
    have : (Writer.ops N.record raises kind).isPusher = true := rfl
    rw [if_pos this, through_pushAll]
    have e : (Writer.init (⟨w, []⟩ : Logged WEv ω) isHEAD).next = ⟨w, []⟩ := rfl
    simp only [e, a1]
  let w₂ : Logged WEv ω :=
    ⟨(N.writeHeader (setAll N.record r.hdrs w₁).inner r.code).1, (setAll N.record r.hdrs w₁).log ++ [.status r.code]⟩
  let s₂ : WState (Logged WEv ω) := { Writer.init (⟨w, []⟩ : Logged WEv ω) isHEAD with next := w₂, status := r.code }
  have hwh : (Writer.ops N.record raises kind).writeHeader (setAll (Writer.ops N.record raises kind) r.hdrs
      ({ Writer.init (⟨w, []⟩ : Logged WEv ω) isHEAD with next := w₁ } : WState (Logged WEv ω))) r.code = (s₂, .ret ()) := by
    rw [through_setAll]
    show Writer.writeHeader N.record raises _ r.code = _
    simp only [Writer.writeHeader, Writer.writeHeaderImpl]
    rw [if_neg (by omega), if_neg (by omega), if_neg (by simp [Writer.init])]
    simp only [RW.record, hN.writeHeader _ _ h1 h2]
    rfl
  have hlog : w₂.log = Q ++ headerEvents r.hdrs ++ [.status r.code] := by simp [w₂, a2]
  have hs0 : s₂.status ≠ 0 := by show r.code ≠ 0; omega
  dsimp only
  by_cases hm : isHEAD = true ∨ r.code = 204
  · obtain ⟨b1, b2⟩ := serve_copied (B := B) (fuel := fuel) (C := C) a1' hwh
      (takes_ioCopy hB hK (takes_mute N.record C K raises kind s₂ ⟨hm, hs0⟩) fuel _ _ hP rfl hf)
    simp only [sentBody, if_pos hm]
    rw [b2]
    exact ⟨b1, rfl, rfl, conversation_of a3 a4 (s := w₂) ⟨[], by rw [hlog]; simp, by simp, rfl, rfl⟩ rfl⟩
  · have hp : Passing s₂ := ⟨by show isHEAD = false; cases isHEAD <;> simp at hm ⊢, hs0, fun h => hm (.inr h)⟩
    obtain ⟨b1, b2, b3⟩ := serve_copied (B := B) (fuel := fuel) (C := C) a1' hwh
      (takes_ioCopy hB hK (takes_writer (takes_record hN (Q ++ headerEvents r.hdrs ++ [.status r.code])) raises kind hk s₂ hp) fuel _ _ hP
        ⟨rfl, ⟨[], by simp [s₂, hlog], by simp, rfl, rfl⟩⟩ hf)
    simp only [sentBody, if_neg hm]
    refine ⟨b1, ?_, ?_, conversation_of a3 a4 b3 rfl⟩
    · rw [b2]
    · rw [b2]

/-- **C55.** A handler returns a Response with a legal status whose Body delivers `C`; the client takes what it is given.  Then
`ServeHTTP` returns; the client got the pushes, the headers, that status, and after it exactly `C` (nothing for HEAD requests and
status 204); one request was counted with that status and that many bytes, and nothing was counted or reported as a panic. -/
theorem C55_request {N : RW ω} {C : List Byte} {K : Nat} (hN : Obliging N C K) (hK : 32768 ≤ K) {B : BodyOps β} {P : β → List Byte → Prop}
    (hB : Lively B P K) (raises isHEAD : Bool) (fuel : Nat) (hf : C.length < fuel) (assertErr : Bool) (onPanic : PanicArg → Res Unit)
    (r : Resp β) (hP : P r.body C) (h1 : 100 ≤ r.code) (h2 : r.code ≤ 999) (w : ω) :
    Answered (request N raises isHEAD B fuel assertErr onPanic (.resp r) w) (if N.isPusher then hdrGet r.hdrs (lit "Push") else [])
      r.hdrs r.code (sentBody isHEAD r.code C) := by
  have hk : Writer.kindFor N.record = .fancy → N.isReaderFrom = true := by
    unfold Writer.kindFor
    split
    · rename_i h; simp only [Bool.and_eq_true] at h; exact fun _ => h.2
    · split <;> simp
  obtain ⟨a1, a2, a3, a4⟩ := serve_through hN hK hB raises isHEAD fuel hf r hP h1 h2 w _ hk
  rw [request_eq]
  have et : (Writer.wr N.record raises (Writer.kindFor N.record)).toRW = Writer.ops N.record raises (Writer.kindFor N.record) := rfl
  rcases hq : serve (Writer.ops N.record raises (Writer.kindFor N.record)) B fuel r (Writer.init ⟨w, []⟩ isHEAD) with ⟨b, s', o⟩
  rw [hq] at a1 a2 a3 a4
  dsimp only at a1 a2 a3 a4
  subst a1
  have hh : handle (Writer.wr N.record raises (Writer.kindFor N.record)) B fuel (.resp r) (Writer.init ⟨w, []⟩ isHEAD) = (s', .ret ()) := by
    simp only [handle, et, hq]
  have hm : (Writer.wr N.record raises (Writer.kindFor N.record)).maybeWriteHeader s' 500 = (s', .ret ()) := by
    show Writer.maybeWriteHeader N.record s' 500 = _
    unfold Writer.maybeWriteHeader
    rw [if_neg (by omega), if_neg (by omega), if_pos (by rw [a2]; omega)]
  have hb : (Writer.wr N.record raises (Writer.kindFor N.record)).bytesWritten s' = s'.bytes := rfl
  have hs : (Writer.wr N.record raises (Writer.kindFor N.record)).status s' = s'.status := rfl
  have hd : adaptor (Writer.wr N.record raises (Writer.kindFor N.record)) B fuel assertErr onPanic (.resp r) (Writer.init ⟨w, []⟩ isHEAD) =
      (s', [.requestsTotal (itoa r.code), .latencyTotal (itoa r.code), .recvBytesTotal (itoa r.code) 0,
        .sendBytesTotal (itoa r.code) (sentBody isHEAD r.code C).length, .latencyHist, .recvBytesHist 0,
        .sendBytesHist (sentBody isHEAD r.code C).length], .ret ()) := by
    simp only [adaptor, hh, deferred, hm, hb, hs, a2, a3]
    rw [if_neg (by omega)]
    rfl
  rw [hd]
  exact ⟨a4, ⟨itoa r.code, decimal_itoa _, rfl⟩, rfl⟩

end Verif
