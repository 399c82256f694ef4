import Verif.Spec.Http
import Verif.Spec.Metrics
import Verif.Spec.Decimal

/-!
# When everything goes well

A Body that delivers its bytes, and a client that takes them.  Nothing here mentions the model of the Writer, of `Serve` or of the Adaptor.
-/

set_option autoImplicit false

namespace Verif.Spec
variable {β ω : Type}

/-- A run of `WriteTo` against a writer that takes everything: it writes exactly `C`, reports no error, and leaves a Body whose `Close` returns nil. -/
def WTGives (B : BodyOps β) : WT β → List Byte → Prop
  | .done b _ err, C => err = none ∧ C = [] ∧ (B.close b).2 = .ret none
  | .write _ d cont, C => ∃ C', C = d ++ C' ∧ WTGives B (cont d.length none) C'
  | _, _ => False

/-- A Body that in states satisfying `P b C` is going to deliver exactly `C`, with buffers of up to `K` bytes: every `Read` returns, with
some bytes or with the end of file, which it reports after the last byte (or with it); after that `Close` returns nil. -/
structure Lively (B : BodyOps β) (P : β → List Byte → Prop) (K : Nat) : Prop where
  read : ∀ b C k, 0 < k → k ≤ K → P b C → ∃ b' d e C', B.read b k = (b', .ret (d, e)) ∧ d.length ≤ k ∧ C = d ++ C' ∧ P b' C' ∧
    (e = none ∧ d ≠ [] ∨ e = some .eof ∧ C' = [])
  writeTo : B.isWriterTo = true → ∀ b C, P b C → WTGives B (B.writeTo b) C
  close : ∀ b, P b [] → (B.close b).2 = .ret none

/-- A run of `ReadFrom` against a source that still has `C`, after `n` bytes: it reads with buffers of 1 to `K` bytes until the end of
file, and then returns the number of bytes and nil. -/
def RFEats (K : Nat) : RF ω → Nat → List Byte → Prop
  | .read _ k cont, n, C => 0 < k ∧ k ≤ K ∧ ∀ d C', C = d ++ C' → d.length ≤ k →
      (d ≠ [] → RFEats K (cont d none) (n + d.length) C') ∧
      (C' = [] → ∃ w, cont d (some .eof) = .done w (n + d.length : Nat) none)
  | _, _, _ => False

/-- A client that takes everything, in particular the body `C`. -/
structure Obliging (N : RW ω) (C : List Byte) (K : Nat) : Prop where
  writeHeader : ∀ w c, 100 ≤ c → c ≤ 999 → (N.writeHeader w c).2 = .ret ()
  write : ∀ w d, (N.write w d).2 = .ret (d.length, none)
  push : N.isPusher = true → ∀ w u, (N.push w u).2 = .ret none ∨ (N.push w u).2 = .ret (some .notSupported)
  readFrom : N.isReaderFrom = true → ∀ w, RFEats K (N.readFrom w) 0 C

/-- The conversation with the client: the pushes, the headers, the status, and then exactly the bytes `C`, all of them accepted. -/
structure Conversation (log : List WEv) (urls : List GoStr) (hdrs : List (GoStr × List GoStr)) (code : Int) (C : List Byte) : Prop where
  ex : ∃ P T, log = P ++ headerEvents hdrs ++ .status code :: T ∧ PushesOk P ∧ pushes P = urls ∧ (∀ e ∈ T, passesBody e = true) ∧
    handed T = C ∧ accepted T = C.length

/-- A request that was answered completely: what the client saw, what the metrics say, and how `ServeHTTP` ended. -/
structure Answered (x : List WEv × List MEv × Res Unit) (urls : List GoStr) (hdrs : List (GoStr × List GoStr)) (code : Int) (C : List Byte) : Prop where
  conversation : Conversation x.1 urls hdrs code C
  metrics : ∃ l, decimal l = some code ∧ x.2.1 = [.requestsTotal l, .latencyTotal l, .recvBytesTotal l 0, .sendBytesTotal l C.length,
    .latencyHist, .recvBytesHist 0, .sendBytesHist C.length]
  returned : x.2.2 = .ret ()

end Verif.Spec
