import Verif.Spec.Success
import Verif.Model.ServeSteps

/-! # Goroutines that serve copies of one Body: what is asked of each of them -/

set_option autoImplicit false

namespace Verif.Spec
variable {β ω S : Type}

/-- A run of `ReadFrom` uses buffers of up to `K` bytes. -/
def RFModest (K : Nat) : RF ω → Prop
  | .read _ k cont => k ≤ K ∧ ∀ d e, RFModest K (cont d e)
  | .drain _ cont => ∀ n e, RFModest K (cont n e)
  | _ => True

/-- A client that, however it behaves otherwise (it may fail, panic, or answer nonsense), does not read with buffers larger than `K`. -/
def Modest (N : RW ω) (K : Nat) : Prop := ∀ w, RFModest K (N.readFrom w)

/-- A `WriteTo` that has written everything leaves the Body in a state where nothing is left. -/
def WTDrains (P : β → List Byte → Prop) : WT β → Prop
  | .done b _ _ => P b []
  | .write _ d cont => WTDrains P (cont d.length none)
  | _ => True

/-- The Bodies of a family can be shared: `P h s C` says that Body `h` is open and going to deliver `C`.  Calls of other Bodies (those
with `Ok`) do not change that. -/
structure Shareable (step : S → Op → S × Out) (drains : Bool) (P : Nat → S → List Byte → Prop) (K : Nat) (Ok : Op → Prop) : Prop where
  lively : ∀ h, Lively (BodyOps.ofFam step drains h) (P h) K
  drained : drains = true → ∀ h s C, P h s C → WTDrains (P h) ((BodyOps.ofFam step drains h).writeTo s)
  apart : ∀ h s C op, P h s C → Ok op → op.h ≠ h → P h (step s op).1 C
  read : ∀ h k, k ≤ K → Ok (.read h k)
  writeTo : drains = true → ∀ h f, Ok (.writeTo h f)
  close : ∀ h, Ok (.close h)
  copy : ∀ h s C, P h s C → ∃ s' h', step s (.copy h) = (s', .copied h') ∧ P h' s' C ∧ (∀ i C', P i s C' → P i s' C' ∧ i ≠ h')

/-- `n` copies of Body `h`. -/
def copies (step : S → Op → S × Out) (h : Nat) : Nat → S → S × List Nat
  | 0, s => (s, [])
  | n + 1, s => match step s (.copy h) with
    | (s', .copied h') => let r := copies step h n s'; (r.1, h' :: r.2)
    | (s', _) => copies step h n s'

/-- A goroutine that comes to its end if it has had enough turns, and cannot end otherwise than so: `Serve` returns nil, and the client is `good`. -/
structure Completes (x : Option (SPhase ω)) (enough : Prop) (good : ω → Prop) : Prop where
  ends : enough → ∃ w, x = some (.done w (.ret none))
  right : ∀ w o, x = some (.done w o) → o = .ret none ∧ good w

/-- Body `h` and any number of copies of it are served by as many goroutines, in any interleaving, also with calls of still other Bodies of the
family.  Whatever the others' clients do, a client that takes everything gets `C`. -/
def AllServed (step : S → Op → S × Out) (drains : Bool) (Ok : Op → Prop) (h : Nat) (s : S) (C : List Byte) (K : Nat) : Prop :=
  ∀ (n : Nat) (ω : Type) (jobs : List (Job (Logged WEv ω))) (ws : List ω), jobs.map (·.handle) = h :: (copies step h n s).2 → ws.length = jobs.length →
    (∀ j ∈ jobs, Modest j.client K) →
  ∀ ms : List CMove, (∀ op, .other op ∈ ms → Ok op ∧ op.h ∉ jobs.map (·.handle)) →
  ∀ (i : Nat) (j : Job (Logged WEv ω)) (N : RW ω), jobs[i]? = some j → j.client = N.record → Obliging N C K → 100 ≤ j.code → j.code ≤ 999 →
    Completes ((Crowd.run step drains jobs { fam := (copies step h n s).1, phases := ws.map fun w => .start ⟨w, []⟩ } ms).phases[i]?)
      (C.length + 5 ≤ turns i ms)
      fun w => Conversation w.log (if N.isPusher then hdrGet j.hdrs (lit "Push") else []) j.hdrs j.code C

end Verif.Spec
