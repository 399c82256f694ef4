import Verif.Model.IoCopy

/-! # What the log of a ResponseWriter says

Nothing here mentions the model of the Writer, of `Serve` or of the Adaptor. -/

set_option autoImplicit false

namespace Verif.Spec

/-- The codes given to `WriteHeader`. -/
def statuses (log : List WEv) : List Int := log.filterMap fun | .status c => some c | _ => none

/-- The call sends something of the response other than the status line: a `Write`, a `ReadFrom` or a `Flush`. -/
def sends : WEv → Bool
  | .write _ _ | .flush | .readFrom | .took _ | .readFromDone _ _ => true
  | _ => false

/-- The call passes on bytes of the body. -/
def passesBody : WEv → Bool
  | .write _ _ | .readFrom | .took _ | .readFromDone _ _ => true
  | _ => false

/-- `WriteHeader` was called at most once, and before anything was sent. -/
def StatusFirst (log : List WEv) : Prop :=
  ∃ pre post, log = pre ++ post ∧ (∀ e ∈ pre, sends e = false) ∧ statuses pre = [] ∧
    (post = [] ∨ ∃ c rest, post = .status c :: rest ∧ statuses rest = [])

/-- The number of bytes the ResponseWriter accepted, as reported by the (possible) counts it returned. -/
def accepted : List WEv → Int
  | [] => 0
  | .write _ (.ret (n, _)) :: l => (if 0 ≤ n then n else 0) + accepted l
  | .readFromDone n _ :: l => (if 0 ≤ n then n else 0) + accepted l
  | _ :: l => accepted l

/-- Some `Write` returned an error (with a possible count). -/
def WriteFailed (log : List WEv) : Prop := ∃ d n e, WEv.write d (.ret (n, some e)) ∈ log ∧ 0 ≤ n

/-- The bytes handed to the ResponseWriter: given to `Write`, or read by its `ReadFrom`. -/
def handed : List WEv → List Byte
  | [] => []
  | .write d _ :: l => d ++ handed l
  | .took d :: l => d ++ handed l
  | _ :: l => handed l

/-- The URLs given to `Push`. -/
def pushes (log : List WEv) : List GoStr := log.filterMap fun | .push u _ => some u | _ => none

/-- The `Close` calls on a Body. -/
def bodyCloses (log : List BEv) : List (Res (Option Err)) := log.filterMap fun | .close r => some r | _ => none

/-- The bytes a Body delivered: by `Read`, or by its `WriteTo` to the destination. -/
def bodyGave : List BEv → List Byte
  | [] => []
  | .read _ (.ret (d, _)) :: l => d ++ bodyGave l
  | .gave d _ _ :: l => d ++ bodyGave l
  | _ :: l => bodyGave l

end Verif.Spec

/-! # What is expected of serving a Response -/

namespace Verif.Spec
variable {β ω : Type}

/-- Every `Push` in this log succeeded or was answered `ErrNotSupported`. -/
def PushesOk (log : List WEv) : Prop :=
  ∀ e ∈ log, ∃ u, e = .push u (.ret none) ∨ e = .push u (.ret (some .notSupported))

/-- Some `Push` failed for another reason than `ErrNotSupported` (or did not return). -/
def PushFailed (log : List WEv) : Prop :=
  ∃ u q, WEv.push u q ∈ log ∧ q ≠ .ret none ∧ q ≠ .ret (some .notSupported)

/-- What the client should be told of a header map: every entry other than Push. -/
def headerEvents (hdrs : List (GoStr × List GoStr)) : List WEv :=
  (hdrs.filter fun e => e.1 ≠ lit "Push").map fun e => .set e.1 e.2

/-- The copying of a Body has been completed: its `WriteTo` returned without error, or the writer's `ReadFrom` did, or the
Body's `Read` reported the end of file and every `Write` took everything. -/
def Delivered (body : List BEv) (client : List WEv) : Prop :=
  (∃ n, body.getLast? = some (.writeToDone n none)) ∨
  (∃ n, client.getLast? = some (.readFromDone n none)) ∨
  ((∃ k d, body.getLast? = some (.read k (.ret (d, some .eof)))) ∧ WEv.readFrom ∉ client ∧
    ∀ d r, WEv.write d r ∈ client → r = .ret (d.length, none))

/-- `ReadFrom` reads its source by `Read` only (with a buffer of less than `2^62` bytes), and reports success only after `Read`
has reported the end of file.  `last`: the error of the last `Read`. -/
def RFHonest : RF ω → Option Err → Prop
  | .done _ _ err, last => err = none → last = some .eof
  | .read _ k cont, _ => k < 2 ^ 62 ∧ ∀ d e, RFHonest (cont d e) e
  | .drain _ _, _ => False
  | .panic _ _, _ => True
  | .hang _, _ => True

/-- `ReadFrom` reads its source by `Read` only. -/
def NoDrain : RF ω → Prop
  | .read _ _ cont => ∀ d e, NoDrain (cont d e)
  | .drain _ _ => False
  | _ => True

/-- A ResponseWriter that keeps to the contracts of `io.Writer` (a short count comes with an error) and `io.ReaderFrom`. -/
structure HonestWriter (D : RW ω) : Prop where
  write : ∀ w d n, (D.write w d).2 = .ret (n, none) → n = d.length
  readFrom : ∀ w, RFHonest (D.readFrom w) none

/-- A run of `WriteTo` that is going to write exactly `C`, and fails if a `Write` does. -/
def WTGood : WT β → List Byte → Prop
  | .done _ _ err, C => err = none → C = []
  | .write _ d cont, C => ∃ C', C = d ++ C' ∧
      WTGood (cont d.length none) C' ∧ ∀ n e, WTFails (cont n (some e))
  | .panic _ _, _ => True
  | .hang _, _ => True
where
  /-- writes nothing more and reports an error -/
  WTFails : WT β → Prop
  | .done _ _ err => err ≠ none
  | .write _ _ _ => False
  | .panic _ _ => True
  | .hang _ => True

/-- A Body that in states satisfying `P b C` represents the bytes `C`: it never delivers anything but the next bytes, and
reports the end of file only after the last. -/
structure IsSource (B : BodyOps β) (P : β → List Byte → Prop) : Prop where
  read : ∀ b C k b' d e, k < 2 ^ 62 → P b C → B.read b k = (b', .ret (d, e)) → ∃ C', C = d ++ C' ∧ P b' C' ∧ (e = some .eof → C' = [])
  writeTo : B.isWriterTo = true → ∀ b C, P b C → WTGood (B.writeTo b) C

end Verif.Spec
