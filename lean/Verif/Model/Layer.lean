import Verif.Model.Reader

/-!
# A Body as a Reader

A Body is an `io.Reader` and an `io.Closer`; those made from bytes, ReaderAts and Seekers are `io.ReaderAt` and `io.Seeker` too.  None is an
`fs.File`.  `FromReaderAndLength` (`/repo/body/body.go:291`) does not treat Bodies in a special way (`FromReader` does, `:281-283`), so
a Body can be the Reader behind another Body.
-/

set_option autoImplicit false

namespace Verif

/-- Body `h` of a family whose states satisfy `G`, as a Reader.  `Ok` are the calls that are possible at all (offsets are int64, buffers
have less than `2^62` bytes); a longer buffer passed to `Read` is not filled completely.  A call on a Body that does not exist, or
that never returns, has no counterpart; the theorems exclude both. -/
def Rdr.ofBody {S : Type} (step : S → Op → S × Out) (G : S → Prop) (Ok : Op → Prop) [DecidablePred Ok]
    (keep : ∀ s op, Ok op → G s → G (step s op).1) (seekable : Bool) (h : Nat) : Rdr { s // G s } :=
  let call (x : { s // G s }) (op : Op) : { s // G s } × Out :=
    if hok : Ok op then (⟨(step x.1 op).1, keep x.1 op hok x.2⟩, (step x.1 op).2) else (x, .unsupported)
  let data : Out → RResp
    | .read d e => .got d e
    | .panic p => .panics p
    | _ => .panics .nilDeref
  { read := fun x n => let r := call x (.read h (min n (2 ^ 62 - 1))); (r.1, data r.2)
    readAt := fun x n off => let r := call x (.readAt h n off); (r.1, data r.2)
    seek := fun x off wh => let r := call x (.seek h off wh)
      (r.1, match r.2 with
        | .seek n e => .ok (n, e)
        | .panic p => .panics p
        | _ => .panics .nilDeref)
    stat := fun x => (x, .panics .nilDeref)
    close := fun x => let r := call x (.close h)
      (r.1, match r.2 with
        | .closed e => .ok e
        | .panic p => .panics p
        | _ => .ok none)
    isReaderAt := seekable
    isSeeker := seekable
    isFile := false
    isCloser := true }

end Verif
