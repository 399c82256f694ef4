import Verif.Spec.MockText

/-! # Reading the texts of the errors of package body back -/

set_option autoImplicit false

namespace Verif.Spec

/-- The number between two texts that make up all the rest. -/
def between (a z s : GoStr) : Option Int := do
  let s ← afterPrefix a s
  let q ← number s
  if q.2 = z then some q.1 else none

/-- A Seek error in Go syntax. -/
def readGoError (s : GoStr) : Option Err :=
  ((between (lit "UnknownWhenceSeekError{") (lit "}") s).map .unknownWhence) <|>
  ((between (lit "NegativeStartOffsetSeekError{") (lit "}") s).map .negStart) <|>
  ((between (lit "NegativeComputedOffsetSeekError{") (lit "}") s).map .negComputed)

/-- An error of package body; `fuel > len(s)` is enough. -/
def readError : Nat → GoStr → Option Err
  | 0, _ => none
  | fuel + 1, s =>
    ((between (lit "Seek error: unknown whence value ") [] s).map .unknownWhence) <|>
    ((between (lit "Seek error: whence is io.SeekStart but offset ") (lit " is negative") s).map .negStart) <|>
    ((between (lit "Seek error: computed offset ") (lit " is negative") s).map .negComputed) <|>
    ((between (lit "ReadAt error: offset ") (lit " is negative") s).map .negReadAt) <|>
    (((afterPrefix (lit "failed to determine length of body via Stat: ") s).bind (readError fuel)).map .viaStat) <|>
    (((afterPrefix (lit "failed to determine length of body via Seek: ") s).bind (readError fuel)).map .viaSeek) <|>
    (((afterPrefix (lit "failed to rewind to start of file via Seek: ") s).bind (readError fuel)).map .viaRewind)

end Verif.Spec
