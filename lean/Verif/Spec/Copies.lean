import Verif.Model.IoCopy

/-! # Clients that read with buffers of a bounded size -/

set_option autoImplicit false

namespace Verif.Spec
variable {ω : Type}

/-- A run of `ReadFrom` in which all buffers have fewer than 2^62 bytes. -/
def SmallReads : RF ω → Prop
  | .done _ _ _ => True
  | .read _ k cont => k < 2 ^ 62 ∧ ∀ d e, SmallReads (cont d e)
  | .drain _ cont => ∀ n e, SmallReads (cont n e)
  | .panic _ _ => True
  | .hang _ => True

end Verif.Spec
