import Verif.Spec.Wire

/-! # How a client uses a connection -/

set_option autoImplicit false

namespace Verif.Spec.Wire

/-- The answers that a client makes out for its requests, of which some are HEAD: one message after the other, as long as there are some. -/
def answers (strict : Bool) : List Bool → GoStr → List Message
  | [], _ => []
  | isHEAD :: l, s =>
    match receive strict isHEAD s with
    | some (m, s) => m :: answers strict l s
    | none => []

end Verif.Spec.Wire
