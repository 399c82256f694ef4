import Verif.Model.Wire

/-!
# A connection of HTTP/1.1 that carries one request after the other

Modelled from knowledge of Go 1.17 (`net/http/server.go`: `conn.serve`, `response.finishRequest`, `response.shouldReuseConnection`).  When `ServeHTTP` has
returned, the response is finished; if fewer bytes were written than declared, or the connection is to be closed for other reasons, it is closed.  When
`ServeHTTP` panics, or never returns, as much of the response is on the wire as happened to be sent before.
-/

set_option autoImplicit false

namespace Verif
namespace Wire

/-- What became of a request. -/
structure Exchange where
  w : NetW
  /-- how `ServeHTTP` ended -/
  out : Res Unit
  choices : Choices
  /-- nothing else speaks for closing the connection -/
  keep : Bool
  /-- how many bytes were sent before it was aborted -/
  cut : Nat

/-- `shouldReuseConnection`, as far as the handler determines it. -/
def reusable (w : NetW) : Bool :=
  !(!w.isHEAD && w.declared.isSome && bodyAllowed w.status && decide (w.declared ≠ some w.written))

/-- What the server sends on a connection. -/
def sends : List Exchange → GoStr
  | [] => []
  | e :: l =>
    match e.out with
    | .ret () => wire e.choices e.w ++ if reusable e.w && e.keep then sends l else []
    | _ => (wire e.choices e.w).take e.cut

end Wire
end Verif
