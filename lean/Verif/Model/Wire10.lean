import Verif.Model.Wire

/-!
# What the `net/http` server sends for a response to a request of HTTP/1.0

Modelled from knowledge of Go 1.17 (`net/http/server.go`), like `Model/Wire.lean`.  There are no chunks: if the length is not known, the end of the connection is
the end of the body.  `keep`: the client has asked for `Connection: keep-alive` (`wants10KeepAlive`).
-/

set_option autoImplicit false

namespace Verif
namespace Wire

/-- What `writeHeader` decides for HTTP/1.0. -/
structure Plan10 where
  del : List GoStr
  extra : List (GoStr × GoStr)
  /-- the body ends where the connection does -/
  untilEnd : Bool

/-- `chunkWriter.writeHeader` up to the writing, if `!w.req.ProtoAtLeast(1, 1)`. -/
def plan10 (c : Choices) (keep : Bool) (w : NetW) : Plan10 :=
  let cl := first w.hdrs (lit "Content-Length")
  let te := first w.hdrs (lit "Transfer-Encoding")
  let hasTE := decide (te ≠ [])
  let auto := c.auto && !hasTE && bodyAllowed w.status && decide (cl = [])
  let hasCL := w.declared.isSome || auto
  let keepAlive := keep && (w.isHEAD || hasCL || !bodyAllowed w.status) && !has w.hdrs (lit "Connection")
  let sniff := bodyAllowed w.status && decide (first w.hdrs (lit "Content-Encoding") = []) && !has w.hdrs (lit "Content-Type") && !hasTE &&
    decide (c.sniffed ≠ [])
  let both := hasCL && hasTE && decide (te ≠ lit "identity")
  let hasCL := hasCL && !both
  let noBody := w.isHEAD || !bodyAllowed w.status || w.status = 204
  let del := suppressed w.status ++ (if both then [lit "Content-Length"] else []) ++ [lit "Transfer-Encoding"] ++ (if c.close then [lit "Connection"] else [])
  let extra :=
    (if has w.hdrs (lit "Date") then [] else [(lit "Date", c.date)]) ++
    (if auto then [(lit "Content-Length", itoa (if w.isHEAD then c.headLength else w.body.length))] else []) ++
    (if sniff then [(lit "Content-Type", c.sniffed)] else []) ++
    (if keepAlive then [(lit "Connection", lit "keep-alive")] else [])
  { del, extra, untilEnd := !noBody && !hasCL }

/-- All that is sent for a response. -/
def wire10 (c : Choices) (keep : Bool) (w : NetW) : GoStr :=
  let p := plan10 c keep w
  lit "HTTP/1.0 " ++ itoa w.status ++ lit " " ++ c.reason ++ lit "\r\n" ++ writeFields (c.order.filter fun e => e.1 ∉ p.del) ++ writeExtra p.extra ++
    lit "\r\n" ++ if w.isHEAD then [] else w.body

/-- Whether the connection stays open after the response (`closeAfterReply`), if nothing else speaks against it. -/
def keeps10 (c : Choices) (keep : Bool) (w : NetW) : Bool :=
  let hasTE := decide (first w.hdrs (lit "Transfer-Encoding") ≠ [])
  let auto := c.auto && !hasTE && bodyAllowed w.status && decide (first w.hdrs (lit "Content-Length") = [])
  keep && (w.isHEAD || (w.declared.isSome || auto) || !bodyAllowed w.status) && !(plan10 c keep w).untilEnd && !c.close

/-- What the server sends on a connection, for one request after the other. -/
def sends10 : List (Choices × Bool × NetW) → GoStr
  | [] => []
  | (c, keep, w) :: l => wire10 c keep w ++ if keeps10 c keep w then sends10 l else []

end Wire
end Verif
