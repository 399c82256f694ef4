import Verif.Model.NetHttp
import Verif.Model.Text

/-!
# What the `net/http` server sends for a response over HTTP/1.1

Modelled from knowledge of Go 1.17 (`net/http/server.go`: `chunkWriter.writeHeader`, `chunkWriter.Write`, `chunkWriter.close`, `extraHeader.Write`,
`writeStatusLine`; `net/http/header.go`: `Header.writeSubset`), for a request of HTTP/1.1.  What depends on things outside the handler, on timing or on
buffering is in `Choices`: the model is told what was decided, and theorems quantify over all decisions.
-/

set_option autoImplicit false

namespace Verif
namespace Wire

/-- What is not determined by the handler. -/
structure Choices where
  /-- the headers in the order in which they are written (that of their names) -/
  order : List (GoStr × List GoStr)
  /-- the text in the status line -/
  reason : GoStr
  date : GoStr
  /-- what `DetectContentType` finds; empty if it is not called -/
  sniffed : GoStr
  /-- the handler was done before the header was written and there are no trailers, so that the length is known -/
  auto : Bool
  /-- the length found in this way if the request is HEAD -/
  headLength : Nat
  /-- the pieces in which the body is sent -/
  chunks : List (List Byte)
  trailer : List (GoStr × List GoStr)
  /-- the connection is to be closed, and the Connection header is replaced (`delConnectionHeader`) -/
  close : Bool

/-- `isASCIISpace` of `net/textproto` -/
def isBlank (c : Byte) : Bool := c = 32 || c = 9 || c = 10 || c = 13

/-- `textproto.TrimString` -/
def trimBlank (s : GoStr) : GoStr := ((s.dropWhile isBlank).reverse.dropWhile isBlank).reverse

/-- `headerNewlineToSpace.Replace`, and trimmed. -/
def clean (v : GoStr) : GoStr := trimBlank (v.map fun c => if c = 10 ∨ c = 13 then 32 else c)

/-- `httpguts.ValidHeaderFieldName` -/
def validName (k : GoStr) : Bool := k ≠ [] && k.all isToken

/-- A field as `writeSubset` writes it. -/
def fieldLine (k v : GoStr) : GoStr := k ++ lit ": " ++ clean v ++ lit "\r\n"

/-- `writeSubset`, of what is not excluded. -/
def writeFields (m : List (GoStr × List GoStr)) : GoStr :=
  (m.filter fun e => validName e.1).flatMap fun e => e.2.flatMap (fieldLine e.1)

/-- `header.get(k)` -/
def first (hdrs : List (GoStr × List GoStr)) (k : GoStr) : GoStr := (hdrGet hdrs k).headD []

/-- `header.has(k)` -/
def has (hdrs : List (GoStr × List GoStr)) (k : GoStr) : Bool := hdrs.any fun e => e.1 = k

/-- What `writeHeader` decides: the headers that are left out, those that are added, and whether the body is sent in chunks. -/
structure Plan where
  del : List GoStr
  extra : List (GoStr × GoStr)
  chunking : Bool

def suppressed (status : Int) : List GoStr :=
  if status = 304 then [lit "Content-Type", lit "Content-Length", lit "Transfer-Encoding"]
  else if !bodyAllowed status then [lit "Content-Length", lit "Transfer-Encoding"]
  else []

/-- `chunkWriter.writeHeader` up to the writing. -/
def plan (c : Choices) (w : NetW) : Plan :=
  let cl := first w.hdrs (lit "Content-Length")
  let te := first w.hdrs (lit "Transfer-Encoding")
  let hasTE := decide (te ≠ [])
  let auto := c.auto && !hasTE && bodyAllowed w.status && decide (cl = [])
  let hasCL := w.declared.isSome || auto
  let sniff := bodyAllowed w.status && decide (first w.hdrs (lit "Content-Encoding") = []) && !has w.hdrs (lit "Content-Type") && !hasTE &&
    decide (c.sniffed ≠ [])
  let both := hasCL && hasTE && decide (te ≠ lit "identity")
  let hasCL := hasCL && !both
  let noBody := w.isHEAD || !bodyAllowed w.status || w.status = 204
  let chunking := !noBody && !hasCL && !(hasTE && te = lit "identity")
  let del := suppressed w.status ++ (if both then [lit "Content-Length"] else []) ++
    (if noBody || hasCL || te = lit "identity" || te = lit "chunked" then [lit "Transfer-Encoding"] else []) ++
    (if chunking then [lit "Content-Length"] else []) ++ (if c.close then [lit "Connection"] else [])
  let extra :=
    (if has w.hdrs (lit "Date") then [] else [(lit "Date", c.date)]) ++
    (if auto then [(lit "Content-Length", itoa (if w.isHEAD then c.headLength else w.body.length))] else []) ++
    (if sniff then [(lit "Content-Type", c.sniffed)] else []) ++
    (if c.close then [(lit "Connection", lit "close")] else []) ++
    (if chunking then [(lit "Transfer-Encoding", lit "chunked")] else [])
  { del, extra, chunking }

/-- `extraHeader.Write` -/
def writeExtra (l : List (GoStr × GoStr)) : GoStr := l.flatMap fun e => e.1 ++ lit ": " ++ e.2 ++ lit "\r\n"

/-- `fmt.Sprintf("%x", n)` -/
def hex (n : Nat) : GoStr := (Nat.toDigits 16 n).map fun c => c.toNat.toUInt8

/-- `chunkWriter.Write` -/
def writeChunk (p : List Byte) : GoStr := hex p.length ++ lit "\r\n" ++ p ++ lit "\r\n"

/-- The body, and what ends it. -/
def payload (c : Choices) (w : NetW) (chunking : Bool) : GoStr :=
  if w.isHEAD then []
  else if chunking then c.chunks.flatMap writeChunk ++ lit "0\r\n" ++ writeFields c.trailer ++ lit "\r\n"
  else w.body

/-- All that is sent for a response. -/
def wire (c : Choices) (w : NetW) : GoStr :=
  let p := plan c w
  lit "HTTP/1.1 " ++ itoa w.status ++ lit " " ++ c.reason ++ lit "\r\n" ++ writeFields (c.order.filter fun e => e.1 ∉ p.del) ++ writeExtra p.extra ++
    lit "\r\n" ++ payload c w p.chunking

end Wire
end Verif
