import Verif.Spec.ClientReply
/-!
# What one response may leave behind for the next (C36)

The parser collects the header that is being read, its name and its value so far, in two strings.  They are emptied only when the next header begins or the headers end.
-/
namespace Pillow.Spec
open Pillow

def noHeader : Header := ⟨[], []⟩

/-- Headers whose first has `l` put before its name and its value. -/
def glued (l : Header) : Headers → Headers
  | [] => []
  | h :: hs => ⟨l.name ++ h.name, l.value ++ h.value⟩ :: hs

/-- What is left after headers that were read to their end: nothing, if there were any. -/
def leftBy (l : Header) : Headers → Header
  | [] => l
  | _ :: _ => noHeader

/-- What is left when reading stops at a header: that header, and what was left before if it is the first. -/
def leftAt (l : Header) (before : Headers) (last : Header) : Header := ⟨(leftBy l before).name ++ last.name, (leftBy l before).value ++ last.value⟩

/-- The report of a response to a parser in which `l` was left. -/
def Response.reportAfter (m : Response) (l : Header) : List Hook :=
  [.begin, .headersComplete (num m.head.status) (glued l m.head.shown), .complete (num m.head.status) (glued l m.head.shown) m.content]

/-- The reports of several. -/
def reportsAfter (l : Header) : List Response → List Hook
  | [] => []
  | m :: ms => m.reportAfter l ++ reportsAfter (leftBy l m.head.shown) ms

/-- What can be seen of a header line in its first `n` bytes. -/
def RHeader.part (x : RHeader) (n : Nat) : Header := ⟨x.name.take n, x.value.take (n - (x.name.length + 1 + x.pad.length))⟩

/-- The bytes end between the first byte of a header line of the head and the end of the head: the headers before it, and what can be seen of it. -/
inductive StopsIn (h : RHead) : Bytes → Headers → Header → Prop where
  | within (hs : List RHeader) (x : RHeader) (rest : List RHeader) (part : Bytes) : h.headers = hs ++ x :: rest → part <+: x.render → part ≠ [] →
      StopsIn h (h.statusLine ++ (hs.map RHeader.render).flatten ++ part) (hs.map RHeader.shown) (x.part part.length)
  | atEnd (hs : List RHeader) (x : RHeader) : h.headers = hs ++ [x] →
      StopsIn h (h.statusLine ++ (h.headers.map RHeader.render).flatten ++ b!"\r") (hs.map RHeader.shown) x.shown

/-- The bytes end within (or at the end of) the status line, or after the head. -/
inductive StopsElsewhere (m : Response) : Bytes → Prop where
  | line {u : Bytes} : u <+: m.head.statusLine → StopsElsewhere m u
  | noHeaders : m.head.headers = [] → StopsElsewhere m (m.head.statusLine ++ b!"\r")
  | body {part : Bytes} : part <+: m.wire → StopsElsewhere m (m.head.render ++ part)

/-- A header that may be sent in a trailer: RFC 7230 §4.1.2 excludes those that say where a message ends or what becomes of the connection. -/
structure TrailerLine (x : RHeader) : Prop where
  wf : x.Wf
  allowed : ¬ SameCI x.name b!"connection" ∧ ¬ SameCI x.name b!"proxy-connection" ∧ ¬ SameCI x.name b!"content-length" ∧ ¬ SameCI x.name b!"transfer-encoding" ∧
    ¬ SameCI x.name b!"upgrade"

/-- A response with a chunked body (`body` is the wire form without the final line end) and trailers. -/
structure Trailed where
  head : RHead
  body : Bytes
  content : Bytes
  trailers : List RHeader
  last : RHeader

def Trailed.trailerLines (t : Trailed) : Bytes := ((t.trailers ++ [t.last]).map RHeader.render).flatten

def Trailed.render (t : Trailed) : Bytes := t.head.render ++ t.body ++ t.trailerLines ++ b!"\r\n"

structure Trailed.Wf (t : Trailed) : Prop where
  head : t.head.Wf
  chunked : t.head.IsChunked
  body : ChunkedBody (t.body ++ b!"\r\n") t.content
  lines : ∀ x ∈ t.trailers ++ [t.last], TrailerLine x
  size : t.trailerLines.length + 2 ≤ 80 * 1024

/-- What is reported for it: the last trailer is missing. -/
def Trailed.report (t : Trailed) : List Hook :=
  [.begin, .headersComplete (num t.head.status) t.head.shown, .complete (num t.head.status) (t.head.shown ++ t.trailers.map RHeader.shown) t.content]

end Pillow.Spec
