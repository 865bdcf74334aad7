import Verif.Spec.Protocol
/-!
# Specification of responses (C18–C23, C25)
-/
namespace Pillow.Spec
open Pillow

/-- The content carried by an event. -/
def Ev.content : Ev → Bytes
  | .body bs => bs
  | .chunk bs => bs
  | _ => []

/-- The content carried by a sequence of events. -/
def contentOf (es : List Ev) : Bytes := (es.map Ev.content).flatten

/-- The bytes written by a sequence of events. -/
def wireOf (es : List Ev) : Bytes := (es.map Ev.wire).flatten

/-- RFC 2616 §3.6.1, without extensions and trailers: `Chunked wire content rest` — the bytes `wire` are a chunked body
with the given content, followed by `rest`. -/
inductive Chunked : Bytes → Bytes → Bytes → Prop where
  | last (size rest : Bytes) : readNat 16 size = some 0 → Chunked (size ++ b!"\r\n" ++ b!"\r\n" ++ rest) [] rest
  | chunk (size data wire content rest : Bytes) : readNat 16 size = some data.length → data ≠ [] → Chunked wire content rest →
      Chunked (size ++ b!"\r\n" ++ data ++ b!"\r\n" ++ wire) (data ++ content) rest

/-- C20: the client wants the connection kept. -/
def ClientKeeps (r : ReqView) : Prop :=
  if r.version = b!"HTTP/1.1" then ¬ SameCI (firstValue r.headers b!"connection") b!"close"
  else SameCI (firstValue r.headers b!"connection") b!"keep-alive"

/-- The last header with this name (up to letter case). -/
def lastHeader (hs : Headers) (name : Bytes) : Option Header := (hs.filter fun h => decide (SameCI h.name name)).getLast?

/-- The handler asks for the connection to be closed. -/
def HandlerCloses (hs : Headers) : Prop := ∃ h, lastHeader hs b!"connection" = some h ∧ SameCI h.value b!"close"

/-- The length of a response: what the handler declares with `Content-Length` (unknown, -1, if it is not a number),
otherwise `dflt`. -/
def declaredLength (dflt : Int) (hs : Headers) : Int :=
  match lastHeader hs b!"content-length" with
  | some h => (qtToLongLong h.value).getD (-1)
  | none => dflt

/-- The handler asks for chunked encoding. -/
def HandlerChunks (hs : Headers) : Prop := ∃ h, lastHeader hs b!"transfer-encoding" = some h ∧ SameCI h.value b!"chunked"

/-- The headers `writeHeaders` treats specially. -/
def Special (h : Header) : Prop :=
  SameCI h.name b!"content-length" ∨ SameCI h.name b!"content-type" ∨ SameCI h.name b!"connection" ∨
  SameCI h.name b!"transfer-encoding"

instance (h : Header) : Decidable (Special h) := inferInstanceAs (Decidable (_ ∨ _))

/-- A header as a line. -/
def lineOf (h : Header) : Bytes := h.name ++ b!": " ++ h.value ++ b!"\r\n"

/-- All headers that are not special, in order. -/
def otherLines (hs : Headers) : Bytes := ((hs.filter fun h => !decide (Special h)).map lineOf).flatten

/-- The line that tells the client about the connection; HTTP/1.1 keeps it by default. -/
def connectionHeader (r : ReqView) (keep : Bool) : Bytes :=
  if keep then (if r.version = b!"HTTP/1.1" then [] else b!"Connection: keep-alive\r\n") else b!"Connection: close\r\n"

/-- The `Content-Type` line. -/
def typeHeader (hs : Headers) (len : Int) : Bytes :=
  match lastHeader hs b!"content-type" with
  | some t => lineOf t
  | none => if 0 < len then b!"Content-Type: text/plain\r\n" else []

/-- The `Transfer-Encoding` line: a request for chunked encoding that is not honoured is left out. -/
def encodingHeader (hs : Headers) (chunked : Bool) : Bytes :=
  match lastHeader hs b!"transfer-encoding" with
  | some t => if SameCI t.value b!"chunked" ∧ chunked = false then [] else lineOf t
  | none => []

end Pillow.Spec
