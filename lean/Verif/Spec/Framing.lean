import Verif.Spec.Connection
import Verif.Spec.Reply
/-!
# Where a request ends, according to RFC 7230 (C90)

§3.3.3: a `Transfer-Encoding` decides, whatever `Content-Length` says; without it all `Content-Length` headers must agree; without either there is no content.
-/
namespace Pillow.Spec
open Pillow

/-- The head has a `Transfer-Encoding`. -/
def ReqHead.Encoded (h : ReqHead) : Prop := ∃ l ∈ h.headers, SameCI l.name b!"transfer-encoding"

/-- The content is sent in chunks. -/
def ReqHead.InChunks (h : ReqHead) : Prop := ∃ l ∈ h.headers, SameCI l.name b!"transfer-encoding" ∧ SameCI l.value b!"chunked"

/-- The values of the `Content-Length` headers. -/
def ReqHead.lengths (h : ReqHead) : List Bytes := (h.headers.filter fun l => decide (SameCI l.name b!"content-length")).map HeaderLine.value

/-- RFC 7230 §4.1, without trailers: `InPieces wire content`. An extension begins with a semicolon. -/
inductive InPieces : Bytes → Bytes → Prop where
  | last (size ext : Bytes) : readNat 16 size = some 0 → (ext = [] ∨ ∃ t, ext = 59 :: t ∧ 13 ∉ t ∧ 10 ∉ t) → InPieces (size ++ ext ++ b!"\r\n" ++ b!"\r\n") []
  | chunk (size ext data wire content : Bytes) : readNat 16 size = some data.length → data ≠ [] → (ext = [] ∨ ∃ t, ext = 59 :: t ∧ 13 ∉ t ∧ 10 ∉ t) →
      InPieces wire content → InPieces (size ++ ext ++ b!"\r\n" ++ data ++ b!"\r\n" ++ wire) (data ++ content)

/-- What follows a head, and the content that stands for. -/
inductive Carries (h : ReqHead) : Bytes → Bytes → Prop where
  | chunked (wire content : Bytes) : h.InChunks → InPieces wire content → Carries h wire content
  | sized (content : Bytes) : ¬ h.Encoded → h.lengths ≠ [] → (∀ v ∈ h.lengths, readNat 10 v = some content.length) → Carries h content content
  | none : ¬ h.Encoded → h.lengths = [] → Carries h [] []

/-- `Stream s reqs rest`: according to the RFC the stream starts with the requests `reqs` (the head, what follows it, and the content), followed by `rest`. -/
inductive Stream : Bytes → List (ReqHead × Bytes × Bytes) → Bytes → Prop where
  | nil (s : Bytes) : Stream s [] s
  | cons (h : ReqHead) (wire content s : Bytes) (reqs : List (ReqHead × Bytes × Bytes)) (rest : Bytes) :
      h.Wf → Carries h wire content → Stream s reqs rest → Stream (h.render ++ wire ++ s) ((h, wire, content) :: reqs) rest

/-- The head and the content are within the limits of the server. -/
def Moderate (q : ReqHead × Bytes × Bytes) : Prop := q.1.render.length ≤ headLimit ∧ (q.2.2.length : Int) ≤ contentLimit

/-- What the handlers are to be shown. -/
def meant (reqs : List (ReqHead × Bytes × Bytes)) : List ReqView := reqs.map fun q => q.1.shown q.2.2

end Pillow.Spec
