import Verif.Spec.Response
import Verif.Model.RequestWriter
/-!
# Specification of the requests a client writes (C10, C49)
-/
namespace Pillow.Spec
open Pillow

/-- The bytes of a request: request line, headers in order, `Content-Length` (in canonical decimal notation) iff there is
data, an empty line, the data. -/
def Frame (r : OutRequest) (wire : Bytes) : Prop :=
  ∃ len, readNat 10 len = some r.data.length ∧ Canonical len ∧
    wire = r.method ++ b!" " ++ r.path ++ b!" HTTP/1.1\r\n" ++ (r.headers.map lineOf).flatten ++
      (if r.data = [] then [] else b!"Content-Length: " ++ len ++ b!"\r\n") ++ b!"\r\n" ++ r.data

/-- The bytes of a sequence of requests. -/
inductive Frames : List OutRequest → Bytes → Prop where
  | nil : Frames [] []
  | cons (r : OutRequest) (rs : List OutRequest) (w ws : Bytes) : Frame r w → Frames rs ws → Frames (r :: rs) (w ++ ws)

/-- The request a call stands for. -/
def WCall.request : WCall → Option OutRequest
  | .setDevice _ => none
  | .get p hs => some ⟨b!"GET", p, hs, []⟩
  | .head p hs => some ⟨b!"HEAD", p, hs, []⟩
  | .post p hs d => some ⟨b!"POST", p, hs, d⟩
  | .put p hs d => some ⟨b!"PUT", p, hs, d⟩
  | .deleteResource p hs => some ⟨b!"DELETE", p, hs, []⟩
  | .write r => some r

/-- The requests made while a device is set. -/
def sent : Bool → List WCall → List OutRequest
  | _, [] => []
  | _, .setDevice b :: cs => sent b cs
  | dev, c :: cs => (if dev then (WCall.request c).toList else []) ++ sent dev cs

/-- A path a client can ask for: an origin-form path of plain characters and escapes, optionally with a query string that
is not empty. -/
def OriginForm (path : Bytes) (p q : Bytes) : Prop :=
  (∃ t, p = 47 :: t ∧ EscText PathChar t) ∧ ((q = [] ∧ path = p) ∨ (q ≠ [] ∧ EscText UriChar q ∧ path = p ++ b!"?" ++ q))

/-- A request a client may write: a method of the documented characters, a path as above, token header names, values
without carriage return that do not start with a space; content of at most 128 MiB; no `Content-Length` of its own if there
is no content (with content, its own one is overridden). -/
structure Writable (r : OutRequest) : Prop where
  method : 1 ≤ r.method.length ∧ r.method.length ≤ 20 ∧ ∀ b ∈ r.method, MethodChar b
  path : ∃ p q, OriginForm r.path p q
  headers : ∀ h ∈ r.headers, h.name ≠ [] ∧ (∀ b ∈ h.name, TokenChar b) ∧ 13 ∉ h.value ∧ h.value.head? ≠ some 32
  content : r.data.length ≤ 128 * 1024 * 1024
  length : r.data = [] → ∀ h ∈ r.headers, ¬ SameCI h.name b!"content-length"
  /-- The head is not longer than the server accepts. -/
  short : ∀ wire, Frame r wire → wire.length ≤ r.data.length + headLimit

/-- What the server has to show for it: the same method, uri, headers and content. -/
def Received (r : OutRequest) (v : ReqView) : Prop :=
  v.method = r.method ∧ v.uri = r.path ∧ v.version = b!"HTTP/1.1" ∧ v.fragment = [] ∧ v.content = r.data ∧
  OriginForm r.path v.path v.query ∧
  ∃ len, readNat 10 len = some r.data.length ∧
    v.headers = r.headers ++ (if r.data = [] then [] else [⟨b!"Content-Length", len⟩])

end Pillow.Spec
