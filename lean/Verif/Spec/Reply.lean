import Verif.Spec.Parser
import Verif.Spec.Bytes
import Verif.Spec.Request
/-!
# The grammar of responses, written from RFC 2616 §6 and §3.6.1 (C36, C39, C41)

A response is described by the parts of its head and the bytes that follow the head.  The limits on sizes are those of the bundled
parser: 80 KiB for a head or a chunk-size line, version and status numbers up to 999, lengths below 2^64 - 1.
-/
namespace Pillow.Spec
open Pillow

/-- A header line: `name:`, padding, value. -/
structure RHeader where
  name : Bytes
  pad : Bytes
  value : Bytes
  deriving DecidableEq

/-- The head of a response: version, status and reason are kept as they are written; `reason` includes its leading space. -/
structure RHead where
  major : Bytes
  minor : Bytes
  status : Bytes
  reason : Bytes
  headers : List RHeader

def RHeader.render (h : RHeader) : Bytes := h.name ++ b!":" ++ h.pad ++ h.value ++ b!"\r\n"

def RHead.render (h : RHead) : Bytes :=
  b!"HTTP/" ++ h.major ++ b!"." ++ h.minor ++ b!" " ++ h.status ++ h.reason ++ b!"\r\n" ++ (h.headers.map RHeader.render).flatten ++ b!"\r\n"

/-- Not a line break. -/
def TextChar (b : Byte) : Prop := b ≠ 13 ∧ b ≠ 10

/-- A name is a non-empty token, the padding consists of spaces and tabs, the value is a line that does not begin with one. -/
structure RHeader.Wf (h : RHeader) : Prop where
  name : h.name ≠ [] ∧ ∀ b ∈ h.name, TokenChar b
  pad : ∀ b ∈ h.pad, b = 32 ∨ b = 9
  value : (∀ b ∈ h.value, TextChar b) ∧ h.value.head? ≠ some 32 ∧ h.value.head? ≠ some 9

/-- What `headers()` shows for it. -/
def RHeader.shown (h : RHeader) : Header := ⟨h.name, h.value⟩

/-- The number a text of decimal digits stands for (0 if it is not one). -/
def num (s : Bytes) : Nat := (readNat 10 s).getD 0

/-- Numbers up to 999. -/
def Small (s : Bytes) : Prop := ∃ n, readNat 10 s = some n ∧ n ≤ 999

/-- A value up to letter case and trailing spaces. -/
def Says (value token : Bytes) : Prop := ∃ k, SameCI value (token ++ List.replicate k 32)

/-- `Transfer-Encoding: chunked`. -/
def RHead.IsChunked (h : RHead) : Prop := ∃ x ∈ h.headers, SameCI x.name b!"transfer-encoding" ∧ Says x.value b!"chunked"

/-- `Connection: close` and `Connection: keep-alive` (or `Proxy-Connection`). -/
def RHead.Connection (h : RHead) (token : Bytes) : Prop :=
  ∃ x ∈ h.headers, (SameCI x.name b!"connection" ∨ SameCI x.name b!"proxy-connection") ∧ Says x.value token

/-- The values of the `Content-Length` headers that have one. -/
def RHead.lengths (h : RHead) : List Bytes := (h.headers.filter fun x => decide (SameCI x.name b!"content-length" ∧ x.value ≠ [])).map RHeader.value

/-- The announced length: the last one counts. -/
def RHead.announced (h : RHead) : Option Nat := h.lengths.getLast?.map num

structure RHead.Wf (h : RHead) : Prop where
  major : Small h.major
  minor : Small h.minor
  status : Small h.status
  reason : h.reason = [] ∨ ∃ t, h.reason = 32 :: t ∧ ∀ b ∈ t, TextChar b
  headers : ∀ x ∈ h.headers, x.Wf
  /-- Lengths are numbers. -/
  lengths : ∀ v ∈ h.lengths, ∃ n, readNat 10 v = some n ∧ n < 2 ^ 64 - 1
  /-- The parser gives up on a message whose header says `Upgrade`. -/
  noUpgrade : ∀ x ∈ h.headers, SameCI x.name b!"upgrade" → x.value = []
  size : h.render.length ≤ 80 * 1024 - 2

/-- A chunk extension. -/
def Extension (e : Bytes) : Prop := e = [] ∨ ∃ c t, e = c :: t ∧ (c = 59 ∨ c = 32) ∧ ∀ b ∈ t, TextChar b

/-- RFC 2616 §3.6.1, without trailers: `ChunkedBody wire content`. -/
inductive ChunkedBody : Bytes → Bytes → Prop where
  | last (size ext : Bytes) : readNat 16 size = some 0 → Extension ext → size.length + ext.length + 2 ≤ 80 * 1024 →
      ChunkedBody (size ++ ext ++ b!"\r\n" ++ b!"\r\n") []
  | chunk (size ext data wire content : Bytes) : readNat 16 size = some data.length → data ≠ [] → data.length < 2 ^ 64 - 1 → Extension ext →
      size.length + ext.length + 2 ≤ 80 * 1024 → ChunkedBody wire content →
      ChunkedBody (size ++ ext ++ b!"\r\n" ++ data ++ b!"\r\n" ++ wire) (data ++ content)

/-- Statuses without content. -/
def NoContent (status : Nat) : Prop := status / 100 = 1 ∨ status = 204 ∨ status = 304

/-- What follows the head, and the content it carries (RFC 2616 §4.4), for the responses whose end does not depend on the connection. -/
inductive BodyOf (h : RHead) : Bytes → Bytes → Prop where
  | chunked (wire content : Bytes) : h.IsChunked → ChunkedBody wire content → BodyOf h wire content
  | sized (content : Bytes) : ¬ h.IsChunked → h.announced = some content.length → BodyOf h content content
  | none : ¬ h.IsChunked → h.announced = .none → NoContent (num h.status) → BodyOf h [] []

/-- … and for those that end with the connection. -/
def EndsWithConnection (h : RHead) : Prop := ¬ h.IsChunked ∧ h.announced = none ∧ ¬ NoContent (num h.status)

/-- A whole response. -/
structure Response where
  head : RHead
  wire : Bytes
  content : Bytes

def Response.render (m : Response) : Bytes := m.head.render ++ m.wire

structure Response.Wf (m : Response) : Prop where
  head : m.head.Wf
  body : BodyOf m.head m.wire m.content

/-- The sender keeps the connection. -/
def RHead.Keeps (h : RHead) : Prop :=
  if 0 < num h.major ∧ 0 < num h.minor then ¬ h.Connection b!"close" else h.Connection b!"keep-alive"

/-- What `headers()` shows. -/
def RHead.shown (h : RHead) : Headers := h.headers.map RHeader.shown

/-- The calls of the virtual functions for a response, with what the accessors show. -/
def Response.report (m : Response) : List Hook :=
  [.begin, .headersComplete (num m.head.status) m.head.shown, .complete (num m.head.status) m.head.shown m.content]

/-- A response that ends with the connection, after `content` has arrived. -/
def RHead.reportEof (h : RHead) (content : Bytes) : List Hook :=
  [.begin, .headersComplete (num h.status) h.shown, .complete (num h.status) h.shown content]

/-- The parser is between two responses: it is new, or what it was given are well-formed responses, and `clear` has been called if the last
one ended with the connection. -/
inductive Ready : RespParser → Prop where
  | new : Ready {}
  | reply {r : RespParser} (m : Response) : Ready r → m.Wf → m.head.Keeps → Ready (deliver r m.render)
  | closing {r : RespParser} (m : Response) : Ready r → m.Wf → Ready (deliver r m.render).clear
  | eof {r : RespParser} (h : RHead) (content : Bytes) : Ready r → h.Wf → EndsWithConnection h → Ready (deliver r (h.render ++ content)).injectEof.clear
  | clear {r : RespParser} : Ready r → Ready r.clear

end Pillow.Spec
