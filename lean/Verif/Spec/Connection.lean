import Verif.Spec.Request
import Verif.Spec.Bytes
import Verif.Model.ConnPure
/-!
# Specification of request streams (C08, C11–C14)

What a byte stream *means* as a sequence of requests, independently of the connection object.  The only model
definitions used are the record `ReqView` (what the accessors show) and `qtToInt` (Qt's number parser; what it
accepts is `SaysNumber`, see `C12_number`).
-/
namespace Pillow.Spec
open Pillow

/-- The longest head a connection accepts. -/
def headLimit : Nat := 32767
/-- The longest content a connection accepts: 128 MiB. -/
def contentLimit : Int := 134217728

/-- What the accessors must show for a head with the given content. -/
def ReqHead.view (h : ReqHead) (content : Bytes) : ReqView where
  method := h.method
  uri := h.target.uri
  fragment := h.fragment.getD []
  path := h.target.path
  query := h.target.query
  version := h.version
  headers := h.headers.map fun l => ⟨l.name, l.value⟩
  content := content

/-- What they do show: for a target with an empty query string (`/abc?`) the `?` of the uri has been overwritten
by the NUL that terminates the path. -/
def ReqHead.shown (h : ReqHead) (content : Bytes) : ReqView :=
  match h.target with
  | .origin path (some []) => { h.view content with uri := path ++ [0] }
  | _ => h.view content

/-- The text, up to its first NUL if it has one, is a decimal number: blanks, then possibly a sign, then digits and nothing else. -/
def SaysNumber (s : Bytes) (n : Int) : Prop :=
  ∃ blanks sign ds rest m, s = blanks ++ sign ++ ds ++ rest ∧ (∀ b ∈ blanks, b ∈ [9, 10, 11, 12, 13, 32]) ∧ (rest = [] ∨ ∃ t, rest = 0 :: t) ∧ readNat 10 ds = some m ∧
    ((sign = [] ∨ sign = b!"+") ∧ n = m ∨ sign = b!"-" ∧ n = -(m : Int))

/-- The content length announced by a head: 0 without `Content-Length`, otherwise the last such header;
`none` if it is not a number in the `int` range. -/
def announcedLength (h : ReqHead) : Option Int :=
  match (h.headers.filter (fun l => SameCI l.name b!"content-length")).getLast? with
  | none => some 0
  | some l => qtToInt l.value

/-- A head that is passed to the handler, and the size of its content. -/
structure Acceptable (h : ReqHead) (n : Nat) : Prop where
  wf : h.Wf
  short : h.render.length ≤ headLimit
  announced : announcedLength h = some (n : Int)
  small : (n : Int) ≤ contentLimit

/-- `Requests stream reqs rest`: the stream starts with the requests `reqs` (head and content each), followed by
`rest`. -/
inductive Requests : Bytes → List (ReqHead × Bytes) → Bytes → Prop where
  | nil (s : Bytes) : Requests s [] s
  | cons (h : ReqHead) (content s : Bytes) (reqs : List (ReqHead × Bytes)) (rest : Bytes) :
      Acceptable h content.length → Requests s reqs rest →
      Requests (h.render ++ content ++ s) ((h, content) :: reqs) rest

/-- The stream does not start with a head the connection accepts, and this is already certain: either what is there
is neither an extension nor a prefix of any well-formed head, or it starts with a head that is too long, or it is
itself too long and still not a complete head. -/
def BadHead (s : Bytes) : Prop :=
  (∀ h : ReqHead, h.Wf → ¬ h.render <+: s ∧ ¬ s <+: h.render) ∨
  (∃ h : ReqHead, h.Wf ∧ headLimit < h.render.length ∧
    (h.render <+: s ∨ (s <+: h.render ∧ headLimit + 1 < s.length)))

/-- Why a stream is answered with an error. -/
def ErrorReason (code : Int) (s : Bytes) : Prop :=
  (code = 400 ∧ BadHead s) ∨
  (∃ h : ReqHead, h.Wf ∧ h.render.length ≤ headLimit ∧ h.render <+: s ∧
    ((code = 400 ∧ ∃ n, announcedLength h = some n ∧ n < 0) ∨
     (code = 413 ∧ (announcedLength h = none ∨ ∃ n, announcedLength h = some n ∧ contentLimit < n))))

/-- A complete acceptable request is there. -/
def Complete (s : Bytes) : Prop :=
  ∃ (h : ReqHead) (content rest : Bytes), s = h.render ++ content ++ rest ∧ Acceptable h content.length

end Pillow.Spec
