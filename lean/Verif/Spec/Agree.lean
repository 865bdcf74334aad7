import Verif.Spec.Response
import Verif.Spec.Reply
/-!
# What the client should see of a response of the server (C41)
-/
namespace Pillow.Spec
open Pillow

/-- A header a handler may use: its name is a token, its value one line that does not begin with a space or tab. -/
structure PlainHeader (h : Header) : Prop where
  name : h.name ≠ [] ∧ ∀ b ∈ h.name, TokenChar b
  value : (∀ b ∈ h.value, TextChar b) ∧ h.value.head? ≠ some 32 ∧ h.value.head? ≠ some 9
  /-- No `Upgrade`, and a request for chunked encoding is spelled `chunked` (not `"chunked "`). -/
  upgrade : ¬ SameCI h.name b!"upgrade"
  encoding : SameCI h.name b!"transfer-encoding" → Says h.value b!"chunked" → SameCI h.value b!"chunked"

/-- The `Content-Length` header. -/
def lengthPart : Option Bytes → Headers
  | some l => [⟨b!"Content-Length", l⟩]
  | none => []

/-- The `Content-Type` header. -/
def typePart (hs : Headers) (len : Option Bytes) : Headers :=
  match lastHeader hs b!"content-type" with
  | some t => [t]
  | none => if len ≠ none ∧ len ≠ some b!"0" then [⟨b!"Content-Type", b!"text/plain"⟩] else []

/-- The `Connection` header. -/
def connectionPart (r : ReqView) (keep : Bool) : Headers :=
  if keep then (if r.version = b!"HTTP/1.1" then [] else [⟨b!"Connection", b!"keep-alive"⟩]) else [⟨b!"Connection", b!"close"⟩]

/-- The `Transfer-Encoding` header. -/
def encodingPart (hs : Headers) (chunked : Bool) : Headers :=
  match lastHeader hs b!"transfer-encoding" with
  | some t => if SameCI t.value b!"chunked" ∧ chunked = false then [] else [t]
  | none => []

/-- The headers of a response: the handler's in order, then `Content-Length`, `Content-Type`, `Connection`, `Transfer-Encoding`. -/
def sentHeaders (r : ReqView) (hs : Headers) (len : Option Bytes) (keep chunked : Bool) : Headers :=
  (hs.filter fun h => !decide (Special h)) ++ lengthPart len ++ typePart hs len ++ connectionPart r keep ++ encodingPart hs chunked

end Pillow.Spec
