import Verif.Spec.ClientReply
import Verif.Spec.Cut
/-!
# Where a response ends, according to RFC 7230 §3.3.3 (C97, C98)

A response to a request other than HEAD: 1xx, 204 and 304 end with their head, whatever its headers say; otherwise a `Transfer-Encoding` decides, whatever `Content-Length` says;
without it all `Content-Length` headers must agree; without either the response ends with the connection.
-/
namespace Pillow.Spec
open Pillow

/-- The values of the `Transfer-Encoding` headers. -/
def RHead.codings (h : RHead) : List Bytes := (h.headers.filter fun x => decide (SameCI x.name b!"transfer-encoding")).map RHeader.value

/-- The last coding of a list of codings is `chunked`. -/
def LastChunked (v : Bytes) : Prop := Says v b!"chunked" ∨ ∃ before spaces u, v = before ++ b!"," ++ spaces ++ u ∧ (∀ b ∈ spaces, b = 32 ∨ b = 9) ∧ Says u b!"chunked"

/-- `FollowedBy h wire content`: `wire` is what follows the head `h` of a response to a request other than HEAD, and stands for `content`. -/
inductive FollowedBy (h : RHead) : Bytes → Bytes → Prop where
  | nothing : NoContent (num h.status) → FollowedBy h [] []
  | chunked (wire content : Bytes) (v : Bytes) : ¬ NoContent (num h.status) → h.codings.getLast? = some v → LastChunked v → ChunkedBody wire content → FollowedBy h wire content
  | sized (content : Bytes) : ¬ NoContent (num h.status) → h.codings = [] → h.lengths ≠ [] → (∀ v ∈ h.lengths, readNat 10 v = some content.length) → FollowedBy h content content

/-- The response ends with the connection. -/
def UntilClosed (h : RHead) : Prop := ¬ NoContent (num h.status) ∧ (∀ v, h.codings.getLast? = some v → ¬ LastChunked v) ∧ (h.codings = [] → h.lengths = [])

/-- No announcement of content in a response that has none, and no coding but `chunked`. -/
structure Usual (h : RHead) : Prop where
  nothing : NoContent (num h.status) → h.codings = [] ∧ (h.announced = none ∨ h.announced = some 0)
  coding : ∀ v ∈ h.codings, Says v b!"chunked"

/-- The response `m` to a request other than HEAD arrives, as `Paced` describes it, but what follows its head is said by the standard. -/
structure Arrives (r : ClientRequest) (h : RHead) (wire : Bytes) (inputs : List CInput) : Prop where
  get : ¬ IsHead r
  wf : h.Wf
  final : num h.status ≠ 100
  steady : ∀ i ∈ inputs, Steady i
  whole : incoming inputs = h.render ++ wire

end Pillow.Spec
