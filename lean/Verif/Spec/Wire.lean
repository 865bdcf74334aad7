import Verif.Spec.Http
import Verif.Spec.ReplyFraming
import Verif.Spec.Agree
import Verif.Spec.Protocol
import Verif.Spec.Response
/-!
# What a connection may have written (C99)
-/
namespace Pillow.Spec
open Pillow

/-- `x` is one whole response to the request `r`, as the standard reads it. -/
def FullReply (r : ReqView) (x : Bytes) : Prop :=
  ∃ (H : RHead) (wire content : Bytes), H.Wf ∧ x = H.render ++ wire ∧ (r.method = b!"HEAD" → wire = []) ∧ (r.method ≠ b!"HEAD" → FollowedBy H wire content)

/-- `x` is a response to the request `r` that the standard takes to end with the connection. -/
def LastReply (r : ReqView) (x : Bytes) : Prop := ∃ (H : RHead) (wire : Bytes), H.Wf ∧ x = H.render ++ wire ∧ r.method ≠ b!"HEAD" ∧ UntilClosed H

/-- What is written before the response to `r`: the interim response, if `r` asks for it. -/
def Before (r : ReqView) (i : Bytes) : Prop := (WantsContinue r ∧ i = b!"HTTP/1.1 100 Continue\r\n\r\n") ∨ (¬ WantsContinue r ∧ i = [])

/-- The requests were answered, in order, with one whole response each, and nothing else was written. -/
inductive AllAnswered : List ReqView → Bytes → Prop where
  | none : AllAnswered [] []
  | more {rs : List ReqView} {w : Bytes} (r : ReqView) (i x : Bytes) : AllAnswered rs w → Before r i → FullReply r x → AllAnswered (rs ++ [r]) (w ++ i ++ x)

/-- `Stands requests completed wire`: the requests handed out, the number of those completed, and all that was written. -/
inductive Stands : List ReqView → Nat → Bytes → Prop where
  /-- All are answered. -/
  | idle {rs : List ReqView} {w : Bytes} : AllAnswered rs w → Stands rs rs.length w
  /-- All are answered, and the next one, which is arriving, asked for an interim response. -/
  | interim {rs : List ReqView} {w : Bytes} : AllAnswered rs w → Stands rs rs.length (w ++ b!"HTTP/1.1 100 Continue\r\n\r\n")
  /-- All are answered; what came next was refused. -/
  | refused {rs : List ReqView} {w : Bytes} (code : Int) : AllAnswered rs w → Stands rs rs.length (w ++ errorReplyBytes code)
  /-- The last one is not answered yet. -/
  | busy {rs : List ReqView} {w : Bytes} (r : ReqView) (i : Bytes) : AllAnswered rs w → Before r i → Stands (rs ++ [r]) rs.length (w ++ i)
  /-- A beginning of the response to the last one was written. -/
  | begun {rs : List ReqView} {w : Bytes} (r : ReqView) (i x more : Bytes) : AllAnswered rs w → Before r i → (FullReply r (x ++ more) ∨ LastReply r (x ++ more)) → Stands (rs ++ [r]) rs.length (w ++ i ++ x)
  /-- The response to the last one ends with the connection. -/
  | last {rs : List ReqView} {w : Bytes} (r : ReqView) (i x : Bytes) : AllAnswered rs w → Before r i → LastReply r x → Stands (rs ++ [r]) (rs.length + 1) (w ++ i ++ x)

/-- The number of `requestCompleted()` signals. -/
def completions (log : List Ev) : Nat := (log.filter fun e => decide (e = .completed)).length

/-- The handler asks for no coding, or for `chunked` (the last header counts). -/
def OnlyChunks (hs : Headers) : Prop := ∀ t, lastHeader hs b!"transfer-encoding" = some t → SameCI t.value b!"chunked"

/-- The head of a response to `r` is one the library writes properly: a status of the standard, a length in the range of `int`, plain headers, no coding but `chunked`, and no content for a 204, 304 or 1xx. -/
structure ProperHead (r : ReqView) (h : RespHead) : Prop where
  status : h.status ∈ rfcCodes
  length : -1 ≤ h.len ∧ h.len < 2147483648
  version : ∃ maj min, r.version = b!"HTTP/" ++ maj ++ b!"." ++ min ∧ Small maj ∧ Small min
  headers : ∀ x ∈ h.headers, PlainHeader x
  codings : OnlyChunks h.headers
  size : h.bytes.length ≤ 80 * 1024 - 2
  nothing : NoContent h.status.toNat → h.len = 0

end Pillow.Spec
