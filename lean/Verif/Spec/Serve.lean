import Verif.Spec.Response
/-!
# Specification of a server whose answers are a function of the request (C08, C52)
-/
namespace Pillow.Spec
open Pillow

/-- What a handler passes to `writeResponse`. -/
structure Answer where
  status : Int
  headers : Headers
  content : Bytes
  deriving Repr, DecidableEq

/-- The handler computes each answer from the request alone and gives it with one call of `writeResponse`, at any time and
from anywhere; it does not use the other methods that write.  Reading, parameters and the device are unrestricted. -/
def Serves (f : ReqView → Answer) (s : Conf) (l : Label) : Prop :=
  Gentle s l ∧ match l with
    | .call (.writeResponse st hs ct) => s.c.st = .sendingHeaders → f s.c.req = ⟨st, hs, ct⟩
    | .call (.writeHeaders _ _) => False
    | .call (.writeContent _) => False
    | .call .endContent => False
    | _ => True

/-- The answers leave `Content-Length` to the library and are smaller than 2 GiB (see C50). -/
def Sane (f : ReqView → Answer) : Prop :=
  ∀ r, lastHeader (f r).headers b!"content-length" = none ∧ ((f r).content.length : Int) < 2147483648

/-- The head for the answer to `r` (what it looks like: C20, C22, C23). -/
def HeadFor (f : ReqView → Answer) (r : ReqView) (h : RespHead) : Prop :=
  buildHead [] (r.version == b!"HTTP/1.1") r (f r).content.length false (f r).status (f r).headers = some h

/-- The bytes of the answer: head, and content unless it is for a HEAD request. -/
def answerBytes (f : ReqView → Answer) (r : ReqView) : Bytes :=
  ((buildHead [] (r.version == b!"HTTP/1.1") r (f r).content.length false (f r).status (f r).headers).map (·.bytes)).getD [] ++
    (if r.method = b!"HEAD" then [] else (f r).content)

/-- The interim response, if the request asks for it. -/
def interimFor (r : ReqView) : Bytes := if r.content ≠ [] ∧ SameCI (firstValue r.headers b!"expect") b!"100-continue" then continueBytes else []

/-- All that is written for a sequence of requests. -/
def replies (f : ReqView → Answer) (rs : List ReqView) : Bytes := (rs.map fun r => interimFor r ++ answerBytes f r).flatten

/-- The connection is kept after the answer. -/
def Keeps (f : ReqView → Answer) (r : ReqView) : Prop := ClientKeeps r ∧ ¬ HandlerCloses (f r).headers

/-- All that is ever written on the connection: either all requests were answered and kept and then something was refused, or
the last one is not kept. -/
def Final (f : ReqView → Answer) (l : List Ev) : Prop :=
  (∃ code, .errorReply code ∈ l ∧ (∀ r ∈ readys l, Keeps f r) ∧ wireOf l = replies f (readys l) ++ errorReplyBytes code) ∨
  ((∀ code, .errorReply code ∉ l) ∧ ∃ pre r, readys l = pre ++ [r] ∧ (∀ r ∈ pre, Keeps f r) ∧ ¬ Keeps f r ∧ wireOf l = replies f (readys l))

end Pillow.Spec
