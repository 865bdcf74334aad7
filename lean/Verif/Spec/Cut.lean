import Verif.Spec.ClientReply
/-!
# Answers that break off (C62, C63)
-/
namespace Pillow.Spec
open Pillow

/-- A beginning of the answer to the request `r` arrives, with at most one `100 Continue` before it; `more` is missing. What else happens, when the client reads, and how large its read buffer is at
any time, is left open. -/
structure BreaksOff (r : ClientRequest) (interims : List Response) (m : Response) (inputs : List CInput) (more : Bytes) : Prop where
  continues : ∀ i ∈ interims, Interim i
  few : interims.length ≤ 1
  answers : Answers r m
  final : num m.head.status ≠ 100
  steady : ∀ i ∈ inputs, Steady i
  begins : incoming inputs ++ more = (interims.map Response.render).flatten ++ m.render
  missing : more ≠ []

/-- What the application has seen in `l` of a response `m` whose content it gets as `all`, with `ct` not taken yet: at most one `headersCompleted()`, with the status and headers of
the response, and, after that, a beginning of its content. -/
structure SeenSome (m : Response) (l : List CEv) (ct all : Bytes) : Prop where
  signals : signals l <+: [.headersCompleted (num m.head.status) m.head.shown]
  pieces : ∀ l₁ ct l₂, l = l₁ ++ .contentReadyRead ct :: l₂ → taken l₁ ++ ct <+: all
  content : taken l ++ ct <+: all
  order : ∀ l₁ ct l₂, l = l₁ ++ .contentReadyRead ct :: l₂ → taken l₁ ++ ct ≠ [] → ∃ st hs, .headersCompleted st hs ∈ l₁

end Pillow.Spec
