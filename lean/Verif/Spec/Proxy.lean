import Verif.Model.HttpHandlerProxy
import Verif.Spec.Handler
/-!
# What a proxy pipe has to do (C44, C45)
-/
namespace Pillow.Spec
open Pillow

/-- The request `r` is with the handler: it was handed out last, and since then only bytes have arrived. -/
def WithHandler (log : List Ev) (r : ReqView) : Prop := ∃ b c, log = b ++ .ready r :: c ∧ ∀ e ∈ c, ∃ bs, e = .recv bs

/-- The response to the request is not ended: neither `requestCompleted` nor `closed` was emitted since. -/
def Open (a log : List Ev) : Prop := ∃ b, log = a ++ b ∧ ∀ e ∈ b, e ≠ .completed ∧ ∀ f u, e ≠ .closed f u

/-- No call that is under way will answer the request. -/
def NoAnswer (stack : List Instr) : Prop :=
  ∀ i ∈ stack, (∀ ct, i ≠ .writeContent ct) ∧ (∀ st hs ct, i ≠ .writeResponse st hs ct) ∧ (∀ st hs, i ≠ .writeHeaders st hs) ∧ i ≠ .endContent ∧
    ∀ ct, i = .writeResponseRest ct → ct = []

/-- A pipe made for a request while only it answers that request: the history of the connection up to then is `a`. Everything else may happen: the client sends
more or goes away, other code closes the connection or reads the request, the connection is used for further requests afterwards. -/
inductive Piping (u : Upstream) (a : List Ev) (r : ReqView) : Piped → Prop where
  | start (s : Conf) : Reach Proper s → s.inEnv = true → s.c.fault = none → s.c.log = a → WithHandler a r → NoAnswer s.stack → Piping u a r { s := s }
  | step (x x' : Piped) (l : PLabel) : Piping u a r x →
      (∀ m, l = .conn m → Proper x.s m ∧ (Open a x.s.c.log → ∀ c, m = .call c → ¬ Writes c)) → x.step u l = some x' → Piping u a r x'

/-- Upstream does not send more content than it declares. -/
def Upstream.Honest (u : Upstream) (arrived : Bytes) : Prop := 0 ≤ declaredLength (-1) u.headers → (arrived.length : Int) ≤ declaredLength (-1) u.headers

/-- The events `p` since the pipe was made, until the response was ended: the status and the headers of the upstream reply are sent once, and then
its content from the beginning: `content` of it. -/
def Relayed (u : Upstream) (r : ReqView) (p : List Ev) (content : Bytes) : Prop :=
  ∃ p₁ h p₂, p = p₁ ++ .head h :: p₂ ∧ (∀ e ∈ p₁, ∃ bs, e = .recv bs) ∧ HeadSpec r (-1) u.status u.headers h ∧
    (∀ e ∈ p₂, (∃ bs, e = .recv bs) ∨ (∃ bs, e = .body bs ∧ h.chunked = false) ∨ ∃ bs, e = .chunk bs ∧ h.chunked = true) ∧ contentOf p₂ = content

/-- … or nothing is sent at all. -/
def NothingSent (p : List Ev) : Prop := ∀ e ∈ p, ∃ bs, e = .recv bs

/-- … or the request is answered with 503 and no content. -/
def Unavailable (r : ReqView) (p : List Ev) : Prop :=
  ∃ p₁ h p₂, p = p₁ ++ .head h :: p₂ ∧ (∀ e ∈ p₁, ∃ bs, e = .recv bs) ∧ HeadSpec r 0 503 [] h ∧ (∀ e ∈ p₂, ∃ bs, e = .recv bs)

end Pillow.Spec
