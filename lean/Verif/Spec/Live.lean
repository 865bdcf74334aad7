import Verif.Spec.Protocol
import Verif.Spec.Response
/-!
# Reading a request only while its memory is there
-/
namespace Pillow.Spec
open Pillow

/-- A request is being handled. -/
def Handled (s : Conf) : Prop := s.c.st = .sendingHeaders ∨ s.c.st = .sendingContent

/-- The label asks for data of the request that is computed on demand. -/
def AsksData (l : Label) : Prop := l = .readParams ∨ (∃ n v, l = .setParam n v) ∨ ∃ d, l = .readDecoded d

/-- The accessors are used only while a request is being handled, and `writeResponse` is given content only if the
response can have any: the request is not a HEAD request and no `Content-Length: 0` is passed along with the content. -/
def Careful (s : Conf) (l : Label) : Prop :=
  Proper s l ∧ (AsksData l → Handled s) ∧
  ∀ status hs content, l = .call (.writeResponse status hs content) → content ≠ [] →
    ∀ r, (readys s.c.log).getLast? = some r → r.method ≠ b!"HEAD" ∧ declaredLength content.length hs ≠ 0

end Pillow.Spec
