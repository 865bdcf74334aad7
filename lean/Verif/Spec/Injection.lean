import Verif.Spec.Client
import Verif.Spec.Reply
/-!
# Values that break out of the message they were put into (C91)
-/
namespace Pillow.Spec
open Pillow

/-- Nothing the caller passes contains a carriage return. -/
structure NoBreaks (r : OutRequest) : Prop where
  method : 13 ∉ r.method
  path : 13 ∉ r.path
  headers : ∀ h ∈ r.headers, 13 ∉ h.name ∧ 13 ∉ h.value
  data : 13 ∉ r.data

/-- The header with more text behind its value. -/
def Header.longer (h : Header) (more : Bytes) : Header := ⟨h.name, h.value ++ more⟩

end Pillow.Spec
