import Verif.Spec.Response
/-!
# The types of files (C74)
-/
namespace Pillow.Spec
open Pillow

/-- The extensions that are known. -/
def mediaTypes : List (Bytes × Bytes) :=
  [(b!"html", b!"text/html"), (b!"jpg", b!"image/jpeg"), (b!"jpeg", b!"image/jpeg"), (b!"png", b!"image/png"), (b!"gif", b!"image/gif"), (b!"css", b!"text/css"),
   (b!"js", b!"text/javascript"), (b!"xml", b!"text/xml")]

/-- The name ends in a dot and this extension, in any letter case. -/
def Extended (name ext : Bytes) : Prop := ∃ base e, name = base ++ b!"." ++ e ∧ SameCI e ext

/-- The type of a file with this name: that of its extension, or, if it has none that is known, `application/octet-stream`. -/
def HasType (name type : Bytes) : Prop :=
  (∃ ext, (ext, type) ∈ mediaTypes ∧ Extended name ext) ∨ (type = b!"application/octet-stream" ∧ ∀ x ∈ mediaTypes, ¬ Extended name x.1)

end Pillow.Spec
