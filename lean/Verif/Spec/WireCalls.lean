import Verif.Spec.Wire
/-!
# Handlers whose responses are well-formed (C99)
-/
namespace Pillow.Spec
open Pillow

/-- What a handler may ask for: a status of the standard, a length (announced or given; -1 if unknown) in the range of `int`, plain headers of at most 26000 bytes with no coding but `chunked`, and no
content for a 204, 304 or 1xx. -/
structure HeadArgs (code : Int) (hs : Headers) (len : Int) : Prop where
  status : code ∈ rfcCodes
  length : -1 ≤ len ∧ len < 2147483648
  headers : ∀ x ∈ hs, PlainHeader x
  codings : OnlyChunks hs
  size : (hs.map fun x => x.name.length + x.value.length + 4).sum ≤ 26000
  nothing : NoContent code.toNat → len = 0

/-- A call with proper arguments. -/
def ProperCall : Call → Prop
  | .writeResponse status hs content => HeadArgs status hs (declaredLength content.length hs) ∧ content.length < 2147483648
  | .writeHeaders status hs => HeadArgs status hs (declaredLength (-1) hs)
  | .writeContent content => content.length < 2147483648
  | _ => True

/-- The object is used by its protocol (`Proper`), and every call has proper arguments. The calls may come at any time and in any order. -/
def Properly (s : Conf) (l : Label) : Prop := Proper s l ∧ ∀ a, l = .call a → ProperCall a

/-- The request has a version `HTTP/x.y` of ordinary size. -/
def PlainVersion (r : ReqView) : Prop := ∃ maj min, r.version = b!"HTTP/" ++ maj ++ b!"." ++ min ∧ Small maj ∧ Small min ∧ maj.length + min.length ≤ 1000

end Pillow.Spec
