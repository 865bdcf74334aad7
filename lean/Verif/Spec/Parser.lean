import Verif.Model.ResponseParser
/-!
# How a user drives the response parser
-/
namespace Pillow.Spec

/-- `inject` stops at the end of a message: the user injects what is left until everything is consumed, or there is an error. -/
def deliver (r : RespParser) (data : Bytes) : RespParser :=
  if h : data = [] ∨ (r.inject data).2 = 0 ∨ (r.inject data).1.hasError then (if data = [] then r else (r.inject data).1)
  else deliver (r.inject data).1 (data.drop (r.inject data).2)
termination_by data.length
decreasing_by
  simp only [not_or] at h
  have : 0 < data.length := by
    rcases data with _ | ⟨a, t⟩
    · exact absurd rfl h.1
    · simp
  simp only [List.length_drop]; omega

/-- The same for bytes that arrive in pieces. -/
def deliverAll (r : RespParser) (segs : List Bytes) : RespParser := segs.foldl deliver r

/-- The parser has been used in any way: data injected, the end of the input injected, cleared. -/
inductive Used : RespParser → Prop where
  | new : Used {}
  | inject {r : RespParser} (data : Bytes) : Used r → Used (r.inject data).1
  | injectEof {r : RespParser} : Used r → Used r.injectEof
  | clear {r : RespParser} : Used r → Used r.clear

end Pillow.Spec
