import Verif.Spec.Exchange
import Verif.Spec.Mime
import Verif.Spec.File
/-!
# A request of the client in the hands of a handler of the server (C78)
-/
namespace Pillow.Spec
open Pillow

/-- The client `c` has written its request to a connection, perhaps after others, and waits. The server at the other end, in the state `s`, has received what
was written, has shown as many requests as were written, and a handler is in control and has not answered the last one yet. -/
structure AskedServer (env : ClientEnv) (fuel : Nat) (c : Client) (s : Conf) : Prop where
  served : WellServed env fuel c
  awaiting : Awaiting c
  last : ∃ earlier data, said c.log = earlier ++ [(c.request, data)]
  askable : ∀ q ∈ said c.log, Askable q.1
  reach : Reach Proper s
  control : s.inEnv = true
  fault : s.c.fault = none
  handing : s.c.st = .sendingHeaders
  received : received (epoch s.c.log) <+: ((said c.log).map (·.2)).flatten
  count : (readys (epoch s.c.log)).length = (said c.log).length

instance (r : ClientRequest) : Decidable (IsHead r) := inferInstanceAs (Decidable (SameCI _ _))

/-- What the client gets of the content of the answer to its request: nothing if it has asked for the head only. -/
def due (r : ClientRequest) (content : Bytes) : Bytes := if IsHead r then [] else content

/-- How many bytes headers take on the wire. -/
def headerBytes (hs : Headers) : Nat := (hs.map fun h => h.name.length + h.value.length + 4).sum

/-- The bytes of a response, `wire`, reach the client in any division, and other things happen in between and afterwards. -/
def Reaches (wire : Bytes) (inputs : List CInput) : Prop := ∃ segs, Arrive segs inputs ∧ segs.flatten = wire

/-- The path leads to a file in the public directory `pub` that can be read. -/
structure ServedFile (fs : FileSystem) (pub path content : Bytes) : Prop where
  dir : pub ≠ []
  present : fs.present (pub ++ path) = true
  isFile : fs.isFile (pub ++ path) = true
  inside : pub <+: fs.canonical (pub ++ path)
  content : fs.contents (pub ++ path) = some content

/-- Hexadecimal digits, as `QByteArray::toHex` returns them. -/
def Hex (s : Bytes) : Prop := ∀ b ∈ s, (48 ≤ b ∧ b ≤ 57) ∨ (97 ≤ b ∧ b ≤ 102)

end Pillow.Spec
