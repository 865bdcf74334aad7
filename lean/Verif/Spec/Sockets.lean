import Verif.Model.HttpServerSockets
import Verif.Spec.Server
/-!
# Specification of the sockets of a server (C87)
-/
namespace Pillow.Spec
open Pillow

/-- The histories of a server, in which the code around it keeps the rules of `Polite`. -/
inductive Supplied : Sockets → Prop where
  | start : Supplied {}
  | refused (x x' : Sockets) : Supplied x → x.step .refused = some x' → Supplied x'
  | step (x x' : Sockets) (l : SLabel) : Supplied x → Polite x.server l → x.step (.ev l) = some x' → Supplied x'

/-- Any history whatsoever. -/
inductive Driven : Sockets → Prop where
  | start : Driven {}
  | step (x x' : Sockets) (l : SockLabel) : Driven x → x.step l = some x' → Driven x'

/-- Connection `i` serves the client at the other end of socket `k`. -/
def Holds (x : Sockets) (i k : Nat) : Prop := ∃ s, x.server.conns[i]? = some s ∧ Serving s.c.log ∧ x.of i = some k

end Pillow.Spec
