import Verif.Model.HttpServer
import Verif.Spec.Protocol
/-!
# Specification of the server's pool (C34)
-/
namespace Pillow.Spec
open Pillow

/-- The connection with this history serves a client: it has been initialized and has not emitted `closed` since. -/
def Serving (log : List Ev) : Prop := ∃ a b, log = a ++ .init :: b ∧ ∀ e ∈ b, e ≠ .init ∧ ∀ f u, e ≠ .closed f u

/-- The rules for the code around the server: it only calls connections it was given (by `requestReady`, so they have been initialized), and
does not call `close()` while `requestCompleted` is being handled (see C15). -/
def Polite (v : Server) : SLabel → Prop
  | .accept => True
  | .conn i l => ∀ s, v.conns[i]? = some s → s.c.log ≠ [] ∧ Gentle s l

/-- The histories of a server. -/
inductive Served : Server → Prop where
  | start : Served .create
  | step (v v' : Server) (l : SLabel) : Served v → Polite v l → v.step l = some v' → Served v'

end Pillow.Spec
