import Verif.Spec.Server
/-!
# What it means that a connection object serves a client as a new one would (C73)
-/
namespace Pillow.Spec
open Pillow

/-- The calls that read the request or change its parameters. (The plain accessors change nothing and are no moves of the environment.) -/
def UsesRequest : Label → Prop
  | .readParams | .setParam _ _ | .readDecoded _ => True
  | _ => False

/-- The connection object `s` is to its client what `t` is: since the end of the history `pre` the same has happened (bytes, signals, everything written), it is about to do the same, and
if a request was handed out, everything it shows of it is the same. -/
structure AsNew (pre : List Ev) (s t : Conf) : Prop where
  happened : s.c.log = pre ++ t.c.log
  doing : s.stack = t.stack
  state : s.c.st = t.c.st
  device : s.c.dev = t.c.dev
  failed : s.c.fault = t.c.fault
  request : readys t.c.log ≠ [] → s.c.req = t.c.req ∧ s.c.viewsValid = t.c.viewsValid ∧ s.c.params = t.c.params ∧ ∀ d, s.c.decoded d = t.c.decoded d

/-- In the course of these moves of a new object the application asks for the request only after the first one was handed out. -/
def AsksInTime (t : Conf) (ls : List Label) : Prop :=
  ∀ a l b t', ls = a ++ l :: b → UsesRequest l → t.run a = some t' → readys t'.c.log ≠ []

/-- The same for servers: the application asks a connection for its request only when one was handed out since the client connected. -/
def AsksServing (v : Server) : SLabel → Prop
  | .accept => True
  | .conn i l => UsesRequest l → ∀ s, v.conns[i]? = some s → readys (epoch s.c.log) ≠ []

/-- The histories of a server whose application is polite and asks in time. -/
inductive ServedInTime : Server → Prop where
  | start : ServedInTime .create
  | step (v v' : Server) (l : SLabel) : ServedInTime v → Polite v l → AsksServing v l → v.step l = some v' → ServedInTime v'

end Pillow.Spec
