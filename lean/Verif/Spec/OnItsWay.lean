import Verif.Spec.ClientRun
/-!
# Requests are put on their way (C75)
-/
namespace Pillow.Spec
open Pillow

/-- An input that comes at a time at which nothing of a request is left unsent in the socket, unless it is one of those by which the socket is used only for sending or is aborted; and the
connection is not gone without an error while a response is awaited (Qt reports the error first). -/
def Seasonable (c : Client) : CInput → Prop
  | .connected | .arrive _ | .unsent _ | .tick _ | .call .abort => True
  | .disconnected => c.responsePending = false
  | .call _ | .error _ | .readyRead | .timeout => c.sock.unsent = false

/-- Every request has left the socket before its response ends. -/
def SentInTime (env : ClientEnv) (fuel : Nat) : Client → List CInput → Prop
  | _, [] => True
  | c, i :: is => Seasonable c i ∧ SentInTime env fuel (c.step env fuel i) is

/-- The request the client is busy with is on its way: a connection with its server is being opened and nothing has been written yet, or there is one and the request has been written to it. -/
def OnItsWay (c : Client) : Prop :=
  ∃ written, Sends c.log (some (c.request, written)) ∧ c.sock.peer = (c.request.url.host, portOf c.request.url) ∧
    ((c.sock.state = .connecting ∧ written = false) ∨ (c.sock.state = .connected ∧ written = true))

/-- What happens while nobody does anything: time passes, timers fire, the socket says that it is connected, that it has something to read, that bytes have been sent, that it is disconnected. -/
def Idle : CInput → Prop
  | .connected | .readyRead | .disconnected | .unsent _ | .timeout | .tick _ => True
  | _ => False

end Pillow.Spec
