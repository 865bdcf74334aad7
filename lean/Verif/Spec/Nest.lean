import Verif.Model.HttpClient
/-!
# How deep the signals of the client nest (C86)

A slot of the application may call the client, which may emit another signal before it returns.  The model lets this
happen to a given depth (`fuel`): signals emitted deeper than that are observed, but nobody reacts to them.
-/
namespace Pillow.Spec
open Pillow

/-- How many reactions the application has in store. -/
def reactions (c : Client) : Nat := c.onHeaders.length + c.onContent.length + c.onFinished.length

/-- How often the application has been told that a request was finished. -/
def finishes (log : List CEv) : Nat := log.countP fun e => match e with | .finished .. => true | _ => false

end Pillow.Spec
