import Verif.Model.NetworkReply
import Verif.Spec.ClientReply
/-!
# What reading from a reply means (C46), and the manager's promises (C47)
-/
namespace Pillow.Spec
open Pillow

/-- The content that has arrived at the reply. -/
def arrived (es : List NEv) : Bytes := (es.map fun | .contentReadyRead bs => bs | _ => []).flatten

/-- The bytes the application has read (`peek` does not count). -/
def hasRead (l : List (NEv × Bytes)) : Bytes := (l.map fun | (.read _, bs) => bs | (.readAll, bs) => bs | _ => []).flatten

/-- A client whose content is taken by a reply: whenever there is some, the reply's slot takes all of it (HttpClient.cpp:829). -/
def ServesReply (c : Client) : Prop := ∀ calls ∈ c.onContent, calls = [.consumeContent]

/-- What a reply gets to know of what its client does: the headers, and the content its slot has taken. -/
def toldReply (log : List CEv) : List NEv := log.filterMap fun | .headersCompleted .. => some .headersCompleted | .consumed bs => some (.contentReadyRead bs) | _ => none

/-- The clients do as C37 says: `finished()` only when there is a request to answer. -/
def Orderly (n : Nam) : NLabel → Prop
  | .clientFinished i _ => i ∈ n.busy
  | _ => True

/-- The managers that can come about when all clients are orderly. -/
inductive Managed : Nam → Prop where
  | new : Managed {}
  | step (n : Nam) (l : NLabel) : Managed n → Orderly n l → Managed (n.step l)

/-- The reply uses the client: it is told what the client receives. -/
def Uses (n : Nam) (r i : Nat) : Prop := ∃ l, n.replies[r]? = some l ∧ l.client = some i ∧ l.connected = true

/-- The authority of the URL the reply was made for. -/
def ReplyFor (n : Nam) (r : Nat) (authority : Bytes) : Prop := ∃ l, n.replies[r]? = some l ∧ l.authority = authority

end Pillow.Spec
