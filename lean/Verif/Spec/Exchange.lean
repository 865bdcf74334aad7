import Verif.Spec.ClientReply
import Verif.Spec.Agree
/-!
# A client and a server of the library talking to each other (C58)
-/
namespace Pillow.Spec
open Pillow

/-- What a client has said on its present connection: the last accepted request, and the requests written since `connectToHost` with their bytes. -/
structure Talk where
  last : Option ClientRequest := none
  said : List (ClientRequest × Bytes) := []

def Talk.next (t : Talk) : CEv → Talk
  | .accepted r => { t with last := some r }
  | .connectToHost _ _ => { t with said := [] }
  | .write _ data => { t with said := t.said ++ (t.last.map (·, data)).toList }
  | _ => t

/-- The requests written to the present connection, with their bytes, in order. -/
def said (log : List CEv) : List (ClientRequest × Bytes) := (log.foldl Talk.next {}).said

/-- The request a client puts on the wire: the path with the query, and a `Host` header in front of the application's headers. -/
def outgoing (r : ClientRequest) (host : Bytes) : OutRequest :=
  { method := r.method.getD [], path := r.url.path ++ (if r.url.query = [] then [] else b!"?" ++ r.url.query), headers := ⟨b!"Host", host⟩ :: r.headers, data := r.data }

/-- A request a server of the library accepts. -/
def Askable (r : ClientRequest) : Prop := ∀ host, HostValue r.url host → Writable (outgoing r host)

/-- The server shows the request `r` of the client. -/
def Delivered (r : ClientRequest) (v : ReqView) : Prop := ∃ host, HostValue r.url host ∧ Received (outgoing r host) v

/-- A response whose end the client can see: its length is known (and below 2 GiB) or it is sent in chunks (each below 2 GiB). -/
def Delimited (h : RespHead) (b : List Ev) : Prop :=
  (0 ≤ h.len ∧ h.len < 2147483648) ∨ (h.chunked = true ∧ ∀ bs, .chunk bs ∈ b → bs.length < 2147483648)

/-- The headers the client sees of a response; the length is in canonical decimal notation. -/
def HeadersOf (v : ReqView) (h : RespHead) (hs : Headers) : Prop :=
  ∃ len, readNat 10 len = some h.len.toNat ∧ Canonical len ∧ hs = sentHeaders v h.headers (if h.chunked then none else some len) h.keepAlive h.chunked

/-- The client reports a response with this status, these headers and this content: `headersCompleted()` once, then `finished()` without error; what the
application has taken of the content and what is left of it are the whole content. -/
def ReportsAs (before log : List CEv) (status : Nat) (headers : Headers) (content : Bytes) : Prop :=
  ∃ l₁ ct l₂, log = before ++ l₁ ++ .finished .noError status headers ct :: l₂ ∧ signals l₁ = [.headersCompleted status headers] ∧
    taken l₁ ++ ct = content ∧ Announced l₁ content

end Pillow.Spec
