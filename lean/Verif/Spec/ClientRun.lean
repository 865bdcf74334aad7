import Verif.Model.HttpClient
import Verif.Spec.Client
/-!
# What a user of the client relies on (C37, C38, C40)
-/
namespace Pillow.Spec
open Pillow

/-- Requests and `finished()` alternate: `Paired log waiting`, where `waiting` tells whether there is a request without its `finished()`. -/
inductive Paired : List CEv → Bool → Prop where
  | nil : Paired [] false
  | accepted {l : List CEv} (r : ClientRequest) : Paired l false → Paired (l ++ [.accepted r]) true
  | finished {l : List CEv} (e : CError) (st : Nat) (hs : Headers) (ct : Bytes) : Paired l true → Paired (l ++ [.finished e st hs ct]) false
  | other {l : List CEv} {w : Bool} (e : CEv) : (∀ r, e ≠ .accepted r) → (∀ x st hs ct, e ≠ .finished x st hs ct) → Paired l w → Paired (l ++ [e]) w

/-- The port a url names: 80 if it names none. -/
def portOf (u : Url) : Nat :=
  match u.port with
  | some p => p.toNat
  | none => 80

/-- The value of the `Host` header for a url: the host, and the port in decimal unless it is 80. -/
def HostValue (u : Url) (v : Bytes) : Prop :=
  (portOf u = 80 ∧ v = u.host) ∨ (portOf u ≠ 80 ∧ ∃ ds, readNat 10 ds = some (portOf u) ∧ Canonical ds ∧ v = u.host ++ b!":" ++ ds)

/-- The bytes of a request: a `Host` header for its url comes first. -/
def Wire (r : ClientRequest) (data : Bytes) : Prop :=
  ∃ host, HostValue r.url host ∧
    Frame { method := r.method.getD [], path := r.url.path ++ (if r.url.query = [] then [] else b!"?" ++ r.url.query), headers := ⟨b!"Host", host⟩ :: r.headers, data := r.data } data

/-- Requests are written at most once, after they have been accepted and before the next one is, as a whole, to a connection with the server their url
names: `Sends log (the last accepted request, and whether it has been written)`. -/
inductive Sends : List CEv → Option (ClientRequest × Bool) → Prop where
  | nil : Sends [] none
  | accepted {l : List CEv} {x : Option (ClientRequest × Bool)} (r : ClientRequest) : Sends l x → Sends (l ++ [.accepted r]) (some (r, false))
  | write {l : List CEv} (r : ClientRequest) (data : Bytes) : Sends l (some (r, false)) → Wire r data →
      Sends (l ++ [.write (r.url.host, portOf r.url) data]) (some (r, true))
  | other {l : List CEv} {x : Option (ClientRequest × Bool)} (e : CEv) : (∀ r, e ≠ .accepted r) → (∀ p d, e ≠ .write p d) → Sends l x → Sends (l ++ [e]) x

/-- The error a request ends with tells what has happened: after `AbortedError` the connection has just been aborted, after the other errors it has just been
closed. -/
def Reasons (log : List CEv) : Prop :=
  ∀ l₁ e st hs ct l₂, log = l₁ ++ .finished e st hs ct :: l₂ → e ≠ .noError →
    if e = .aborted then ∃ l, l₁ = l ++ [.abort] else ∃ l, l₁ = l ++ [.close]

/-- A request with method HEAD. -/
def IsHead (r : ClientRequest) : Prop := SameCI (r.method.getD []) b!"head"

/-- The application never aborts from a slot connected to `headersCompleted()`. -/
def AbortFree (onHeaders : List (List UserCall)) : Prop := ∀ calls ∈ onHeaders, .abort ∉ calls

/-- None of these calls is a HEAD request. -/
def HeadFree (calls : List UserCall) : Prop := ∀ r, .request r ∈ calls → ¬ IsHead r

/-- Requests that are put off are made in the end: `Deferrals log x`, where `x` is the request that waits.  The next request accepted after one has been put
off is that one; a later one that is put off replaces it, and one with a null method is forgotten. -/
inductive Deferrals : List CEv → Option ClientRequest → Prop where
  | nil : Deferrals [] none
  | deferred {l : List CEv} {x : Option ClientRequest} (r : ClientRequest) : Deferrals l x → r.method ≠ none → Deferrals (l ++ [.deferred r]) (some r)
  | forgotten {l : List CEv} {x : Option ClientRequest} (r : ClientRequest) : Deferrals l x → r.method = none → Deferrals (l ++ [.deferred r]) none
  | direct {l : List CEv} (r : ClientRequest) : Deferrals l none → Deferrals (l ++ [.accepted r]) none
  | later {l : List CEv} (r : ClientRequest) : Deferrals l (some r) → Deferrals (l ++ [.accepted r]) none
  | other {l : List CEv} {x : Option ClientRequest} (e : CEv) : (∀ r, e ≠ .accepted r) → (∀ r, e ≠ .deferred r) → Deferrals l x → Deferrals (l ++ [e]) x

/-- The conditions for using the connection again (HttpClient.cpp:481-489): it is there, it leads to the server named by the url, and less than the keep-alive timeout
has passed since the last response. -/
def Reuses (c : Client) (r : ClientRequest) : Prop :=
  c.sock.state = .connected ∧ r.url.host = c.request.url.host ∧ r.url.port = c.request.url.port ∧
    ∀ t, c.timer = some t → 0 ≤ c.keepAliveTimeout → (c.now : Int) - t ≤ c.keepAliveTimeout

end Pillow.Spec
