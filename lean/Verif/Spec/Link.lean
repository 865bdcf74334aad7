import Verif.Spec.Exchange
import Verif.Spec.Cut
import Verif.Spec.OnItsWay
import Verif.Spec.Response
import Verif.Spec.Http
/-!
# A client and servers of the library, connected (C82)
-/
namespace Pillow.Spec.Pair
open Pillow Pillow.Spec

/-! ## What the application of the client has seen -/

/-- How a request ended: the error, status and headers shown by `finished()`, and all the content the application was given: what it took before, and what was left. -/
structure Outcome where
  error : CError
  status : Nat
  headers : Headers
  content : Bytes
  deriving DecidableEq

/-- A request written to a connection, its bytes, and how it ended (if it has). -/
structure Entry where
  request : ClientRequest
  data : Bytes
  outcome : Option Outcome
  deriving DecidableEq

/-- The last accepted request, the content taken since a request was last written, the requests written to earlier connections, those written to the present connection before the last one, and that one. -/
structure Ledger where
  last : Option ClientRequest := none
  taken : Bytes := []
  past : List (List Entry) := []
  done : List Entry := []
  current : Option Entry := none

/-- The requests written to the present connection. -/
def Ledger.entries (t : Ledger) : List Entry := t.done ++ t.current.toList

/-- What an event adds: `finished()` says how the last written request ended, unless that is known. -/
def Ledger.next (t : Ledger) : CEv → Ledger
  | .accepted r => { t with last := some r }
  | .connectToHost _ _ => { t with past := t.past ++ [t.entries], done := [], current := none }
  | .write _ data => { t with taken := [], done := t.entries, current := t.last.map (⟨·, data, none⟩) }
  | .consumed bs => { t with taken := t.taken ++ bs }
  | .finished e st hs ct => { t with current := t.current.map fun x => { x with outcome := x.outcome <|> some ⟨e, st, hs, t.taken ++ ct⟩ } }
  | _ => t

def ledger (log : List CEv) : Ledger := log.foldl Ledger.next {}

/-- The requests written, connection by connection and in order, with the way each ended.  (The first list is empty: it belongs to the time before the first connection.) -/
def exchanges (log : List CEv) : List (List Entry) := (ledger log).past ++ [(ledger log).entries]

/-! ## What the handlers of a server have written -/

/-- A response that has been begun: the request it answers, its head, and the content written so far. -/
structure Answer where
  request : ReqView
  head : RespHead
  content : Bytes
  deriving DecidableEq

structure Serving where
  last : Option ReqView := none
  before : List Answer := []
  current : Option Answer := none

def Serving.all (t : Serving) : List Answer := t.before ++ t.current.toList

def Serving.next (t : Serving) : Ev → Serving
  | .ready r => { t with last := some r }
  | .head h => { t with before := t.all, current := t.last.map (⟨·, h, []⟩) }
  | .body bs | .chunk bs => { t with current := t.current.map fun a => { a with content := a.content ++ bs } }
  | _ => t

/-- The responses begun, in order. -/
def answers (es : List Ev) : List Answer := (es.foldl Serving.next {}).all

/-- The number of responses completed. -/
def completions (es : List Ev) : Nat := (es.filter (· = .completed)).length

/-- Responses whose end the client can see, with a status from RFC 2616 and headers that are lines, within the limits of the parsers; compressed content is only sent to clients
that do not decode it. -/
structure Serves (env : ClientEnv) (es : List Ev) : Prop where
  status : ∀ h, .head h ∈ es → h.status ∈ rfcCodes ∧ h.status ≠ 100
  delimited : ∀ h, .head h ∈ es → (0 ≤ h.len ∧ h.len < 2147483648) ∨ h.chunked = true
  chunks : ∀ bs, .chunk bs ∈ es → bs.length < 2147483648
  plain : ∀ h, .head h ∈ es → ∀ x ∈ h.headers, PlainHeader x
  size : ∀ h, .head h ∈ es → h.bytes.length ≤ 80 * 1024 - 2
  plainly : ∀ h, .head h ∈ es → ¬ Gzipped h.headers ∨ env.inflate = none

/-! ## The two together -/

/-- A client, the connection objects of the server that served its earlier connections (as they were when the client left them), the one that serves its present connection, and the bytes that
have reached the client on that connection; `mark` is how many of them had when the client last wrote a request. -/
structure Link where
  client : Client
  past : List Conf
  server : Conf
  arrived : Bytes
  mark : Nat

/-- How often the client has opened a connection. -/
def connects (log : List CEv) : Nat := (log.filter fun | .connectToHost .. => true | _ => false).length

/-- What the client has written to the present connection. -/
def spoken (log : List CEv) : Bytes := ((said log).map (·.2)).flatten

/-- A connection object, new or used before, that has just been initialized. -/
structure Blank (s : Conf) : Prop where
  reach : Reach Proper s
  blank : ∃ l, s.c.log = l ++ [.init]

def nextHead (t : Option Headers) : CEv → Option Headers
  | .write .. => none
  | .headersCompleted _ hs => some hs
  | _ => t

/-- The headers of the answer to the request written last, once the client has shown them. -/
def lastHead (log : List CEv) : Option Headers := log.foldl nextHead none

/-- The client has read nothing of the answer it waits for, or it has read all the headers, and they do not announce compressed content that the client decodes.  (When a request fails at another point, the next
response may be reported wrongly: see C71.) -/
def Clear (env : ClientEnv) (c : Client) (arrived mark : Nat) : Prop :=
  arrived ≤ mark + c.sock.rx.length ∨ ∃ hs, lastHead c.log = some hs ∧ (¬ Gzipped hs ∨ env.inflate = none)

/-- What may happen to the client besides the arrival of data: anything while it does not await a response.  While it does, a request can fail at the points given by `Clear` (the application does not abort again
when it is told), and nothing else ends the connection.  Requests leave the socket in time (see C75). -/
structure Quietly (env : ClientEnv) (k : Link) (i : CInput) : Prop where
  other : ∀ bs, i ≠ .arrive bs
  seasonable : Seasonable k.client i
  steady : k.client.responsePending = true → Steady i ∨ (Failure i ∧ Clear env k.client k.arrived.length k.mark ∧ .abort ∉ k.client.onFinished.headD [])

/-- The number of requests written to the present connection. -/
def written (c : Client) : Nat := (said c.log).length

/-- The client and its servers, connected by a network that delivers what is sent, in order, in any pieces, at any time; application and handlers do what they like otherwise.  When the client opens a new
connection, it is served by another connection object, or by one that has been initialized again. -/
inductive Linked (env : ClientEnv) (fuel : Nat) : Link → Prop where
  /-- A new client.  The application does not abort while it handles `headersCompleted()` or `contentReadyRead()`; connecting does not fail. -/
  | start (onH onC onF : List (List UserCall)) (onK : List SockReply) (s : Conf) : AbortFree onH → AbortFree onC → (∀ x, .error x ∉ onK) → Blank s →
      Linked env fuel ⟨Client.new onH onC onF onK, [], s, [], 0⟩
  /-- Something happens to the client, and it uses the present connection, if any. -/
  | client {k : Link} (i : CInput) : Linked env fuel k → Quietly env k i → connects (k.client.step env fuel i).log = connects k.client.log →
      (∀ q ∈ said (k.client.step env fuel i).log, Askable q.1) → 
      Linked env fuel { k with client := k.client.step env fuel i, mark := if written (k.client.step env fuel i) = written k.client then k.mark else k.arrived.length }
  /-- Something happens to the client, and it opens a new connection. -/
  | reconnect {k : Link} (i : CInput) (s : Conf) : Linked env fuel k → Quietly env k i → connects (k.client.step env fuel i).log ≠ connects k.client.log →
      (∀ q ∈ said (k.client.step env fuel i).log, Askable q.1) → Blank s → Linked env fuel ⟨k.client.step env fuel i, k.past ++ [k.server], s, [], 0⟩
  /-- Something happens in the server: some of what the client has written reaches it, or its handler does something, or anything else. -/
  | server {k : Link} (l : Label) (s : Conf) : Linked env fuel k → k.server.step l = some s → l ≠ .init → received (epoch s.c.log) <+: spoken k.client.log → Serves env (epoch s.c.log) →
      Linked env fuel { k with server := s }
  /-- Some of what the server has written reaches the client. -/
  | down {k : Link} (bs : Bytes) : Linked env fuel k → k.arrived ++ bs <+: wireOf (epoch k.server.c.log) →
      Linked env fuel { k with client := k.client.step env fuel (.arrive bs), arrived := k.arrived ++ bs }

/-- The outcome of a request is the answer `a`: no error, and the handler's status, headers and content. -/
structure IsAnswer (o : Outcome) (a : Answer) : Prop where
  error : o.error = .noError
  status : o.status = a.head.status.toNat
  headers : HeadersOf a.request a.head o.headers
  content : o.content = a.content

/-- The outcome of a request that failed shows the status and headers of the answer `a`, and a beginning of its content. -/
structure IsPart (o : Outcome) (a : Answer) : Prop where
  status : o.status = a.head.status.toNat
  headers : HeadersOf a.request a.head o.headers
  content : o.content <+: a.content

/-- The connection objects of the server, in the order of the connections. -/
def Link.servers (k : Link) : List Conf := k.past ++ [k.server]

end Pillow.Spec.Pair
