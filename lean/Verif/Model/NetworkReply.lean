import Verif.Model.HttpClient
/-!
# Model of `Pillow::NetworkReply` and `Pillow::NetworkAccessManager` (pillowcore/HttpClient.cpp:750-970)

The reply is a `QIODevice` opened `ReadOnly | Unbuffered`; what Qt does in `read`, `readAll` and `peek` is modelled after its documented contract: bytes pushed
back by `peek` come first, then `readData` is asked once for the rest (`readAll`: again and again until it returns nothing).
Not modelled: cookies, attributes, `setRawHeader`, and which QObject signals the application connects to.
-/
namespace Pillow

/-- HttpClient.cpp:868-871, and the parts of `QIODevice` (open mode and buffer) that matter. -/
structure NReply where
  isOpen : Bool := false
  content : Bytes := []
  pos : Nat := 0
  /-- `QIODevice`'s own buffer: only `peek` puts something there. -/
  pushed : Bytes := []
  deriving Repr, DecidableEq, Inhabited

/-- `open(QIODevice::ReadOnly | QIODevice::Unbuffered)` at the end of `client_headersCompleted` (HttpClient.cpp:822); opening clears `QIODevice`'s buffer. -/
def NReply.headersCompleted (r : NReply) : NReply := { r with isOpen := true, pushed := [] }

/-- `client_contentReadyRead` (HttpClient.cpp:827-832), where `consumeContent()` returns `bs`. -/
def NReply.contentReadyRead (r : NReply) (bs : Bytes) : NReply := { r with content := r.content ++ bs }

/-- `readData` (HttpClient.cpp:859-866); `none` is -1. -/
def NReply.readData (r : NReply) (maxSize : Nat) : Option Bytes × NReply :=
  if r.pos ≥ r.content.length then (none, r)
  else
    let bytesRead := min maxSize (r.content.length - r.pos)
    (some ((r.content.drop r.pos).take bytesRead), { r with pos := r.pos + bytesRead })

/-- `bytesAvailable` (HttpClient.cpp:779-782); `QNetworkReply::bytesAvailable()` is the size of `QIODevice`'s buffer. -/
def NReply.bytesAvailable (r : NReply) : Int := r.pushed.length + r.content.length - r.pos

/-- `QIODevice::read(maxSize)`: the bytes read. (Qt, over `readData`, HttpClient.cpp:858-865.) -/
def NReply.read (r : NReply) (maxSize : Nat) : Bytes × NReply :=
  if !r.isOpen then ([], r)
  else
    let first := r.pushed.take maxSize
    let r := { r with pushed := r.pushed.drop maxSize }
    if first.length < maxSize then
      let d := r.readData (maxSize - first.length)
      (first ++ d.1.getD [], d.2)
    else (first, r)

/-- `QIODevice::readAll()`: `read` until nothing comes any more (blocks of 16 KiB); two calls, of which the first reads everything that is there, have the same
result. (Qt, over `readData`, HttpClient.cpp:858-865.) -/
def NReply.readAll (r : NReply) : Bytes × NReply :=
  let a := r.read (r.pushed.length + r.content.length)
  let b := a.2.read 16384
  (a.1 ++ b.1, b.2)

/-- `QIODevice::peek(maxSize)`: read and push back. (Qt, over `readData`, HttpClient.cpp:858-865.) -/
def NReply.peek (r : NReply) (maxSize : Nat) : Bytes × NReply :=
  let a := r.read maxSize
  (a.1, { a.2 with pushed := a.1 ++ a.2.pushed })

/-- What happens to a reply: signals of the client, and calls of the application. (HttpClient.cpp:773-855.) -/
inductive NEv where
  | headersCompleted
  | contentReadyRead (bs : Bytes)
  | read (n : Nat)
  | readAll
  | peek (n : Nat)
  deriving Repr, DecidableEq

/-- The bytes the call returns, and the reply afterwards. (HttpClient.cpp:773-865.) -/
def NReply.step (r : NReply) : NEv → Bytes × NReply
  | .headersCompleted => ([], r.headersCompleted)
  | .contentReadyRead bs => ([], r.contentReadyRead bs)
  | .read n => r.read n
  | .readAll => r.readAll
  | .peek n => r.peek n

/-- What a sequence of events returns, one by one, and the reply afterwards. (HttpClient.cpp:773-865.) -/
def NReply.run (r : NReply) : List NEv → List (NEv × Bytes) × NReply
  | [] => ([], r)
  | e :: es =>
    let a := r.step e
    let b := a.2.run es
    ((e, a.1) :: b.1, b.2)

/-! ## NetworkAccessManager -/

/-- `QNetworkAccessManager::Operation`. (Qt; the cases at HttpClient.cpp:933-956.) -/
inductive NOp where
  | head | get | put | post | delete | custom | unknown
  deriving Repr, DecidableEq

/-- What matters of a `NetworkReply` for the manager: the pointer `_client`, whether its slots are connected to the client's signals, whether it is finished, and
the authority of its URL. (HttpClient.cpp:757-776, 832-855.) -/
structure NLink where
  client : Option Nat
  connected : Bool := true
  finished : Bool := false
  authority : Bytes
  deriving Repr, DecidableEq

/-- The manager (HttpClient.h, `_urlToClientsMap`, `_clientToUrlMap`), the replies it has made, and which of its clients have a request to answer. Clients are
numbered in the order of their creation. `pool` has the client that was inserted last at its head: `QMultiHash::find` returns that one. -/
structure Nam where
  pool : List (Bytes × Nat) := []
  authorities : List Bytes := []
  replies : List NLink := []
  busy : List Nat := []
  deriving Repr, DecidableEq

/-- `_urlToClientsMap.find` and `erase` (HttpClient.cpp:900-906). -/
def takeClient (authority : Bytes) : List (Bytes × Nat) → Option (Nat × List (Bytes × Nat))
  | [] => none
  | (a, i) :: l => if a = authority then some (i, l) else (takeClient authority l).map fun (j, l') => (j, (a, i) :: l')

/-- `createRequest` (HttpClient.cpp:889-958) for an http URL with this authority. The request is passed to the client unless the operation is unknown; a client
that is busy refuses it (HttpClient.cpp:458-462). -/
def Nam.create (n : Nam) (op : NOp) (authority : Bytes) : Nam :=
  match takeClient authority n.pool with
  | some (i, pool) =>
    { n with pool := pool, replies := n.replies ++ [{ client := some i, authority := authority }], busy := if op = .unknown ∨ i ∈ n.busy then n.busy else i :: n.busy }
  | none =>
    let i := n.authorities.length
    { n with authorities := n.authorities ++ [authority], replies := n.replies ++ [{ client := some i, authority := authority }],
             busy := if op = .unknown then n.busy else i :: n.busy }

/-- `NetworkReply::client_finished` up to the signal `error()` (HttpClient.cpp:834-852): the reply no longer listens to the client; without an error it goes on to the end. -/
def NLink.clientFinished (i : Nat) (err : Bool) (r : NLink) : NLink :=
  if r.client = some i ∧ r.connected then (if err then { r with connected := false } else { r with connected := false, client := none, finished := true }) else r

/-- The client `i` emits `finished()`: the manager's slot `client_finished` (HttpClient.cpp:960-969) comes first, as it was connected first; then the replies'. A client
without an authority is deleted later. -/
def Nam.clientFinished (n : Nam) (i : Nat) (err : Bool) : Nam :=
  { n with pool := if n.authorities.getD i [] = [] then n.pool else (n.authorities.getD i [], i) :: n.pool
           replies := n.replies.map (NLink.clientFinished i err)
           busy := n.busy.filter (· ≠ i) }

/-- What can happen: a request (HttpClient.cpp:887-959), a client that finishes (832-855, 961-970), `abort` (773-776),
a reply that is deleted. -/
inductive NLabel where
  /-- The application makes a request. -/
  | create (op : NOp) (authority : Bytes)
  /-- A client emits `finished()`. -/
  | clientFinished (i : Nat) (err : Bool)
  /-- The application calls `abort()` of a reply (HttpClient.cpp:773-776); a busy client emits `finished()` at once. -/
  | abort (r : Nat)
  /-- The signal `error()` of a reply has been handled (HttpClient.cpp:854-856). -/
  | errorHandled (r : Nat)
  /-- The application deletes a reply. -/
  | delete (r : Nat)
  deriving Repr, DecidableEq

/-- One step of the manager and its replies (HttpClient.cpp:757-776, 832-855, 887-970). -/
def Nam.step (n : Nam) : NLabel → Nam
  | .create op authority => n.create op authority
  | .clientFinished i err => n.clientFinished i err
  | .abort r =>
    match n.replies[r]? with
    | some { client := some i, .. } => if i ∈ n.busy then n.clientFinished i true else n
    | _ => n
  | .errorHandled r => { n with replies := n.replies.modify r fun l => if l.connected then l else { l with client := none, finished := true } }
  | .delete r => { n with replies := n.replies.modify r fun l => { l with client := none, connected := false } }

/-- A sequence of steps (HttpClient.cpp:757-970). -/
def Nam.run (n : Nam) (ls : List NLabel) : Nam := ls.foldl Nam.step n

end Pillow
