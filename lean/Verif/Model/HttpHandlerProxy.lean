import Verif.Model.HttpConnection
/-!
# Model of `HttpHandlerProxyPipe` (pillowcore/HttpHandlerProxy.cpp:70-155)

The pipe couples two objects: the connection it answers (`Conf`, with all its re-entrancy) and the reply of the upstream server (a `QNetworkReply`, of which only what the pipe
sees is modelled: its status, its headers, the bytes that have arrived, `readyRead()`, `finished()` and `error()`).

The pipe's slots call the connection, and go on when the call has returned. Meanwhile the connection may emit `requestCompleted` or `closed`, which breaks the pipe. What remains
of the slot is kept in `task`, with the stack the connection had when the slot was entered.

Simplifications:
* A call is made together with what the connection executes until it has written something (nothing else can happen in between: foreign code is not in control).
* The slots of the pipe are not entered while one of them is being executed (the signals of the reply come from the event loop).
* `error()` is an error if the transfer failed, or if the status is at least 400 (QNetworkReply::NetworkError).
* Deletion of the pipe (`deleteLater`) is not modelled: a broken pipe is connected to nothing.
-/
namespace Pillow

/-- The upstream reply: `HttpStatusCodeAttribute` and `rawHeaderPairs()`. (HttpHandlerProxy.cpp:116-117.) -/
structure Upstream where
  status : Int
  headers : Headers
  deriving Repr, DecidableEq

/-- What remains of a slot after `sendHeaders()`. (HttpHandlerProxy.cpp:129-156.) -/
inductive PTask where
  /-- `if (!_broken) pump(_proxiedReply->readAll())` (line 130). -/
  | pump
  /-- `if (!_broken && _request->state() == SendingContent) _request->close()` (lines 139-144). -/
  | finish
  deriving Repr, DecidableEq

/-- A connection, the pipe that answers its request, and the upstream reply. (HttpHandlerProxy.cpp:72-82.) -/
structure Piped where
  s : Conf
  /-- `_headersSent` (HttpHandlerProxy.h). -/
  headersSent : Bool := false
  /-- `_broken`; the pipe is disconnected from both sides (lines 89-107). -/
  broken : Bool := false
  task : Option (List Instr × PTask) := none
  /-- All bytes of content that have arrived from upstream. -/
  arrived : Bytes := []
  /-- Those `readAll()` would return. -/
  unread : Bytes := []
  /-- `finished()` was emitted; did the transfer fail? -/
  outcome : Option Bool := none
  /-- Somebody other than the pipe closed the connection, or destroyed one of the two objects, while the response was unfinished. -/
  left : Bool := false
  deriving Repr, DecidableEq

/-- The signals `teardown()` is connected to (lines 76-77). -/
def Ev.ends : Ev → Bool
  | .completed => true
  | .closed _ _ => true
  | _ => false

/-- The signal `closed`, to which the pipe is connected (HttpHandlerProxy.cpp:77). -/
def Ev.isClosed : Ev → Bool
  | .closed _ _ => true
  | _ => false

/-- The connection has moved to `s'`: the pipe is broken if one of the signals was emitted (lines 89-107). -/
def Piped.moved (x : Piped) (s' : Conf) : Piped :=
  { x with s := s', broken := x.broken || (s'.c.log.drop x.s.c.log.length).any Ev.ends }

/-- What remains of a slot. (HttpHandlerProxy.cpp:132, 141-146.) -/
def Piped.resume (x : Piped) : PTask → Option Piped
  | .pump =>
    if x.broken then some { x with task := none }
    else (x.s.run [.call (.writeContent x.unread), .tau 0]).map fun s' => { (x.moved s') with unread := [], task := none }
  | .finish =>
    if x.broken = false ∧ x.s.c.st = .sendingContent then (x.s.run [.call .close, .tau 0]).map fun s' => { (x.moved s') with task := none }
    else some { x with task := none }

/-- `sendHeaders()` (lines 110-123) and then the rest of the slot. -/
def Piped.sendHeaders (u : Upstream) (x : Piped) (k : PTask) : Option Piped :=
  if x.headersSent ∨ x.broken then x.resume k
  else (x.s.run [.call (.writeHeaders u.status u.headers), .tau 0]).map fun s' => { (x.moved s') with headersSent := true, task := some (x.s.stack, k) }

/-- `proxiedReply->error() != NoError`. (HttpHandlerProxy.cpp:137.) -/
def Upstream.isError (u : Upstream) (failed : Bool) : Bool := failed || decide (400 ≤ u.status)

/-- The two branches of `proxiedReply_finished` (lines 133-154). -/
def Piped.finished (u : Upstream) (x : Piped) (failed : Bool) : Option Piped :=
  let x := { x with outcome := some failed }
  if u.isError failed = false then x.sendHeaders u .finish
  else if x.broken = false ∧ x.s.c.st = .sendingHeaders then (x.s.run [.call (.writeResponse 503 [] []), .tau 0, .tau 0]).map x.moved
  else some x

/-- What can happen: to the connection, or the slots of the pipe (HttpHandlerProxy.cpp:72-156). -/
inductive PLabel where
  /-- The connection, or other code that uses it, moves. -/
  | conn (l : Label)
  /-- Bytes arrive from upstream. -/
  | arrive (bs : Bytes)
  /-- The upstream reply emits `readyRead()`. -/
  | readyRead
  /-- The upstream reply emits `finished()`. -/
  | finished (failed : Bool)
  /-- The connection has returned to the slot. -/
  | resume
  /-- The connection or the reply is destroyed (lines 78, 81). -/
  | destroyed
  deriving Repr, DecidableEq

/-- One step of the pair. The signals of the reply reach the pipe only while it is not broken, and only before the
reply has finished. (HttpHandlerProxy.cpp:72-156.) -/
def Piped.step (u : Upstream) (x : Piped) : PLabel → Option Piped
  | .conn l => (x.s.step l).map fun s' => { (x.moved s') with left := x.left || (!x.broken && (s'.c.log.drop x.s.c.log.length).any Ev.isClosed) }
  | .arrive bs => if x.outcome = none then some { x with arrived := x.arrived ++ bs, unread := x.unread ++ bs } else none
  | .readyRead => if x.task = none ∧ x.s.inEnv = true ∧ x.broken = false ∧ x.outcome = none then x.sendHeaders u .pump else none
  | .finished failed => if x.task = none ∧ x.s.inEnv = true ∧ x.broken = false ∧ x.outcome = none then x.finished u failed else none
  | .resume =>
    match x.task with
    | some (stack, k) => if x.s.stack = stack then x.resume k else none
    | none => none
  | .destroyed => some { x with broken := true, task := none, left := x.left || !x.broken }

/-- A sequence of steps (HttpHandlerProxy.cpp:72-156). -/
def Piped.run (u : Upstream) (x : Piped) : List PLabel → Option Piped
  | [] => some x
  | l :: ls => (x.step u l).bind fun x' => x'.run u ls

end Pillow
