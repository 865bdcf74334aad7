import Verif.Model.HttpServer
/-!
# Model of the sockets of `pillowcore/HttpServer.cpp`

The sockets (`new QTcpSocket(this)`, HttpServer.cpp:86; `nextPendingConnection()`, HttpServer.cpp:134, for `HttpLocalServer`) are numbered in the
order of their creation.  Qt deletes an object after `deleteLater` when control is back in the event loop.  Sockets the server still owns when it is itself
destroyed are deleted by Qt with it, and are not modelled.
-/
namespace Pillow

/-- The server and its sockets. (HttpServer.cpp:82-105.) -/
structure Sockets where
  server : Server := .create
  /-- The number of sockets created so far. -/
  made : Nat := 0
  /-- The calls of `initialize(socket, socket)`, the latest first: the connection and the socket. -/
  given : List (Nat × Nat) := []
  /-- The calls of `deleteLater` (and `delete`, HttpServer.cpp:96), in order; `none` is a call through a null pointer. -/
  released : List (Option Nat) := []
  deriving DecidableEq, Repr

/-- The socket a connection was last initialized with. (HttpServer.cpp:91.) -/
def Sockets.of (x : Sockets) (i : Nat) : Option Nat := (x.given.find? (fun p => p.1 == i)).map (·.2)

/-- A client connects, or something happens to a connection; or Qt refuses the descriptor of a client that connects. (HttpServer.cpp:82-105.) -/
inductive SockLabel where
  | refused
  | ev (l : SLabel)
  deriving DecidableEq, Repr

/-- Connection `i` emits `closed` when `l` happens to it: what it then answers to `inputDevice()` (`_inputDevice` is cleared after the signal,
HttpConnection.cpp:393-397). (HttpServer.cpp:101-103.) -/
def Sockets.closes (x : Sockets) (i : Nat) (l : Label) : Option (Option Nat) :=
  (x.server.conns[i]?).bind fun s => (s.step l).bind fun s' =>
    if emitsClosed s s' then some (if s'.c.dev.isSome then x.of i else none) else none

/-- `incomingConnection` (HttpServer.cpp:82-98; `this_newConnection`, HttpServer.cpp:132-136) and `connection_closed`
(HttpServer.cpp:101-105, 138-142). -/
def Sockets.step (x : Sockets) : SockLabel → Option Sockets
  | .refused => if x.server.conns.all (fun s => s.stack.isEmpty) then some { x with made := x.made + 1, released := x.released ++ [some x.made] } else none
  | .ev .accept => (x.server.step .accept).map fun v => { x with server := v, made := x.made + 1, given := (x.server.take.1, x.made) :: x.given }
  | .ev (.conn i l) => (x.server.step (.conn i l)).map fun v => { x with server := v, released := x.released ++ (x.closes i l).toList }

end Pillow
