import Verif.Model.HttpConnection
/-!
# Model of `pillowcore/HttpServer.cpp`: the pool of connection objects

The connection objects are numbered in the order of their creation.  `HttpLocalServer` (HttpServer.cpp:112-149) shares the pool code and
differs only in the class of the socket.  Listening, the socket descriptors and `setMaxPendingConnections` are Qt's and not modelled.
-/
namespace Pillow

/-- `HttpServerPrivate` and the connections it created (HttpServer.cpp:13-21). -/
structure Server where
  conns : List Conf := []
  /-- `reservedConnections`. -/
  reserved : List Nat := []
  deleted : List Nat := []
  /-- A connection object has been deleted while one of its member functions was being executed. -/
  misuse : Bool := false
  deriving DecidableEq, Repr

/-- `MaximumReserveCount` (HttpServer.cpp:16). -/
def maximumReserveCount : Nat := 25

/-- The constructor (HttpServer.cpp:23-28). -/
def Server.create : Server := { conns := List.replicate maximumReserveCount {}, reserved := List.range maximumReserveCount }

/-- `takeConnection` and `createConnection` (HttpServer.cpp:36-50). -/
def Server.take (v : Server) : Nat × Server :=
  match v.reserved.getLast? with
  | none => (v.conns.length, { v with conns := v.conns ++ [{}] })
  | some i => (i, { v with reserved := v.reserved.dropLast })

/-- The object runs code of its own. (HttpServer.cpp:82-105 run in the event loop, while no connection is inside a
slot.) -/
def Server.running (v : Server) (i : Nat) : Bool := !(((v.conns[i]?).map (·.stack)).getD []).isEmpty

/-- One round of the loop of `putConnection` (HttpServer.cpp:54-55). -/
def Server.deleteLast (v : Server) : Server :=
  match v.reserved.getLast? with
  | none => v
  | some j => { v with reserved := v.reserved.dropLast, deleted := j :: v.deleted, misuse := v.misuse || v.running j }

/-- The loop (HttpServer.cpp:54-55). -/
def Server.shrink : Nat → Server → Server
  | 0, v => v
  | n + 1, v => if v.reserved.length ≥ maximumReserveCount then Server.shrink n v.deleteLast else v

/-- `putConnection` (HttpServer.cpp:52-58). -/
def Server.put (v : Server) (i : Nat) : Server :=
  let v := v.shrink (v.reserved.length + 1)
  { v with reserved := v.reserved ++ [i] }

/-- What happens to the server: a client connects, or something happens to one of the connections.
(HttpServer.cpp:82-105.) -/
inductive SLabel where
  | accept
  | conn (i : Nat) (l : Label)
  deriving DecidableEq, Repr

/-- The connection emitted `closed` in this step. (The signal connected at HttpServer.cpp:40.) -/
def emitsClosed (s s' : Conf) : Bool :=
  s.c.log.length < s'.c.log.length && (match s'.c.log.getLast? with | some (.closed _ _) => true | _ => false)

/-- `incomingConnection` (HttpServer.cpp:82-98; run by the event loop while no connection runs any code, i.e. handlers run no
event loops of their own) and `connection_closed` (HttpServer.cpp:101-105, the first slot connected to `closed`). -/
def Server.step (v : Server) : SLabel → Option Server
  | .accept =>
    if v.conns.all (fun s => s.stack.isEmpty) then
      let t := v.take
      match t.2.conns[t.1]? with
      | none => none
      | some s => (s.step .init).map fun s' => { t.2 with conns := t.2.conns.set t.1 s' }
    else none
  | .conn i l =>
    if l = .init ∨ i ∈ v.deleted then none
    else match v.conns[i]? with
    | none => none
    | some s => (s.step l).map fun s' =>
      let v := { v with conns := v.conns.set i s' }
      if emitsClosed s s' then v.put i else v

end Pillow
