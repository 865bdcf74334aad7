import Verif.Model.Router
/-!
# Handlers inside handlers

`HttpHandlerStack` asks its children, `HttpHandlerSimpleRouter` what its routes lead to; the other handlers of the library are the leaves.  The server connects
`requestReady` to `handleRequest` of one of them and ignores what it returns (examples/simple/simple.cpp:53).
-/
namespace Pillow

/-- What finally becomes of a request: somebody answers it now, or takes it over to answer later. The calls on the
connection at HttpHandler.cpp:67-86, 275-339 and HttpHandlerSimpleRouter.cpp:253-277. -/
inductive Deed where
  /-- One call that answers the request. -/
  | call (a : Call)
  /-- The head is written and a transfer of the file begun. -/
  | transfer (head : Call) (content : Bytes) (bufferSize : Nat)
  /-- The function, slot, handler or proxied reply with this number, which is not part of the library, or answers later. -/
  | own (who : Nat)
  deriving Repr, DecidableEq

/-- What handlers do with the connection they are given, one after the other. (HttpHandler.cpp:140-167 for the log,
HttpHandlerSimpleRouter.cpp:251-252 for the parameters.) -/
inductive Doing where
  /-- `requestParamValue` is called. -/
  | read
  /-- `setRequestParam(n, v)`. -/
  | set (n v : Bytes)
  /-- The log handler takes notice. -/
  | note
  | act (d : Deed)
  deriving Repr, DecidableEq

/-- Handlers, and what else routes can lead to. (HttpHandler.cpp:31-112, 140-167, 275-339;
HttpHandlerSimpleRouter.cpp:24-83.) -/
inductive Tree where
  /-- A child of a stack that is not a handler (`qobject_cast` gives null). -/
  | notHandler
  | fixed (status : Int) (content : Bytes)
  | notFound
  /-- `none`: the empty function. -/
  | function (who : Option Nat)
  | log
  | file (publicPath : Bytes) (bufferSize : Nat)
  /-- `none`: there is no proxied url. -/
  | proxy (who : Option Nat)
  /-- A handler of the application: parameters it sets, and whether it takes the request; if it does not, it does not answer it. -/
  | custom (who : Nat) (sets : Conn → List (Bytes × Bytes)) (takes : Conn → Bool)
  | stack (children : List Tree)
  /-- The settings of a router, its routes (method, path), and what they lead to. -/
  | router (rt : Router) (table : List (Bytes × Bytes)) (targets : List Tree)
  /-- A route with a fixed response. -/
  | static (status : Int) (hs : Headers) (content : Bytes)
  /-- A route to a function, or to a slot of an object; `none`: the object is gone, or has no such slot. -/
  | slot (who : Option Nat)
  /-- A route to a handler that has been destroyed. -/
  | gone

/-- Qt and the file system as the handlers see them. (Used by HttpHandler.cpp:279-314 and
HttpHandlerSimpleRouter.cpp:195-245.) -/
structure TreeEnv where
  words : Byte → Bool
  engine : Engine
  dec : Bytes → Bytes
  md5 : Bytes → Bytes
  text : Bytes → Bytes
  fs : FileSystem

/-- The value returned, what was done, and the connection afterwards (only its parameters have changed; what an answer
does to it is not included). (The `bool` of `HttpHandler::handleRequest`, HttpHandler.cpp:31-339.) -/
structure Handled where
  taken : Bool
  moves : List Doing
  conn : Conn

/-- Setting parameters one after the other (HttpHandlerSimpleRouter.cpp:251-252). -/
def Conn.setParams (c : Conn) (ps : List (Bytes × Bytes)) : Conn := ps.foldl (fun c p => c.setRequestParam p.1 p.2) c

/-- Lines 234-236: the parameter `_method` is read if the router is to consider it. -/
def Router.reads (rt : Router) (c : Conn) : Handled :=
  if rt.acceptMethodParam then ⟨false, [.read], c.requestParams⟩ else ⟨false, [], c⟩

/-- What `FileAction` amounts to. (HttpHandler.cpp:275-339.) -/
def FileAction.handled (a : FileAction) (c : Conn) : Handled :=
  match a with
  | .pass => ⟨false, [], c⟩
  | .answer a => ⟨true, [.act (.call a)], c⟩
  | .transfer h ct n => ⟨true, [.act (.transfer h ct n)], c⟩

mutual
/-- `handleRequest` of a handler (HttpHandler.cpp:31-42, 67-71, 82-86, 105-114, 140-167, 285-339; HttpHandlerProxy.cpp:29-46;
HttpHandlerSimpleRouter.cpp:229-283), and `invoke` of a route (HttpHandlerSimpleRouter.cpp:24-83), whose value the router ignores. -/
def Tree.handle (e : TreeEnv) : Tree → Conn → Handled
  | .notHandler, c => ⟨false, [], c⟩
  | .fixed status content, c => ⟨(fixedHandle status content c.req).handled, (fixedHandle status content c.req).calls.map fun a => .act (.call a), c⟩
  | .notFound, c => ⟨(notFoundHandle e.text c.req).handled, (notFoundHandle e.text c.req).calls.map fun a => .act (.call a), c⟩
  | .function who, c => match who with
    | some who => ⟨true, [.act (.own who)], c⟩
    | none => ⟨false, [], c⟩
  | .log, c => ⟨false, [.note], c⟩
  | .file pub n, c => (fileHandle e.fs e.dec e.md5 e.text pub n c.req).handled c
  | .proxy who, c => match who with
    | some who => ⟨true, [.act (.own who)], c⟩
    | none => ⟨false, [], c⟩
  | .custom who sets takes, c =>
    ⟨takes (c.setParams (sets c)), (sets c).map (fun p => .set p.1 p.2) ++ (if takes (c.setParams (sets c)) then [.act (.own who)] else []), c.setParams (sets c)⟩
  | .stack children, c => Tree.ask e children c
  | .router rt table targets, c =>
    let r := rt.reads c
    match ({ rt with routes := table.foldl (fun t r => addRoute e.words t r.1 r.2) [] } : Router).handle e.engine e.dec c.req.method (paramLookup r.conn.params b!"_method") c.req.path with
    | .invoke i ps =>
      let h := Tree.invoke e targets i (r.conn.setParams ps)
      ⟨true, r.moves ++ ps.map (fun p => .set p.1 p.2) ++ h.moves, h.conn⟩
    | .answer a => ⟨true, r.moves ++ [.act (.call a)], r.conn⟩
    | .pass => ⟨false, r.moves, r.conn⟩
  | .static status hs content, c => ⟨true, [.act (.call (.writeResponse status hs content))], c⟩
  | .slot who, c => match who with
    | some who => ⟨true, [.act (.own who)], c⟩
    | none => ⟨false, [], c⟩
  | .gone, c => ⟨false, [], c⟩

/-- The loop of `HttpHandlerStack::handleRequest` (HttpHandler.cpp:33-39). -/
def Tree.ask (e : TreeEnv) : List Tree → Conn → Handled
  | [], c => ⟨false, [], c⟩
  | t :: ts, c =>
    let h := t.handle e c
    if h.taken then h
    else
      let k := Tree.ask e ts h.conn
      ⟨k.taken, h.moves ++ k.moves, k.conn⟩

/-- `route->invoke(request)` for the route with this number. (HttpHandlerSimpleRouter.cpp:28-32, 40-44, 52-56, 64-68,
78-82.) -/
def Tree.invoke (e : TreeEnv) : List Tree → Nat → Conn → Handled
  | [], _, c => ⟨false, [], c⟩
  | t :: _, 0, c => t.handle e c
  | _ :: ts, i + 1, c => Tree.invoke e ts i c
end

end Pillow
