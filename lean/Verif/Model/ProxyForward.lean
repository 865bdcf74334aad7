import Verif.Model.HttpConnection
import Verif.Model.Router
/-!
# Model of `HttpHandlerProxy::handleRequest` and of `ElasticNetworkAccessManager` (pillowcore/HttpHandlerProxy.cpp:29-62, 161-209)

What the handler gives to `sendCustomRequest`, and the managers this is spread over. What Qt does with it (further headers, the transport) is not modelled.
-/
namespace Pillow

/-- The parts of a `QUrl` the handler distinguishes; `base` is scheme, user, host and port. `none`: there is no `?`,
no `#`. (HttpHandlerProxy.cpp:33-36.) -/
structure TargetUrl where
  base : Bytes := []
  path : Bytes := []
  query : Option Bytes := none
  fragment : Option Bytes := none
  deriving Repr, DecidableEq

/-- `QUrl::isEmpty()`. (Qt; HttpHandlerProxy.cpp:31.) -/
def TargetUrl.isEmpty (u : TargetUrl) : Bool := u.base == [] && u.path == [] && u.query.getD [] == [] && u.fragment.getD [] == []

/-- What `sendCustomRequest` is given (line 57). `body`: what the buffer shows when it is made (lines 51-55); the buffer refers to the array of the connection, without copying it. -/
structure ProxiedRequest where
  url : TargetUrl
  headers : Headers
  verb : Bytes
  body : Option Bytes
  deriving Repr, DecidableEq

/-- `QNetworkRequest::setRawHeader`: an empty name is refused; entries of that name (`qstricmp`) are erased; the new one comes last. A null value would only erase; the values of
requests are not null. Used at HttpHandlerProxy.cpp:40. -/
def setRawHeader (hs : Headers) (h : Header) : Headers :=
  if h.name = [] then hs else hs.filter (fun x => !qstricmpEq x.name h.name) ++ [h]

/-- Lines 41-42. -/
def rawHeaders (hs : Headers) : Headers := hs.foldl setRawHeader []

/-- Lines 33-36. -/
def targetUrl (proxied : TargetUrl) (r : ReqView) : TargetUrl :=
  let u := { proxied with path := r.path }
  let u := if r.query ≠ [] then { u with query := some r.query } else u
  if r.fragment ≠ [] then { u with fragment := some r.fragment } else u

/-- `HttpHandlerProxy::handleRequest` (lines 29-45) and `createProxiedReply` (lines 47-62): what is requested upstream; `none`: the handler returns false. The pipe that is made then is
`Piped` (Model/HttpHandlerProxy). -/
def proxyHandle (proxied : TargetUrl) (r : ReqView) : Option ProxiedRequest :=
  if proxied.isEmpty then none
  else some { url := targetUrl proxied r, headers := rawHeaders r.headers, verb := r.method, body := if 0 < r.content.length then some r.content else none }

/-! ### ElasticNetworkAccessManager -/

/-- The child managers, each with its children: the replies that are not deleted yet, by number. The cookie jar is taken out of them again (lines 202-203).
Managers are not deleted before the handler. -/
abbrev Elastic := List (List Nat)

/-- The loop of lines 184-193 and the request made with its result (208): the first manager with fewer than 6 children, or a new one (195-206). -/
def Elastic.create (id : Nat) : Elastic → Elastic
  | [] => [[id]]
  | m :: ms => if m.length < 6 then (m ++ [id]) :: ms else m :: Elastic.create id ms

/-- A reply is deleted: it is no child any more. (Qt's parent-child relation, read at HttpHandlerProxy.cpp:190.) -/
def Elastic.delete (id : Nat) (e : Elastic) : Elastic := e.map fun m => m.filter (· ≠ id)

/-- A request (HttpHandlerProxy.cpp:182-209), or the end of a reply. -/
inductive ElasticOp where
  | create (id : Nat)
  | delete (id : Nat)
  deriving Repr, DecidableEq

/-- (HttpHandlerProxy.cpp:182-209.) -/
def Elastic.step (e : Elastic) : ElasticOp → Elastic
  | .create id => e.create id
  | .delete id => e.delete id

end Pillow
