import Verif.Model.NetworkReply
import Verif.Model.ProxyForward
/-!
# Model of `NetworkAccessManager::createRequest` and of the slots of `NetworkReply` (pillowcore/HttpClient.cpp:750-872, 889-958)

What the client is asked for, and what a reply tells besides the content (Model/NetworkReply). Qt's cookie jar, its parser of cookies and its way of writing them
are parameters; `QUrl::fromEncoded` is left out (the attribute is kept as the bytes it is made of). `QNetworkRequest` is reduced to url, headers and verb.
-/
namespace Pillow

/-- The parts of a `QNetworkRequest` that are read. `set`: the calls of `setRawHeader` the application has made on it,
in order (with values that are not null). (HttpClient.cpp:887-959.) -/
structure NRequest where
  scheme : Bytes := b!"http"
  url : Url := {}
  set : Headers := []
  /-- `CustomVerbAttribute`; absent: a null byte array. -/
  verb : Option Bytes := none
  deriving Repr, DecidableEq

/-- `QNetworkRequest::rawHeader`: the first entry of that name (`qstricmp`). Qt; used at HttpClient.cpp:915. -/
def rawHeader (hs : Headers) (name : Bytes) : Bytes := ((hs.find? fun x => qstricmpEq x.name name).map (·.value)).getD []

/-- The loop that joins the cookies (HttpClient.cpp:924-928), from the `i`-th cookie on. -/
def cookieLoop : Nat → Bytes → List Bytes → Bytes
  | _, acc, [] => acc
  | i, acc, k :: ks => cookieLoop (i + 1) ((if i > 0 then acc ++ b!"; " else acc) ++ k) ks

/-- Where a request goes: to Qt's own implementation, to a client, or nowhere. (HttpClient.cpp:889-893, 933-956.) -/
inductive Passed where
  | qt
  | client (r : ClientRequest)
  | nothing
  deriving Repr, DecidableEq

/-- `createRequest` (HttpClient.cpp:889-958), what the client is asked for; which client it is, is modelled by `Nam.create`. `cookies`: what the jar has for the url, each in its raw form;
`data`: what `outgoingData->readAll()` returns, if there is a device. Schemes are ASCII. -/
def createRequest (op : NOp) (r : NRequest) (cookies : List Bytes) (data : Option Bytes) : Passed :=
  if !asciiEqualsCILower r.scheme b!"http" then .qt
  else
    let raw := rawHeaders r.set
    let headers := raw.map fun h => ⟨h.name, rawHeader raw h.name⟩
    let cookie := cookieLoop 0 [] cookies
    let headers := if cookie ≠ [] then headers ++ [⟨b!"Cookie", cookie⟩] else headers
    match op with
    | .head => .client { method := some b!"HEAD", url := r.url, headers := headers }
    | .get => .client { method := some b!"GET", url := r.url, headers := headers }
    | .put => .client { method := some b!"PUT", url := r.url, headers := headers, data := data.getD [] }
    | .post => .client { method := some b!"POST", url := r.url, headers := headers, data := data.getD [] }
    | .delete => .client { method := some b!"DELETE", url := r.url, headers := headers }
    | .custom => .client { method := r.verb, url := r.url, headers := headers, data := data.getD [] }
    | .unknown => .nothing

/-! ## NetworkReply -/

/-- `QNetworkReply::NetworkError`, the values that are used (HttpClient.cpp:840-849). -/
inductive NError where
  | noError | unknownNetwork | protocolUnknown | remoteHostClosed | operationCanceled
  deriving Repr, DecidableEq, Inhabited

/-- The signals of a reply. (HttpClient.cpp:822, 828, 849, 854.) -/
inductive NSignal where
  | metaDataChanged | readyRead | error (e : NError) | finished
  deriving Repr, DecidableEq

/-- Qt's cookies: those in the value of a `Set-Cookie` header, and the value of the header for a list of cookies.
(HttpClient.cpp:800, 806, 922-928.) -/
structure CookieEnv where
  parse : Bytes → List Bytes
  render : List Bytes → Bytes

/-- What a reply tells: `attribute(HttpStatusCodeAttribute)`, `rawHeaderPairs()`, `attribute(RedirectionTargetAttribute)`, the cookies that were put into the jar, `error()`, `isFinished()`;
whether its slots are connected; the signals it has emitted. (HttpClient.cpp:784-855.) -/
structure NMeta where
  status : Option Nat := none
  rawHeaders : Headers := []
  redirection : Option Bytes := none
  jar : List Bytes := []
  errorCode : NError := .noError
  isFinished : Bool := false
  connected : Bool := true
  signals : List NSignal := []
  deriving Repr, DecidableEq

/-- `QNetworkReply::setRawHeader` with a value of the response parser: an empty one is null there (HttpClient.cpp:302, 333), and a null value only erases. -/
def setReplyHeader (hs : Headers) (h : Header) : Headers :=
  if h.name = [] then hs
  else if h.value = [] then hs.filter fun x => !qstricmpEq x.name h.name
  else setRawHeader hs h

/-- One round of the loop (HttpClient.cpp:799-806). -/
def NMeta.header (env : CookieEnv) (x : NMeta × List Bytes) (h : Header) : NMeta × List Bytes :=
  let m := { x.1 with rawHeaders := setReplyHeader x.1.rawHeaders h }
  if asciiEqualsCILower h.name b!"set-cookie" then (m, x.2 ++ env.parse h.value)
  else if asciiEqualsCILower h.name b!"location" then ({ m with redirection := some h.value }, x.2)
  else (m, x.2)

/-- `client_headersCompleted` (HttpClient.cpp:785-825), without `open` (`NReply.headersCompleted`). `setHeader(SetCookieHeader)` sets the raw header too, unless its value is empty. -/
def NMeta.headersCompleted (env : CookieEnv) (status : Nat) (headers : Headers) (m : NMeta) : NMeta :=
  let x := headers.foldl (NMeta.header env) ({ m with status := some status }, [])
  let m := x.1
  let m := if x.2 ≠ [] ∧ env.render x.2 ≠ [] then { m with rawHeaders := setRawHeader m.rawHeaders ⟨b!"Set-Cookie", env.render x.2⟩ } else m
  { m with jar := m.jar ++ x.2, signals := m.signals ++ [.metaDataChanged] }

/-- The `switch` in `client_finished` (HttpClient.cpp:842-849). -/
def networkError : CError → NError
  | .noError => .noError
  | .network => .unknownNetwork
  | .responseInvalid => .protocolUnknown
  | .remoteHostClosed => .remoteHostClosed
  | .aborted => .operationCanceled

/-- `client_finished` (HttpClient.cpp:834-857). -/
def NMeta.clientFinished (e : CError) (m : NMeta) : NMeta :=
  let m := { m with connected := false }
  let m := if e ≠ .noError then { m with signals := m.signals ++ [.error (networkError e)] } else m
  { m with isFinished := true, signals := m.signals ++ [.finished] }

/-- What the reply does when its client does something. (HttpClient.cpp:784-855.) -/
def NMeta.step (env : CookieEnv) (m : NMeta) : CEv → NMeta
  | .headersCompleted status headers => if m.connected then m.headersCompleted env status headers else m
  | .contentReadyRead _ => if m.connected then { m with signals := m.signals ++ [.readyRead] } else m
  | .finished e _ _ _ => if m.connected then m.clientFinished e else m
  | _ => m

/-- A new reply (HttpClient.cpp:757-767) after its client has done all this. -/
def replyTo (env : CookieEnv) (log : List CEv) : NMeta := log.foldl (NMeta.step env) {}

end Pillow
