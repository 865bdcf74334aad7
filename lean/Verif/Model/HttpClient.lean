import Verif.Model.ResponseParser
import Verif.Model.RequestWriter
/-!
# Model of `Pillow::HttpClient` (pillowcore/HttpClient.cpp:343-744, HttpClient.h:160-265)

Signals are synchronous calls of slots.  What the slots of the application do is a parameter: for each signal the lists `onHeaders`,
`onContent` and `onFinished` say which member functions are called while the signal is handled for the first time, the second time, and
so on.  A slot may call anything, so signals nest; `fuel` bounds the depth of the nesting (and is arbitrary).  Slots do not run a
nested event loop, so the slots of the socket are not called while `device_readyRead` runs, except for those `connectToHost` calls itself
(`onConnect`).

The socket is reduced to its state, the peer of the last `connectToHost`, the bytes received and not yet read, and whether there are
bytes it has not sent yet (then closing takes time).  `QUrl` is reduced to the parts the client reads; hosts are kept encoded.  zlib is a
parameter: what the decoder returns for a block, given all blocks since it was made.
-/
namespace Pillow

/-- The parts of a `QUrl` the client uses: `host()`, `port()` (absent: -1), `encodedPath()`, `encodedQuery()`.
(HttpClient.cpp:446-503, 518-529, 642-667.) -/
structure Url where
  host : Bytes := []
  port : Option UInt16 := none
  path : Bytes := []
  query : Bytes := []
  deriving Repr, DecidableEq, Inhabited

/-- `port(80)`. (HttpClient.cpp:501.) -/
def Url.portOr80 (u : Url) : Nat := (u.port.map UInt16.toNat).getD 80

/-- `HttpClientRequest` (HttpClient.h:143-149); the method can be null. -/
structure ClientRequest where
  method : Option Bytes := none
  url : Url := {}
  headers : Headers := []
  data : Bytes := []
  deriving Repr, DecidableEq, Inhabited

/-- `HttpClient::Error` (HttpClient.h:163-173). -/
inductive CError where
  | noError | network | responseInvalid | remoteHostClosed | aborted
  deriving Repr, DecidableEq, Inhabited

/-- `QAbstractSocket::SocketState`. Qt; tested at HttpClient.cpp:482, 499. -/
inductive SockState where
  | unconnected | connecting | connected | closing
  deriving Repr, DecidableEq, Inhabited

/-- `QTcpSocket`, see above. Qt; the member `_device` (HttpClient.h:241). -/
structure Sock where
  state : SockState := .unconnected
  peer : Bytes × Nat := ([], 0)
  rx : Bytes := []
  unsent : Bool := false
  readBufferSize : Nat := 0
  deriving Repr, DecidableEq, Inhabited

/-- `QAbstractSocket::connectToHost`: refused unless the socket is unconnected. Qt; called at HttpClient.cpp:501. -/
def Sock.connectToHost (k : Sock) (host : Bytes) (port : Nat) : Sock :=
  if k.state = .unconnected then { k with state := .connecting, peer := (host, port), rx := [] } else k

/-- `QAbstractSocket::disconnectFromHost`. Qt; called at HttpClient.cpp:500. -/
def Sock.disconnectFromHost (k : Sock) : Sock :=
  { k with state := if k.state ≠ .unconnected ∧ k.unsent then .closing else .unconnected }

/-- `QAbstractSocket::close`. Qt; called at HttpClient.cpp:549, 565, 619, 733, 737. -/
def Sock.close (k : Sock) : Sock := { k.disconnectFromHost with rx := [] }

/-- `QAbstractSocket::abort`. Qt; called at HttpClient.cpp:507. -/
def Sock.abort (k : Sock) : Sock := { k with state := .unconnected, rx := [], unsent := false }

/-- The member functions a user of the client may call (`get`, `head`, `post`, `put`, `deleteResource`, HttpClient.cpp:421-454, are `request`
with a fixed method). -/
inductive UserCall where
  | request (r : ClientRequest)
  | abort
  | consumeContent
  | followRedirection
  | setKeepAliveTimeout (ms : Int)
  | setReadBufferSize (n : Nat)
  deriving Repr, DecidableEq, Inhabited

/-- What happens before `connectToHost` returns: nothing, `connected()`, or `error()`. Qt, behind HttpClient.cpp:501;
the slots are 531-557. -/
inductive SockReply where
  | later | connected | error (remoteClosed : Bool)
  deriving Repr, DecidableEq, Inhabited

/-- The signals of the client. (HttpClient.h:221-224.) -/
inductive Signal where
  | headers | content | finished
  deriving Repr, DecidableEq, Inhabited

/-- What can be observed: the signals with what the accessors show, what becomes of requests, calls of `followRedirection` and of
`consumeContent`, and what is done to the socket. (HttpClient.h:192-224.) -/
inductive CEv where
  | accepted (r : ClientRequest)
  | refused (r : ClientRequest)
  | deferred (r : ClientRequest)
  | followRedirection
  | headersCompleted (status : Nat) (headers : Headers)
  | contentReadyRead (content : Bytes)
  | finished (e : CError) (status : Nat) (headers : Headers) (content : Bytes)
  | consumed (content : Bytes)
  | connectToHost (host : Bytes) (port : Nat)
  | disconnectFromHost
  | close
  | abort
  | write (peer : Bytes × Nat) (data : Bytes)
  deriving Repr, DecidableEq

/-- The members of `HttpClient` (HttpClient.h:247-264) and of its base `HttpResponseParser` (`p`, `d`, `parsing`), the application (`on…`),
the clock in milliseconds, and the record of what happened.  `_buffer` is empty whenever `device_readyRead` is not running. -/
structure Client where
  p : HParser := {}
  d : RespData := {}
  parsing : Bool := false
  sock : Sock := {}
  request : ClientRequest := {}
  pendingRequest : ClientRequest := {}
  writer : Writer := { hasDevice := true }
  responsePending : Bool := false
  error : CError := .noError
  keepAliveTimeout : Int := -1
  timer : Option Nat := none
  hostHeaderValue : Bytes := []
  contentDecoder : Option (List Bytes) := none
  now : Nat := 0
  /-- `QTimer::singleShot(0, this, device_readyRead)` calls that have not been served. -/
  timers : Nat := 0
  onHeaders : List (List UserCall) := []
  onContent : List (List UserCall) := []
  onFinished : List (List UserCall) := []
  onConnect : List SockReply := []
  log : List CEv := []

/-- zlib, if compiled in, and `QUrl::fromEncoded`. (Used at HttpClient.cpp:518-529 and 674-715.) -/
structure ClientEnv where
  inflate : Option (List Bytes → Bytes)
  parseUrl : Bytes → Url

/-- Appends to the record of what is observed; stands for no code of its own (HttpClient.h:192-224 is what can be
observed). -/
def Client.add (c : Client) (e : CEv) : Client := { c with log := c.log ++ [e] }

/-- What a signal shows. (The accessors HttpClient.h:208-214, HttpClient.cpp:374-382.) -/
def Client.shows (c : Client) : Signal → CEv
  | .headers => .headersCompleted c.p.status c.d.headers
  | .content => .contentReadyRead c.d.content
  | .finished => .finished c.error c.p.status c.d.headers c.d.content

/-- The calls the application makes in reaction to a signal. Application code, run by the `emit`s at
HttpClient.cpp:514, 551, 621, 680, 714, 742. -/
def Client.react (c : Client) : Signal → List UserCall × Client
  | .headers => (c.onHeaders.headD [], { c with onHeaders := c.onHeaders.tail })
  | .content => (c.onContent.headD [], { c with onContent := c.onContent.tail })
  | .finished => (c.onFinished.headD [], { c with onFinished := c.onFinished.tail })

/-- `HttpResponseParser::clear` (HttpClient.cpp:243-250). -/
def Client.clear (c : Client) : Client :=
  let c := { c with p := c.p.init, d := { c.d with headers := [], content := [] } }
  if c.parsing then { c with p := c.p.pause } else c

/-- `redirected` (HttpClient.cpp:384-398). -/
def Client.redirected (c : Client) : Bool := c.p.status ∈ [300, 301, 302, 303, 307]

/-- `redirectionLocation` (HttpClient.cpp:400-408). -/
def Client.redirectionLocation (c : Client) : Bytes :=
  ((c.d.headers.find? fun h => asciiEqualsCILower h.name b!"location").map (·.value)).getD []

/-- `consumeContent` (HttpClient.cpp:410-419). -/
def Client.consumeContent (c : Client) : Client :=
  let c := { (c.add (.consumed c.d.content)) with d := { c.d with content := [] } }
  if c.responsePending && c.sock.rx.length != 0 then { c with timers := c.timers + 1 } else c

/-- The value of the `Host` header (HttpClient.cpp:646-654). -/
def hostValue (u : Url) : Bytes :=
  if u.portOr80 ≠ 80 then (appendNumber 32 10 (u.host ++ b!":") u.portOr80).getD u.host else u.host

/-- The request as it is passed to the writer (HttpClient.cpp:656-665). -/
def outRequest (r : ClientRequest) (host : Bytes) : OutRequest :=
  { method := r.method.getD []
    path := if r.url.query.isEmpty then r.url.path else r.url.path ++ b!"?" ++ r.url.query
    headers := ⟨b!"Host", host⟩ :: r.headers
    data := r.data }

/-- `sendRequest` (HttpClient.cpp:642-667).  The writer never fails (`write_frame`). -/
def Client.sendRequest (c : Client) : Client :=
  if !c.responsePending then c
  else
    let c := if c.hostHeaderValue.isEmpty then { c with hostHeaderValue := hostValue c.request.url } else c
    let x := (c.writer.write (outRequest c.request c.hostHeaderValue)).getD (c.writer, [])
    { (c.add (.write c.sock.peer x.2.flatten)) with writer := x.1 }

/-- `abort` (HttpClient.cpp:505-516). -/
def Client.abort (emit : Signal → Client → Client) (c : Client) : Client :=
  let c := { (c.add .abort) with sock := c.sock.abort }
  if c.responsePending then emit .finished { c with p := c.p.pause, error := .aborted, responsePending := false } else c

/-- `device_error` (HttpClient.cpp:531-552). -/
def Client.deviceError (emit : Signal → Client → Client) (remoteClosed : Bool) (c : Client) : Client :=
  if !c.responsePending then c
  else
    let c := { c with error := if remoteClosed then .remoteHostClosed else .network }
    let c := { (c.add .close) with sock := c.sock.close }
    emit .finished { c with responsePending := false }

/-- The slots called from within `connectToHost`, see `SockReply`. (HttpClient.cpp:501, 531-557.) -/
def Client.connectReply (emit : Signal → Client → Client) (c : Client) : Client :=
  let reply := c.onConnect.headD .later
  let c := { c with onConnect := c.onConnect.tail }
  if c.sock.state = .connecting then
    match reply with
    | .later => c
    | .connected => { c with sock := { c.sock with state := .connected } }.sendRequest
    | .error remoteClosed => c.deviceError emit remoteClosed
  else c

/-- `keepAliveTimeoutExpired` (HttpClient.cpp:484); `QElapsedTimer::hasExpired(t)` is `elapsed() > t`. -/
def Client.expired (c : Client) : Bool :=
  match c.timer with
  | none => false
  | some start => decide (c.keepAliveTimeout ≥ 0) && decide ((c.now : Int) - start > c.keepAliveTimeout)

/-- `request`, from where the request is accepted (HttpClient.cpp:473-502). -/
def Client.accept (emit : Signal → Client → Client) (r : ClientRequest) (c : Client) : Client :=
  let previousHost := c.request.url.host
  let previousPort := c.request.url.port
  let c := { (c.add (.accepted r)) with request := r, responsePending := true, error := .noError }
  let c := c.clear
  let isConnected := c.sock.state == .connected
  let sameServer := c.request.url.host == previousHost && c.request.url.port == previousPort
  let expired := sameServer && c.expired
  if isConnected && sameServer && !expired then c.sendRequest
  else
    let c := { c with hostHeaderValue := [] }
    let c := if c.sock.state != .unconnected then { (c.add .disconnectFromHost) with sock := c.sock.disconnectFromHost } else c
    let c := { (c.add (.connectToHost c.request.url.host c.request.url.portOr80)) with sock := c.sock.connectToHost c.request.url.host c.request.url.portOr80 }
    c.connectReply emit

/-- `request` (HttpClient.cpp:456-503). -/
def Client.makeRequest (emit : Signal → Client → Client) (r : ClientRequest) (c : Client) : Client :=
  if c.responsePending then c.add (.refused r)
  else if c.parsing then { (c.add (.deferred r)) with pendingRequest := r }
  else c.accept emit r

/-- `followRedirection` (HttpClient.cpp:518-529). -/
def Client.followRedirection (env : ClientEnv) (emit : Signal → Client → Client) (c : Client) : Client :=
  let c := c.add .followRedirection
  if !c.redirected then c
  else c.makeRequest emit { c.request with url := env.parseUrl c.redirectionLocation }

/-- A call of the user. (HttpClient.cpp:410-529.) -/
def Client.call (env : ClientEnv) (emit : Signal → Client → Client) (c : Client) : UserCall → Client
  | .request r => c.makeRequest emit r
  | .abort => c.abort emit
  | .consumeContent => c.consumeContent
  | .followRedirection => c.followRedirection env emit
  | .setKeepAliveTimeout ms => { c with keepAliveTimeout := ms }
  | .setReadBufferSize n => { c with sock := { c.sock with readBufferSize := n } }

/-- The emission of a signal: the application observes it, and reacts. (HttpClient.cpp:514, 551, 621, 680, 714, 742.)
-/
def Client.emit (env : ClientEnv) : Nat → Signal → Client → Client
  | 0, s, c => c.add (c.shows s)
  | n + 1, s, c =>
    let x := (c.add (c.shows s)).react s
    x.1.foldl (Client.call env (Client.emit env n)) x.2

/-- `messageComplete` (HttpClient.cpp:717-744). -/
def Client.messageComplete (emit : Signal → Client → Client) (c : Client) : Client :=
  let c := { c with contentDecoder := none }
  if c.p.status = 100 then c.clear
  else
    let c := { c with responsePending := false }
    let c := if c.keepAliveTimeout = 0 then { (c.add .close) with sock := c.sock.close }
      else
        let c := if !c.p.shouldKeepAlive then { (c.add .close) with sock := c.sock.close } else c
        { c with timer := some c.now }
    emit .finished c

/-- `headersComplete` (HttpClient.cpp:674-701). -/
def Client.headersComplete (env : ClientEnv) (emit : Signal → Client → Client) (c : Client) : Client :=
  if c.p.status = 100 then c
  else
    let c := emit .headers c
    if asciiEqualsCILower (c.request.method.getD []) b!"head" then { c with p := c.p.pause }.messageComplete emit
    else if env.inflate.isSome && c.d.headers.any (fun h => asciiEqualsCILower h.name b!"content-encoding" && asciiEqualsCILower h.value b!"gzip") then
      { c with contentDecoder := some [] }
    else c

/-- `messageContent` (HttpClient.cpp:703-715). -/
def Client.messageContent (env : ClientEnv) (emit : Signal → Client → Client) (data : Bytes) (c : Client) : Client :=
  let c := match c.contentDecoder, env.inflate with
    | some blocks, some inflate =>
      { c with contentDecoder := some (blocks ++ [data]), d := { c.d with content := c.d.content ++ inflate (blocks ++ [data]) } }
    | _, _ => { c with d := { c.d with content := c.d.content ++ data } }
  emit .content c

/-- The callbacks of the parser (HttpClient.cpp:282-326) with the overrides of the client.  They are only called while parsing. -/
def clientCb (env : ClientEnv) (emit : Signal → Client → Client) : CB Client
  | .messageBegin, p, c => (p, { c with p := p, d := { c.d with headers := [], content := [], lastWasValue := false } })
  | .field bs, p, c => (p, { c with p := p, d := { c.d.push with field := c.d.push.field ++ bs } })
  | .value bs, p, c => (p, { c with p := p, d := { c.d with value := c.d.value ++ bs, lastWasValue := true } })
  | .headersComplete, p, c =>
    let c := Client.headersComplete env emit { c with p := p, parsing := true, d := c.d.push }
    (c.p, c)
  | .body bs, p, c =>
    let c := Client.messageContent env emit bs { c with p := p, parsing := true }
    (c.p, c)
  | .messageComplete, p, c =>
    let c := Client.messageComplete emit { c with p := p, parsing := true }
    (c.p.pause, { c with p := c.p.pause })

/-- `inject` (HttpClient.cpp:211-226); it is not called while parsing. -/
def Client.inject (env : ClientEnv) (emit : Signal → Client → Client) (data : Bytes) (c : Client) : Client × Nat :=
  let x := execute (clientCb env emit) c.p { c with parsing := true } data
  let p := if x.1.errno = .paused then { x.1 with errno := .ok } else x.1
  ({ x.2.1 with p := p, parsing := false }, x.2.2)

/-- `hasError` (HttpClient.h:92). -/
def Client.hasError (c : Client) : Bool := !(c.p.errno == .ok || c.p.errno == .paused)

/-- `device_readyRead`, from the first `inject` on (HttpClient.cpp:590-640); `data` is `_buffer`. -/
def Client.receive (env : ClientEnv) (emit : Signal → Client → Client) (data : Bytes) (c : Client) : Client :=
  let x := c.inject env emit data
  let c := x.1
  let c := if c.responsePending then
      let c := if !c.hasError && x.2 < data.length then (c.inject env emit (data.drop x.2)).1 else c
      if c.hasError then
        let c := { (c.add .close) with error := .responseInvalid, sock := c.sock.close, responsePending := false }
        emit .finished c
      else c
    else c
  if !c.responsePending && c.pendingRequest.method.isSome then
    { c with pendingRequest := {} }.makeRequest emit c.pendingRequest
  else c

/-- `device_readyRead` (HttpClient.cpp:559-640). -/
def Client.readyRead (env : ClientEnv) (emit : Signal → Client → Client) (c : Client) : Client :=
  if !c.responsePending then { (c.add .close) with sock := c.sock.close }
  else if c.sock.rx.length = 0 then c
  else
    let n := if c.sock.readBufferSize > 0 then c.sock.readBufferSize - c.d.content.length else c.sock.rx.length
    if n = 0 then c
    else
      let data := c.sock.rx.take n
      { c with sock := { c.sock with rx := c.sock.rx.drop n } }.receive env emit data

/-- What happens from outside: the user calls a member function, the socket is connected, fails, receives bytes (`arrive`), says so
(`readyRead`), is disconnected or has unsent bytes or not, a `singleShot` timer fires, time passes.
(HttpClient.cpp:410-529 and the slots 531-640.) -/
inductive CInput where
  | call (u : UserCall)
  | connected
  | error (remoteClosed : Bool)
  | arrive (bs : Bytes)
  | readyRead
  | disconnected
  | unsent (b : Bool)
  | timeout
  | tick (ms : Nat)
  deriving Repr, DecidableEq

/-- One step; inputs the socket cannot produce in its state have no effect. (HttpClient.cpp:410-529 and the slots
531-640.) -/
def Client.step (env : ClientEnv) (fuel : Nat) (c : Client) : CInput → Client
  | .call u => c.call env (Client.emit env fuel) u
  | .connected => if c.sock.state = .connecting then { c with sock := { c.sock with state := .connected } }.sendRequest else c
  | .error remoteClosed => c.deviceError (Client.emit env fuel) remoteClosed
  | .arrive bs => if c.sock.state = .connected ∨ c.sock.state = .closing then { c with sock := { c.sock with rx := c.sock.rx ++ bs } } else c
  | .readyRead => c.readyRead env (Client.emit env fuel)
  | .disconnected => { c with sock := { c.sock with state := .unconnected } }
  | .unsent b => { c with sock := { c.sock with unsent := b } }
  | .timeout => if c.timers = 0 then c else { c with timers := c.timers - 1 }.readyRead env (Client.emit env fuel)
  | .tick ms => { c with now := c.now + ms }

/-- A sequence of steps; stands for the event loop around HttpClient.cpp:343-744. -/
def Client.run (env : ClientEnv) (fuel : Nat) (c : Client) (inputs : List CInput) : Client := inputs.foldl (Client.step env fuel) c

/-- A new client (HttpClient.cpp:343-353) and the application's reactions. -/
def Client.new (onHeaders onContent onFinished : List (List UserCall)) (onConnect : List SockReply) : Client :=
  { onHeaders, onContent, onFinished, onConnect }

end Pillow
