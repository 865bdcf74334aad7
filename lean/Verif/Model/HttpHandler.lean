import Verif.Model.HttpConnection
import Verif.Model.HttpHelpers
/-!
# Model of `pillowcore/HttpHandler.{h,cpp}`

A handler is foreign code to the connection.  Two views are used:

* `HandlerFn W`: `handleRequest` as a function on an arbitrary world `W` (connections, handlers, files, …) that
  returns whether the request was handled.  This is all `HttpHandlerStack` knows about its children.
* `Reply`: for the handlers of the library that decide everything from what the accessors show when they are
  entered: the calls they then make on the connection, and the value they return.
-/
namespace Pillow

/-- `virtual bool handleRequest(HttpConnection*)` (HttpHandler.h:34-36) in an arbitrary world. -/
abbrev HandlerFn (W : Type) := W → Bool × W

/-- `HttpHandlerStack::handleRequest` (HttpHandler.cpp:31-42).  A child that is not an `HttpHandler`
(`qobject_cast` gives null) is `none`.  `foreach` iterates over a copy of the list, so the list is fixed. -/
def stackHandle {W : Type} : List (Option (HandlerFn W)) → HandlerFn W
  | [], w => (false, w)
  | none :: cs, w => stackHandle cs w
  | some h :: cs, w =>
    let r := h w
    if r.1 then (true, r.2) else stackHandle cs r.2

/-- `HttpHandlerFunction::handleRequest` (HttpHandler.cpp:105-114); `none` is the empty `std::function`. -/
def functionHandle {W : Type} (f : Option (W → W)) : HandlerFn W := fun w =>
  match f with
  | some g => (true, g w)
  | none => (false, w)

/-- What a handler does: calls on the connection, and the return value. (HttpHandler.cpp:67-86.) -/
structure Reply where
  calls : List Call
  handled : Bool
  deriving Repr, DecidableEq

/-- `HttpHandlerFixed::handleRequest` (HttpHandler.cpp:67-71). -/
def fixedHandle (status : Int) (content : Bytes) (_r : ReqView) : Reply := ⟨[.writeResponse status [] content], true⟩

/-- `HttpHandler404::handleRequest` (HttpHandler.cpp:82-86) and `writeResponseString` (HttpConnection.cpp:692-695).
`text` is `QString(bytes).toUtf8()`, a conversion of Qt that is the identity on ASCII. -/
def notFoundHandle (text : Bytes → Bytes) (r : ReqView) : Reply :=
  ⟨[.writeResponse 404 [] (b!"The requested resource '" ++ text r.path ++ b!"' does not exist on this server")], true⟩

/-! ### HttpHandlerLog -/

/-- HttpHandler.h:116-120. -/
inductive LogMode where | completedRequests | traceRequests
  deriving Repr, DecidableEq

/-- The parts of a log line that are read from the connection (HttpHandler.cpp:159-163, 178-183, 198-203); address,
date and elapsed time are not modelled. -/
structure LogLine where
  method : Bytes
  uri : Bytes
  version : Bytes
  /-- Status and length; absent in a BEGIN line. -/
  outcome : Option (Int × Int) := none
  deriving Repr, DecidableEq

/-- The four formats of log entries (HttpHandler.cpp:158, 174, 193). -/
inductive LogKind where | plain | begin | end_ | close
  deriving Repr, DecidableEq

/-- `_requestTimerMap` (only its keys matter), `_mode`, and what has been written to the device.
(HttpHandler.cpp:119-138.) -/
structure LogState where
  known : List Nat := []
  mode : LogMode := .completedRequests
  out : List (LogKind × Nat × LogLine) := []
  deriving Repr, DecidableEq

/-- What the log handler can be confronted with; connections are numbered. (HttpHandler.cpp:140-212, 230-234.) -/
inductive LogEv where
  /-- `handleRequest(connection)`. -/
  | handle (i : Nat) (l : LogLine)
  /-- The connection emits `requestCompleted`, `closed`, `destroyed`; the line shows what its accessors return. -/
  | completed (i : Nat) (l : LogLine)
  | closed (i : Nat) (l : LogLine)
  | destroyed (i : Nat)
  | setMode (m : LogMode)
  deriving Repr, DecidableEq

/-- The slots of `HttpHandlerLog` (HttpHandler.cpp:140-214, 234-238).  The signals of a connection reach the slots once
`handleRequest` has connected them, which happens exactly when the connection enters the map (lines 143-149); that
a connection is in the map twice, or connected without being in it, cannot happen. -/
def LogState.step (s : LogState) : LogEv → LogState
  | .handle i l =>
    let s := if i ∈ s.known then s else { s with known := i :: s.known }
    match s.mode with
    | .completedRequests => s
    | .traceRequests => { s with out := s.out ++ [(.begin, i, { l with outcome := none })] }
  | .completed i l =>
    if i ∈ s.known then
      { s with out := s.out ++ [(match s.mode with | .completedRequests => .plain | .traceRequests => .end_, i, l)] }
    else s
  | .closed i l =>
    if i ∈ s.known ∧ s.mode = .traceRequests then { s with out := s.out ++ [(.close, i, l)] } else s
  | .destroyed i => { s with known := s.known.filter (· ≠ i) }
  | .setMode m => { s with mode := m }

/-- What the accessors of a connection show for the log line. (HttpHandler.cpp:177-182.) -/
def Conn.logLine (c : Conn) : LogLine := ⟨c.req.method, c.req.uri, c.req.version, some (c.status, c.respLen)⟩

/-! ### HttpHandlerFile -/

/-- What the handler asks the file system; Qt's `QFileInfo`/`QFile`. Used at HttpHandler.cpp:281-313. -/
structure FileSystem where
  present : Bytes → Bool
  canonical : Bytes → Bytes
  isFile : Bytes → Bool
  /-- `open(ReadOnly)` and the content. -/
  contents : Bytes → Option Bytes

/-- What `HttpHandlerFile::handleRequest` does (HttpHandler.cpp:275-339). -/
inductive FileAction where
  /-- `return false`. -/
  | pass
  /-- One call that answers the request. -/
  | answer (a : Call)
  /-- The head is written and a `HttpHandlerFileTransfer` created for the content. -/
  | transfer (head : Call) (content : Bytes) (bufferSize : Nat)
  deriving Repr, DecidableEq

/-- Decimal digits, `QByteArray::number`. Qt; used at HttpHandler.cpp:327. -/
def decimal (n : Nat) : Bytes := (digitsRev 10 n).reverse

/-- `HttpHandlerFile::handleRequest` (HttpHandler.cpp:285-339).  `dec` is `fromPercentEncoding`, `md5` the hex digest,
`text` the conversion of the path to UTF-8.  Paths are bytes.  The file does not change during this call. -/
def fileHandle (fs : FileSystem) (dec md5 text : Bytes → Bytes) (publicPath : Bytes) (bufferSize : Nat) (r : ReqView) :
    FileAction :=
  if publicPath = [] then .pass
  else
    let requestPath := dec r.path
    let resultPath := publicPath ++ requestPath
    if !fs.present resultPath then .pass
    else if !(publicPath.isPrefixOf (fs.canonical resultPath)) then .pass
    else if !fs.isFile resultPath then .pass
    else match fs.contents resultPath with
    | none => .answer (.writeResponse 403 []
        (b!"The requested resource '" ++ text requestPath ++ b!"' is not accessible"))
    | some content =>
      let ctype : Header := ⟨b!"Content-Type", getMimeTypeForFilename requestPath⟩
      if content.length ≤ bufferSize then
        if getFieldValue r.headers b!"If-None-Match" = md5 content then .answer (.writeResponse 304 [] [])
        else .answer (.writeResponse 200 [ctype, ⟨b!"ETag", md5 content⟩] content)
      else .transfer (.writeHeaders 200 [ctype, ⟨b!"Content-Length", decimal content.length⟩]) content bufferSize

/-! ### HttpHandlerFileTransfer -/

/-- HttpHandler.h:176-180; the source device is its content and position. -/
structure Transfer where
  content : Bytes
  pos : Nat := 0
  bufferSize : Nat
  deriving Repr, DecidableEq

/-- The constructor (HttpHandler.cpp:345-359). -/
def Transfer.create (content : Bytes) (bufferSize : Nat) : Transfer :=
  { content := content, bufferSize := if bufferSize < 512 then 512 else bufferSize }

/-- `writeNextPayload` (HttpHandler.cpp:361-377) when the device has `pending` unsent bytes: what is passed to
`writeContent`, if anything. -/
def Transfer.next (x : Transfer) (pending : Nat) : Option (Bytes × Transfer) :=
  let toRead : Int := (x.bufferSize : Int) - pending
  if toRead ≤ 0 then none
  else
    let available : Int := (x.content.length : Int) - x.pos
    let toRead := if toRead > available then available else toRead
    if toRead > 0 then
      some ((x.content.drop x.pos).take toRead.toNat, { x with pos := x.pos + toRead.toNat })
    else none

end Pillow
