import Verif.Model.ConnPure
/-!
# Model of `Pillow::HttpConnection` (pillowcore/HttpConnection.{h,cpp}) as a small-step machine

The C++ object is single threaded but re-entrant: every emitted signal, and every device flush, gives control to
code we know nothing about, which may call any public method again.  The machine makes this explicit.
A configuration is the object (`Conn`) and the stack of what remains to be executed (`List Instr`); the marker
`Instr.env` on top of the stack (or an empty stack, the event loop) means that foreign code is in control.

* `exec k i c` executes one instruction: a stretch of a C++ function that contains no call to another modelled
  function and no signal emission, followed by pushing the calls it makes (with the rest of the function below
  them when there is one, e.g. `completed` pushes `env, completedRest`).
  `k` is the choice made by the device in `flush` (how many bytes leave).
* foreign code moves are `Label`s: API calls, returning, device events.

The object records what an outside observer can see in `log`.

Simplifications:
* `QIODevice::read` returns all available bytes; sizes fit in `int`.
* input and output device are one device, non-null in `initialize`.
* the capacity management of the buffers (reserve/clear/squeeze) is not modelled; that raw views die when the
  buffer changes is modelled by the flag `viewsValid`, and a read through a dead view sets `staleRead`.
* closing the device gives control away only at the `closed` signal.
-/
namespace Pillow

/-- HttpConnection.h:45. -/
inductive CState where
  | uninitialized | receivingHeaders | receivingContent | sendingHeaders | sendingContent | completed | flushing
  | closed
  deriving Repr, DecidableEq, Inhabited

/-- HttpConnection.h:46. -/
def maxHeaderLength : Nat := 32 * 1024
/-- HttpConnection.h:47. -/
def maxContentLength : Int := 128 * 1024 * 1024

/-- The socket: bytes arrived and not yet read, number of bytes written and not yet sent, whether
`bytesWritten` is connected to `drain` (HttpConnection.cpp:383). -/
structure Dev where
  inp : Bytes := []
  pending : Nat := 0
  drainConn : Bool := false
  deriving Repr, DecidableEq, Inhabited

/-- Observable events. (The signals of HttpConnection.h and the writes at HttpConnection.cpp:254-298, 401-418,
446-611.) -/
inductive Ev where
  /-- `initialize` was called with a fresh device. -/
  | init
  /-- Bytes arrived at the device. -/
  | recv (bs : Bytes)
  /-- `requestReady` with the request the accessors show. -/
  | ready (r : ReqView)
  /-- `100 Continue` was written. -/
  | interim
  /-- A response head was written. -/
  | head (h : RespHead)
  /-- Content was written as is. -/
  | body (bs : Bytes)
  /-- Content was written as one chunk. -/
  | chunk (bs : Bytes)
  /-- The final chunk was written. -/
  | lastChunk
  /-- An error reply was written. -/
  | errorReply (code : Int)
  /-- `requestCompleted`. -/
  | completed
  /-- `closed`; by `close()` or not, with this many bytes unsent. -/
  | closed (forced : Bool) (unsent : Nat)
  deriving Repr, DecidableEq

/-- The bytes an event puts on the wire. (HttpConnection.cpp:235, 416, 551, 579-584, 606.) -/
def Ev.wire : Ev → Bytes
  | .interim => continueBytes
  | .head h => h.bytes
  | .body bs => bs
  | .chunk bs => chunkPrefix bs.length ++ bs ++ b!"\r\n"
  | .lastChunk => b!"0\r\n\r\n"
  | .errorReply code => errorReplyBytes code
  | _ => []

/-- Undefined behaviour that ends the execution. (HttpConnection.cpp:169-186, 330-335.) -/
inductive Fault where
  /-- A null device pointer was dereferenced. -/
  | nullDevice
  /-- `appendNumber` was given the most negative `int`. -/
  | overflow
  deriving Repr, DecidableEq

/-- The members of `HttpConnectionPrivate` (HttpConnection.cpp:77-104). -/
structure Conn where
  st : CState := .uninitialized
  dev : Option Dev := none
  parser : Parser := {}
  buf : Bytes := []
  refs : List FieldRef := []
  /-- `_requestHeaders.size()`; the elements are views read through `refs` and `buf`. -/
  hdrN : Nat := 0
  clen : Int := 0
  http11 : Bool := false
  /-- The other request fields; set when the request becomes ready, while the buffer stays unchanged. -/
  req : ReqView := {}
  params : List (Bytes × Bytes) := []
  uriDec : Bytes := []
  fragDec : Bytes := []
  pathDec : Bytes := []
  queryDec : Bytes := []
  respBuf : Bytes := []
  status : Int := 0
  respLen : Int := 0
  sent : Nat := 0
  keepAlive : Bool := false
  chunked : Bool := false
  /-- The elements of `_requestHeaders` still point into the buffer.  Pessimistic: every growth of the buffer
  (lines 164-168, 239) is taken to move it. -/
  hdrValid : Bool := false
  /-- The raw views of the request fields still point to their bytes. -/
  viewsValid : Bool := false
  /-- Some read went through a dead view (undefined behaviour in C++). -/
  staleRead : Bool := false
  fault : Option Fault := none
  log : List Ev := []
  deriving Repr, DecidableEq, Inhabited

/-- The statements of HttpConnection.cpp:139-611 that remain to be executed, cut at the calls and signals. -/
inductive Instr where
  | env
  | processInput
  | recvContent
  | sendHeaders
  | sendContent
  | sendContentRest
  | completed
  | completedRest
  | completedRest2
  | flush
  | drain
  | drainRest
  | flushing
  | flushingRest
  | closed (forced : Bool)
  | closedRest
  | errorResponse (code : Int)
  | writeResponse (status : Int) (hs : Headers) (content : Bytes)
  | writeResponseRest (content : Bytes)
  | writeHeaders (status : Int) (hs : Headers)
  | writeContent (content : Bytes)
  | endContent
  deriving Repr, DecidableEq

/-- The connection after a piece of code, and the code that has to follow (HttpConnection.cpp:139-611). -/
abbrev Out := Conn × List Instr

/-- Adds to the record of what is observed; stands for no code of its own (the events are those of
HttpConnection.cpp:139-611). -/
def Conn.emit (c : Conn) (e : Ev) : Conn := { c with log := c.log ++ [e] }

/-- `_outputDevice->write(…)` of everything in `e.wire`. (HttpConnection.cpp:235, 416, 551, 579-584, 606.) -/
def Conn.write (c : Conn) (e : Ev) : Conn :=
  match c.dev with
  | none => { c with fault := some .nullDevice }
  | some d => { c with dev := some { d with pending := d.pending + e.wire.length }, log := c.log ++ [e] }

/-- Reading a request field through its view. (HttpConnection.cpp:199-213, 262-298.) -/
def Conn.readView (c : Conn) : Conn := if c.viewsValid then c else { c with staleRead := true }

/-- `_requestMethod == headToken`. (HttpConnection.cpp:446-611.) -/
def Conn.isHead (c : Conn) : Bool := c.req.method == b!"HEAD"

/-- Lines 161-170: everything available is appended to the buffer. -/
def Conn.fill (c : Conn) (d : Dev) : Conn :=
  { c with buf := c.buf ++ d.inp, dev := some { d with inp := [] }, hdrValid := c.hdrValid && d.inp == [] }

/-- Lines 174-175 and the header callback (lines 420-430): the parser runs over the buffer from `nread`; the
callbacks append to `_requestHeadersRef`. -/
def Conn.parse (c : Conn) : Conn :=
  let p := if c.buf = [] then c.parser else c.parser.execute c.buf c.parser.nread
  { c with parser := p, refs := c.refs ++ p.fields.drop c.parser.fields.length }

/-- `processInput` (HttpConnection.cpp:157-186). -/
def Conn.processInput (c : Conn) : Out :=
  if c.st ≠ .receivingHeaders ∧ c.st ≠ .receivingContent then (c, [])
  else match c.dev with
  | none => ({ c with fault := some .nullDevice }, [])
  | some d =>
    let c := c.fill d
    if c.st = .receivingHeaders then
      let c := c.parse
      if c.parser.nread > maxHeaderLength ∨ c.parser.hasError then (c, [.errorResponse 400])
      else if c.parser.isFinished then (c, [.recvContent])
      else (c, [])
    else
      if (c.buf.length : Int) - c.parser.bodyStart ≥ c.clen then (c, [.sendHeaders]) else (c, [])

/-- `transitionToReceivingHeaders` (HttpConnection.cpp:188-197). -/
def Conn.toReceivingHeaders (c : Conn) : Conn :=
  if c.st = .receivingHeaders then c
  else { c with st := .receivingHeaders, parser := c.parser.init, clen := 0, http11 := false }

/-- `setupRequestHeaders` (HttpConnection.cpp:199-213). -/
def Conn.setup (c : Conn) : Conn := { c with buf := setupHeaders c.buf c.refs, hdrN := c.refs.length, hdrValid := true }

/-- Lines 222-224: the announced content length and whether it could be parsed. -/
def Conn.announced (c : Conn) (idx : Option Nat) : Int × Bool :=
  match idx with
  | none => (c.clen, true)
  | some i =>
    match qtToInt ((viewHeaders c.buf c.refs).getD i ⟨[], []⟩).value with
    | some n => (n, true)
    | none => (0, false)

/-- `transitionToReceivingContent` (HttpConnection.cpp:215-252). -/
def Conn.recvContent (c : Conn) : Out :=
  if c.st = .receivingContent then (c, [])
  else
    let idx := contentLengthIndex c.buf c.refs
    let c := { c with st := .receivingContent }.setup
    let a := c.announced idx
    let c := { c with clen := a.1 }
    if a.1 < 0 then (c, [.errorResponse 400])
    else if a.1 > maxContentLength ∨ a.2 = false then (c, [.errorResponse 413])
    else if a.1 > 0 then
      let c := if asciiEqualsCILower (getFieldValueTok (viewHeaders c.buf c.refs) b!"expect") b!"100-continue"
        then c.write .interim else c
      ({ c with hdrN := c.hdrN - 1, hdrValid := false }, [.processInput])
    else (c, [.sendHeaders])

/-- `transitionToSendingHeaders` (HttpConnection.cpp:254-298). -/
def Conn.sendHeaders (c : Conn) : Out :=
  if c.st = .sendingHeaders then (c, [])
  else
    let c := { c with st := .sendingHeaders }
    let c := if c.hdrN ≠ c.refs.length then c.setup else c
    let pf := prepareFields c.parser c.buf
    let r := requestView c.parser (c.refs.take c.hdrN) pf.1 pf.2 c.clen.toNat
    let c := { c with buf := pf.1, req := r, uriDec := [], fragDec := [], pathDec := [], queryDec := [],
                      http11 := r.version == b!"HTTP/1.1", viewsValid := true,
                      staleRead := c.staleRead || !c.hdrValid,
                      respLen := -1, sent := 0, keepAlive := true, chunked := false }
    (c.emit (.ready r), [.env])

/-- `transitionToSendingContent` (HttpConnection.cpp:300-311). -/
def Conn.sendContent (c : Conn) : Out :=
  if c.st = .sendingContent then (c, [])
  else
    let c := { c with st := .sendingContent, respBuf := [] }
    if c.respLen = 0 then (c, [.completed, .sendContentRest])
    else
      let c := c.readView
      if c.isHead then (c, [.completed, .sendContentRest]) else (c, [.sendContentRest])

/-- The rest of `transitionToSendingContent` (HttpConnection.cpp:313-317). -/
def Conn.sendContentRest (c : Conn) : Out :=
  (if c.respLen < 0 ∧ c.chunked = false then { c with keepAlive := false } else c, [])

/-- `transitionToCompleted` up to the signal (HttpConnection.cpp:320-328). -/
def Conn.complete (c : Conn) : Out :=
  if c.st = .completed then (c, [])
  else ({ c with st := .completed }.emit .completed, [.env, .completedRest])

/-- `QByteArray::right`. Qt; used at HttpConnection.cpp:333. -/
def rightBytes (buf : Bytes) (n : Nat) : Bytes := buf.drop (buf.length - n)

/-- `transitionToCompleted` after the signal (HttpConnection.cpp:330-345, 350-353). -/
def Conn.completedRest (c : Conn) : Out :=
  let remaining : Int := (c.buf.length : Int) - c.parser.bodyStart - c.clen
  let c := { c with buf := if remaining > 0 then rightBytes c.buf remaining.toNat else [], refs := [], params := [],
                    req := { c.req with content := [] }, viewsValid := false }
  if c.keepAlive then (c, [.flush, .completedRest2]) else (c, [.flushing])

/-- Lines 347-348. -/
def Conn.completedRest2 (c : Conn) : Out := (c.toReceivingHeaders, [.processInput])

/-- `flush` (HttpConnection.cpp:356-365): up to `k` bytes leave, and the socket may emit signals meanwhile. -/
def Conn.flush (k : Nat) (c : Conn) : Out :=
  match c.dev with
  | none => (c, [])
  | some d => if d.pending > 0 then ({ c with dev := some { d with pending := d.pending - k } }, [.env]) else (c, [])

/-- `drain` (HttpConnection.cpp:367-370). -/
def Conn.drain (c : Conn) : Out := if c.st ≠ .flushing then (c, []) else (c, [.flush, .drainRest])

/-- `drain` after the flush (HttpConnection.cpp:371). -/
def Conn.drainRest (c : Conn) : Out :=
  match c.dev with
  | none => (c, [])
  | some d => if d.pending = 0 then (c, [.closed false]) else (c, [])

/-- `transitionToFlushing` (HttpConnection.cpp:374-381). -/
def Conn.toFlushing (c : Conn) : Out :=
  if c.st = .flushing then (c, []) else ({ c with st := .flushing }, [.drain, .flushingRest])

/-- `transitionToFlushing` after the first drain (HttpConnection.cpp:382-383); `connect` with a null sender only
prints a warning. -/
def Conn.flushingRest (c : Conn) : Out :=
  if c.st = .flushing then
    match c.dev with
    | none => (c, [])
    | some d => ({ c with dev := some { d with drainConn := true } }, [])
  else (c, [])

/-- `transitionToClosed` up to the signal (HttpConnection.cpp:386-393); `forced` tells `close()` from `drain`. -/
def Conn.toClosed (forced : Bool) (c : Conn) : Out :=
  if c.st = .closed then (c, [])
  else ({ c with st := .closed }.emit (.closed forced (match c.dev with | some d => d.pending | none => 0)), [.env, .closedRest])

/-- `transitionToClosed` after the signal (HttpConnection.cpp:395-398). -/
def Conn.closedRest (c : Conn) : Out := ({ c with dev := none }, [])

/-- `writeRequestErrorResponse` (HttpConnection.cpp:401-418). -/
def Conn.errorResponse (code : Int) (c : Conn) : Out :=
  if c.st = .closed then (c, []) else (c.write (.errorReply code), [.flushing])

/-- `writeResponse` (HttpConnection.cpp:432-442). -/
def Conn.writeResponse (status : Int) (hs : Headers) (content : Bytes) (c : Conn) : Out :=
  if c.st ≠ .sendingHeaders then (c, [])
  else ({ c with respLen := content.length }, [.writeHeaders status hs, .writeResponseRest content])

/-- Line 443. (HttpConnection.cpp:443.) -/
def Conn.writeResponseRest (content : Bytes) (c : Conn) : Out :=
  if content = [] then (c, [])
  else
    let c := c.readView
    if c.isHead then (c, []) else (c, [.writeContent content])

/-- `writeHeaders` (HttpConnection.cpp:446-553). -/
def Conn.writeHeaders (status : Int) (hs : Headers) (c : Conn) : Out :=
  if c.st ≠ .sendingHeaders then (c, [])
  else
    let c := c.readView
    match buildHead c.respBuf c.http11 c.req c.respLen c.chunked status hs with
    | none => ({ c with fault := some .overflow }, [])
    | some h =>
      let c := { c with status := status, respBuf := h.bytes, respLen := h.len, chunked := h.chunked, keepAlive := h.keepAlive }
      (c.write (.head h), [.sendContent])

/-- `writeContent` (HttpConnection.cpp:555-589). -/
def Conn.writeContent (content : Bytes) (c : Conn) : Out :=
  if c.st ≠ .sendingContent then (c, [])
  else if c.respLen = 0 then (c, [])
  else if c.respLen > 0 ∧ (content.length : Int) + c.sent > c.respLen then (c, [])
  else if content.length > 0 then
    let c := c.readView
    if c.isHead then (c, [])
    else
      let c := { c with sent := c.sent + content.length }
      let c := c.write (if c.chunked then .chunk content else .body content)
      if (c.sent : Int) = c.respLen then (c, [.completed]) else (c, [])
  else (c, [])

/-- `endContent` (HttpConnection.cpp:591-611). -/
def Conn.endContent (c : Conn) : Out :=
  if c.st ≠ .sendingContent then (c, [])
  else if c.respLen ≥ 0 then (c, [])
  else
    let c := if c.chunked then c.write .lastChunk else { c with keepAlive := false }
    (c, [.completed])

/-- One of the pieces of HttpConnection.cpp:139-611. -/
def exec (k : Nat) : Instr → Conn → Out
  | .env, c => (c, [])
  | .processInput, c => c.processInput
  | .recvContent, c => c.recvContent
  | .sendHeaders, c => c.sendHeaders
  | .sendContent, c => c.sendContent
  | .sendContentRest, c => c.sendContentRest
  | .completed, c => c.complete
  | .completedRest, c => c.completedRest
  | .completedRest2, c => c.completedRest2
  | .flush, c => c.flush k
  | .drain, c => c.drain
  | .drainRest, c => c.drainRest
  | .flushing, c => c.toFlushing
  | .flushingRest, c => c.flushingRest
  | .closed forced, c => c.toClosed forced
  | .closedRest, c => c.closedRest
  | .errorResponse code, c => c.errorResponse code
  | .writeResponse s hs ct, c => c.writeResponse s hs ct
  | .writeResponseRest ct, c => c.writeResponseRest ct
  | .writeHeaders s hs, c => c.writeHeaders s hs
  | .writeContent ct, c => c.writeContent ct
  | .endContent, c => c.endContent

/-- Public `initialize` with a fresh device (HttpConnection.cpp:632-656) and the private one (139-155); the
`singleShot(0, processInput)` is a later call by the environment. The buffer is emptied, so the views of an earlier request are dead. -/
def Conn.initialize (c : Conn) : Conn :=
  let c := { c with dev := some {}, parser := {}, buf := [], refs := [], params := [], viewsValid := false }
  (c.toReceivingHeaders).emit .init

/-! ### Accessors that change the object (caches) -/

/-- The parsing loop of `requestParams` (HttpConnection.cpp:737-757): split at `&`, each item at its first `=`,
both halves percent-decoded. -/
def splitAt (d : Byte) : Bytes → Bytes × Option Bytes
  | [] => ([], none)
  | b :: bs => if b == d then ([], some bs) else
    let r := splitAt d bs
    (b :: r.1, r.2)

theorem splitAt_lt (d : Byte) : ∀ (bs : Bytes) r, (splitAt d bs).2 = some r → r.length < bs.length
  | [], r, h => by simp [splitAt] at h
  | b :: bs, r, h => by
    simp only [splitAt] at h
    split at h
    · simp at h; subst h; simp
    · have := splitAt_lt d bs r h
      simp; omega

/-- (HttpConnection.cpp:732-758: one `name=value`.) -/
def paramOf (item : Bytes) : Bytes × Bytes :=
  match splitAt 61 item with
  | (key, some value) => (percentDecode key, percentDecode value)
  | (key, none) => (percentDecode key, [])

/-- (HttpConnection.cpp:732-758.) -/
def parseParams (q : Bytes) : List (Bytes × Bytes) :=
  if q = [] then []
  else match _h : splitAt 38 q with
  | (item, some rest) => paramOf item :: parseParams rest
  | (item, none) => [paramOf item]
termination_by q.length
decreasing_by exact splitAt_lt 38 q rest (by rw [_h])

/-- `requestParams` (HttpConnection.cpp:732-758): parse once, then answer from the cache. -/
def Conn.requestParams (c : Conn) : Conn :=
  if c.params = [] ∧ c.req.query ≠ [] then
    { c with params := parseParams c.req.query, staleRead := c.staleRead || !c.viewsValid }
  else c

/-- `QString::compare(…, Qt::CaseInsensitive) == 0`, restricted to ASCII folding (Unicode case folding of Qt is
not modelled). (HttpConnection.cpp:760-785.) -/
def paramNameEq (a b : Bytes) : Bool := asciiEqualsCI a b

/-- The lookup loop of `requestParamValue` (HttpConnection.cpp:763-769). -/
def paramLookup : List (Bytes × Bytes) → Bytes → Bytes
  | [], _ => []
  | p :: ps, name => if paramNameEq p.1 name then p.2 else paramLookup ps name

/-- `requestParamValue` (HttpConnection.cpp:760-770): result and object afterwards. -/
def Conn.requestParamValue (c : Conn) (name : Bytes) : Bytes × Conn :=
  let c := c.requestParams
  (paramLookup c.params name, c)

/-- The update loop of `setRequestParam` (HttpConnection.cpp:775-784). -/
def paramSet : List (Bytes × Bytes) → Bytes → Bytes → List (Bytes × Bytes)
  | [], n, v => [(n, v)]
  | p :: ps, n, v => if paramNameEq p.1 n then (n, v) :: ps else p :: paramSet ps n v

/-- `setRequestParam` (HttpConnection.cpp:772-785). -/
def Conn.setRequestParam (c : Conn) (n v : Bytes) : Conn :=
  let c := c.requestParams
  { c with params := paramSet c.params n v }

/-- The four fields with a decoded accessor (HttpConnection.cpp:61-66, 87-90). -/
inductive Decoded where | uri | fragment | path | query
  deriving Repr, DecidableEq

/-- `PERCENT_DECODABLE` accessor (HttpConnection.cpp:61-66): the result is the cache afterwards.  The raw field is read
through its view (the URI of a request with a query string is in fact a copy; taken as a view here). -/
def Conn.readDecoded (c : Conn) : Decoded → Conn
  | .uri => if c.uriDec = [] ∧ c.req.uri ≠ [] then { c with uriDec := percentDecode c.req.uri, staleRead := c.staleRead || !c.viewsValid } else c
  | .fragment => if c.fragDec = [] ∧ c.req.fragment ≠ [] then { c with fragDec := percentDecode c.req.fragment, staleRead := c.staleRead || !c.viewsValid } else c
  | .path => if c.pathDec = [] ∧ c.req.path ≠ [] then { c with pathDec := percentDecode c.req.path, staleRead := c.staleRead || !c.viewsValid } else c
  | .query => if c.queryDec = [] ∧ c.req.query ≠ [] then { c with queryDec := percentDecode c.req.query, staleRead := c.staleRead || !c.viewsValid } else c

/-- The value returned by a `PERCENT_DECODABLE` accessor (HttpConnection.cpp:61-66). -/
def Conn.decoded (c : Conn) : Decoded → Bytes
  | .uri => c.uriDec
  | .fragment => c.fragDec
  | .path => c.pathDec
  | .query => c.queryDec

/-! ### The machine -/

/-- A connection and the code that is being executed on it (HttpConnection.cpp:139-611; the stack of C++ calls). -/
structure Conf where
  c : Conn := {}
  stack : List Instr := []
  deriving Repr, DecidableEq, Inhabited

/-- The calls foreign code can make: the public methods and slots (private slots are reachable through device
signals: `processInput` by `readyRead` and the single shot timer, `drain` by `bytesWritten`, `close` by
`disconnected`/`aboutToClose`/`readChannelFinished`). (HttpConnection.cpp:157-186, 356-398, 432-617, 632-656.) -/
inductive Call where
  | processInput
  | flush
  | drain
  | close
  | writeResponse (status : Int) (hs : Headers) (content : Bytes)
  | writeHeaders (status : Int) (hs : Headers)
  | writeContent (content : Bytes)
  | endContent
  deriving Repr, DecidableEq

/-- The code behind a call (HttpConnection.cpp:157-186, 356-398, 432-617). -/
def Call.instr : Call → Instr
  | .processInput => .processInput
  | .flush => .flush
  | .drain => .drain
  | .close => .closed true
  | .writeResponse s hs ct => .writeResponse s hs ct
  | .writeHeaders s hs => .writeHeaders s hs
  | .writeContent ct => .writeContent ct
  | .endContent => .endContent

/-- What can happen next (HttpConnection.cpp:139-617 for the object's own moves, 632-785 for the calls). -/
inductive Label where
  /-- The object executes its next instruction; `k` is used by `flush`. -/
  | tau (k : Nat)
  /-- Foreign code calls a method. -/
  | call (a : Call)
  /-- Foreign code returns. -/
  | ret
  /-- Bytes arrive at the device. -/
  | recv (bs : Bytes)
  /-- The device sends `k` buffered bytes and emits `bytesWritten`. -/
  | bytesWritten (k : Nat)
  /-- `initialize` with a fresh device. -/
  | init
  /-- `requestParams()`. -/
  | readParams
  /-- `setRequestParam(n, v)`. -/
  | setParam (n v : Bytes)
  /-- `requestUriDecoded()` etc. -/
  | readDecoded (d : Decoded)
  deriving Repr, DecidableEq

/-- Foreign code is in control. (In a slot connected to one of the signals emitted at HttpConnection.cpp:264-353, 392,
or in the event loop.) -/
def Conf.inEnv (s : Conf) : Bool :=
  match s.stack with
  | [] => true
  | .env :: _ => true
  | _ => false

/-- One step; `none` when the label is not possible.  Nothing happens any more after a fault.
(HttpConnection.cpp:139-617, 632-785.) -/
def Conf.step (s : Conf) (l : Label) : Option Conf :=
  if s.c.fault.isSome then none else
  match l with
  | .tau k =>
    match s.stack with
    | [] => none
    | .env :: _ => none
    | i :: rest =>
      let r := exec k i s.c
      some ⟨r.1, r.2 ++ rest⟩
  | .call a => if s.inEnv then some ⟨s.c, a.instr :: s.stack⟩ else none
  | .ret =>
    match s.stack with
    | .env :: rest => some ⟨s.c, rest⟩
    | _ => none
  | .recv bs =>
    if s.inEnv then
      match s.c.dev with
      | some d => some ⟨{ s.c with dev := some { d with inp := d.inp ++ bs } }.emit (.recv bs), s.stack⟩
      | none => none
    else none
  | .bytesWritten k =>
    if s.inEnv then
      match s.c.dev with
      | some d =>
        some ⟨{ s.c with dev := some { d with pending := d.pending - k } },
          if d.drainConn then .drain :: s.stack else s.stack⟩
      | none => none
    else none
  | .init => if s.inEnv then some ⟨s.c.initialize, s.stack⟩ else none
  | .readParams => if s.inEnv then some ⟨s.c.requestParams, s.stack⟩ else none
  | .setParam n v => if s.inEnv then some ⟨s.c.setRequestParam n v, s.stack⟩ else none
  | .readDecoded d => if s.inEnv then some ⟨s.c.readDecoded d, s.stack⟩ else none

/-- Configurations reachable from a newly constructed object when the environment only makes moves that satisfy
`allowed`. (The object is constructed at HttpConnection.cpp:131-137.) -/
inductive Reach (allowed : Conf → Label → Prop) : Conf → Prop where
  | start : Reach allowed {}
  | step (s s' : Conf) (l : Label) : Reach allowed s → allowed s l → s.step l = some s' → Reach allowed s'

/-- Executions as a function, for concrete runs. (HttpConnection.cpp:139-617, 632-785.) -/
def Conf.run (s : Conf) : List Label → Option Conf
  | [] => some s
  | l :: ls => (s.step l).bind (·.run ls)

end Pillow
