# Formal model of acossette/pillow in Lean 4

## 1. Layout

| directory | content |
|---|---|
| `lean/Verif/Basic.lean` | bytes, `b!"..."` byte-string literals, finite-table lifting lemma |
| `lean/Verif/Model/*.lean` | the model, one file per C++ source file; every definition cites the lines it models |
| `lean/Verif/Spec/*.lean` | small specifications written from the English property / the RFC, not from the model |
| `lean/Verif/Lemmas/*.lean` | helper lemmas |
| `lean/Verif/Props/*.lean` | the property theorems only (plus the non-vacuity `example`s beside them) |

## 2. Modelling conventions

* A byte is `UInt8`, a `QByteArray` is `List UInt8`. Implicit sharing, capacity and allocation are abstracted
  except where a property is about them (C14: NUL writes into the shared buffer; C51: capacity; C95: capacity of the request buffer).
* `int`/`qint64` are `Int` where no overflow is reachable; where a narrowing or overflow is reachable the
  model wraps (`Int.bmod`) or returns an explicit `ub` outcome.
* Undefined behaviour (null device dereference, signed overflow, out-of-bounds write) is an explicit outcome.
* Signals are synchronous. `HttpConnection` is modelled as a machine with an explicit stack of continuation
  frames: emitting a signal hands control to the environment, which may make any API call (nested) before it
  returns. All invariants are therefore proved for every handler behaviour, synchronous or asynchronous.
* Qt is trusted at its documented interface (QByteArray::toInt/toLongLong, QIODevice read/write, QRegExp on the
  generated patterns, QFileInfo::canonicalFilePath). Each assumption is stated at the definition.

## 3. Plan per property

| id | what is modelled | how proved |
|---|---|---|
| C01-C03 | ByteArrayHelpers.h comparison loops, HttpHeader.cpp lookups | equality with `map lower`, `List.find?`/`filter` specs by induction |
| C04 | percentDecodeInPlace as a loop over a mutable buffer with two cursors | loop invariant (write cursor <= read cursor) giving equality with a pure decoder; decoder inverts an inductive "is an encoding of" relation |
| C05, C50 | appendNumber digit loop + in-place reversal, 32-bit truncation at the call site | induction on digits; negation with witness for lengths >= 2^31 and INT_MIN |
| C06 | setFromRawHeader | induction |
| C07 | operator+= as a copy loop over an explicit memory with aliasing | loop invariant; negation for the aliased case |
| C08 | parser.c transition table, processInput buffer handling | run over append lemma; connection refinement to a spec machine with one logical pending input |
| C09 | parser.c state table (58 states) with actions | completeness and soundness against an inductive grammar, phase by phase |
| C10 | HttpRequestWriter::write + parser | instance of C09 completeness plus content delivery |
| C11, C12, C25 | processInput, transitionToReceivingContent, writeRequestErrorResponse, QByteArray::toInt | case analysis over machine steps |
| C13 | transitionToCompleted buffer slicing | refinement of C08 |
| C14 | setFromRawDataAndNullterm on a mutable buffer | positions of NULs vs. slices; negation for "/p?" |
| C15-C18, C21, C24 | HttpConnection machine with continuation stack | invariants by induction over event sequences; witnesses for the violations |
| C19 | writeContent/endContent chunk framing | chunked decoder written from RFC 2616, induction over contents |
| C20, C22, C23 | writeHeaders | decision logic stated outright; witness for unknown status code |
| C26-C28 | requestParams loops, setRequestParam, decoded caches | split specs, list update lemmas, invariant over read/request histories |
| C29-C31 | handler stack, router dispatch, pattern compilation and matching | first-match specs; witness for splat-before-param |
| C32 | HttpHandlerFile decision over an abstract file system | prefix theorem (partial) and witness of escape to a sibling directory |
| C33 | writeNextPayload with drain schedule | invariant over schedules |
| C34 | HttpServerPrivate pool | invariant over accept/close histories |
| C35, C36, C39, C41 | http_parser.c response path, HttpResponseParser callbacks | state machine refinement; witnesses for header leakage |
| C37, C38, C40 | HttpClient state machine with re-entrant callbacks | invariants over event sequences |
| C42, C43 | getHttpDate, status table | table lifted to all ints; field read-back |
| C44, C45 | HttpHandlerProxyPipe on top of the connection machine | invariants; witness for chunked reply without final chunk |
| C46, C47 | NetworkReply::readData, NetworkAccessManager maps | invariants over histories |
| C48 | HttpHandlerLog timer map | invariant over interleavings |
| C49 | HttpRequestWriter builder reuse | induction over request sequence |
| C51 | ByteArray append overloads with capacity | case analysis, memory-safety invariant |
| C52, C53 | fixed/404/file handlers as decisions, run on the connection machine | corollaries of the connection theorems |
| C54, C57 | every `assert` of http_parser.c sets a flag in the model | invariant over all inputs and callback behaviours |
| C55, C56 | complete responses (sized, chunked, bodyless) against http_parser + response parser + client | phase by phase execution lemmas, induction over headers and chunks |
| C58 | client machine and connection machine over two byte streams | composition of C49/C10 (request) and C18/C55/C56 (response) |
| C59 | client machine with any read buffer size and any schedule of reads | simulation of a quiet parser run (as C56) with the unread bytes as part of the state; a variant for progress; a budget invariant over the parser loop for the bound |
| C60 | client machine, HEAD | C56 with the response cut off after its headers |
| C61 | client machine, `followRedirection` | invariant: what is shown after `finished()` is a function of the record (`Current`); a callback that pauses leaves the parser as it is |
| C62 | client machine, response without length | as C59, along `Steps` of the parser (no end in the data); `injectEof` is never called by the client |
| C63 | client machine, strict prefix of an answer | the run is continued by the rest of the answer, and C59 applied to it; what was seen before is a beginning of that |
| C64 | HttpHandlerProxy::handleRequest: url, headers, content | the request with the handler is the last of the stream (C13); `setRawHeader` by induction over the headers; witnesses for what is lost |
| C65 | ElasticNetworkAccessManager | induction over the history; a manager is added only if all are full |
| C66 | HttpHandlerQtScript::handleRequest after the call of the function | phases of the connection while the script runs; C52 for the 500; witness |
| C67 | HttpHandlerQtScriptFile::handleRequest, file system steps interleaved | invariant relating the stored time and function to the versions of the file; witnesses |
| C68 | NetworkAccessManager::createRequest | `setRawHeader` by induction over the headers (as C64), the cookies by induction; composed with C58 |
| C69 | NetworkReply: the three slots as a fold over the signals of the client | induction over the headers of the response; invariant "quiet until finished"; composed with C56/C59 (`Announced`: headers before content) |
| C70 | HttpHandlerLog: the entries; `QString::arg` with its place markers | every `arg` fills the first marker of the format if no argument has one (induction over the arguments); the values by the invariant of the connection and C13 |
| C71 | HttpClient: `device_error`, `abort` and the next `request`, at every byte of a response | what the parser has delivered after any beginning of a status line or body, chunk by chunk; then the invariant of C56 |
| C72 | HttpHandlerQtScript: the request object (lines 10-27, 84-98) | C13/C14 for what the connection shows, then the decoding (Qt's, modelled) and the setting of properties; witnesses |
| C73 | HttpConnection::initialize after any use; the server's pool | simulation of the used object by a new one: up to the first request they agree but for fields that are overwritten before they are read, afterwards but for the history; then the invariant of C34 |
| C74 | HttpHelpers: the table of types; HttpHandlerFile | the extension is what follows the last dot, so at most one entry applies; case analysis of the handler; C23 for the line that is sent |
| C75 | HttpClient::request, device_connected; the states of the socket | invariant over slots, parser callbacks and inputs: while a response is pending the socket is connecting, or connected and written to since the request was accepted; C40 for the rest; without the assumption, the dichotomy on its way / stuck (`C75_exactly`), by a second invariant (Lemmas/Posted.lean) |
| C76 | HttpClient callbacks and slots; the order of the callbacks of http_parser | generic theorem on the order of parser callbacks (`execute_phase`, by cases on the switch), then an invariant relating the log, the parser state and the accessors through slots, callbacks and inputs |
| C77 | GunzipContentTransformer (the loop around `inflate`); the parser never announces empty pieces | zlib by contract (`Decodes`): what it takes and delivers of a complete stream; invariant of the loop and over the blocks; C56/C59 for what arrives; a small decoder that meets the contract |
| C78 | client, connection machine, File handler and Transfer together | composition: C58 (the request the server shows is the one asked for), C53/C33 (what the File handler answers), C18/C41 (what is written), C56 (what the client reports) |
| C79 | the parameters of the connection and the router together | invariant: the parameters kept are those of the query of the present request with what was set since it was handed out; then C30 and C31 |
| C80 | handlers inside handlers (Model/HandlerTree) | mutual induction over trees: the moves of a handler are preparations followed by at most one deed; the exception (`Lost`) characterized exactly; C78 for what the client is told |
| C81 | addRoute with a member of an object; Qt's lookup of methods | the signature determines name and parameter; first match |
| C82 | the client model and the server model composed: a transition system of a client, its connections, and one connection object per connection (`Spec/Link.lean`) | an invariant relates what the server has completed, what has arrived and what the client waits for (`Lemmas/LinkMode.lean`); it is kept by every step, also when a request fails (`Lemmas/ClientGone.lean`) |
| C83 | HttpConnection::processInput on the whole connection machine | the invariant of C08/C13 in every settled state gives the bytes held; a case analysis over all steps shows that only processInput in a receiving state reads |
| C84 | the validity of the views kept by a connection (flags of the connection machine, set where the code makes, drops or moves what they point to) | two invariants over all steps: the field and header views are alive in the handling states, and a `writeResponse` under way with content is not followed by a completion; a run for the violation |
| C85 | the call stack of the connection machine (nothing new is modelled) | a weight for every piece of code that exceeds the weight of what it pushes (depending on the state for `processInput`), bounded on every stretch between two frames of foreign code: all executions end; counting frames against calls and against requests by two invariants; for the violation an induction over the number of pipelined requests that computes one round (answer, completion, next request) on a symbolic rest of the stream |
| C86 | client machine (nothing new is modelled) | two ways to emit signals that agree on clients with at most n reactions make all functions of the client agree, through the parser by the relational lemma `rel_execute`; induction on n; for the violation an induction over the number of failures |
| C87 | the sockets of the server: which connection gets which, the calls of deleteLater | the invariant of C34, with: the sockets not yet released are those of the connections that serve; a connection that serves has its device when it emits `closed` (invariant of the connection) |
| C88 | HttpHandlerFileTransfer with a file whose content may be replaced at any moment | the induction of C33 with the list of all contents so far; the amounts from the invariant of the connection (C18) |
| C89 | createProxiedReply: the buffer over the content of the connection, read at any time until the event loop deletes the upstream reply | while the pipe is not torn down the connection holds the request (C64_body through the invariant of the pipe, C44/C45); induction on the readings |
| C90 | the streams of C08–C13 against the framing of RFC 7230 (Spec/Framing.lean, independent of the code) | a stream without Transfer-Encoding is one of the streams of C13 with the same requests; no head begins like a chunk, so C11 says what happens to chunked content |
| C91 | the writer and `writeResponse` (already modelled), read by the server and by the response parser | counting empty lines: each request handed out needs one, and values without carriage return add none; for responses C41. Violations: for every message to be injected, the value that injects it |
| C92 | two connections in any reachable states whose requests differ in the method only | both heads satisfy the specification of heads (C23), which does not mention the method and determines every byte |
| C93 | HttpConnection::initialize in any state, private initialize with its memset, the parser started in the state without a case | the simulation of C73 does not need the object to be free; the remaining state (receiving headers) and the two slots in which it fails are executed symbolically, for all bytes and configurations |
| C94 | the client, the connection and the proxy pipe together: the bytes the proxy has sent when a reply is relayed reach a client of the library that asked for it | what the pipe has sent (invariant of the pipe, C44, C45) is put into the grammar of responses (C41), and the theorems about the client for every division of the bytes apply to it (C58 for complete answers, C62 and C63 for those that end with the connection or break off) |
| C95 | the uses of the memory of the request buffer by each piece of code (stores, NULs, views, scans by the parser), the capacity of the buffer, the assertions of parser.c | invariant of arbitrary histories: the positions the parser keeps lie before where it stopped (enumeration of its table), refs before the end of the buffer; that the uses are the real ones: their effect is that of the machine |
| C96 | the members behind responseStatusCode() and responseContentLength() in the machine of the connection | invariant of arbitrary histories over the events ready and head; the bytes by C23 |
| C97 | the client of C56/C59 against the framing of RFC 7230 (Spec/ReplyFraming.lean, independent of the code) | a usual response is one in the grammar of the parser, so C59 and C62 apply; the other cases are responses of that grammar with more content than was sent, so C63 says what happens |
| C98 | the log of the connection against the same framing | head_grammar gives the head as a grammar object; its lengths and codings are read off the list of headers sent; C18 and C19 for the content |
| C99 | the log since the last initialize against whole responses (Spec/Wire) | induction over the protocol of the log (reach_log), keeping all earlier responses as whole and the current one as a path; C98's framing for each |

## 4. Trusted base

* **Lean's kernel** (4.33.0), and that the statements in `Spec/` and `Props/` say what the English says.
* **Axioms.** Every theorem named in MANIFEST.json depends on a subset of `propext`, `Classical.choice`, `Quot.sound`
  (checked with `#print axioms` for all of them). No axiom is declared, nothing is evaluated by compiled code
  (`decide +kernel` reduces in the kernel).
* **The model is faithful to the C++.** Each definition cites the lines it models. Nothing connects the two mechanically: the sandbox
  has neither Qt nor a C++ build, so the model was transcribed by hand and re-read against the source.
* **Finite tables.** The transition table of parser.c (58 states x 256 bytes), the character tables of http_parser.c and the status table are
  enumerated completely by the kernel and lifted to all bytes/integers by lemmas in `Basic.lean`; that is exhaustive, not a sample.

### 4.1 Code that is modelled

| source | lines | model |
|---|---|---|
| ByteArrayHelpers.h | all: comparisons, appendNumber, percent decoding, raw views | Model/ByteArrayHelpers, Model/ConnPure |
| private/ByteArray.h | all append/assign overloads, capacity | Model/ByteArray |
| HttpHeader.{h,cpp} | all | Model/HttpHeader |
| HttpHelpers.cpp | date, status table, MIME table, NUL-terminated views | Model/HttpHelpers |
| parser/parser.c (Ragel output) | all states and actions used by Pillow | Model/ThinParser |
| HttpConnection.cpp | the whole class: input, request accessors, params, response head, content, close, flush | Model/ConnPure, Model/HttpConnection, Model/RequestMemory |
| HttpHandler.cpp | stack, fixed, 404, function, log, file, file transfer; the text of log entries | Model/HttpHandler, Model/LogEntry |
| HttpHandlerSimpleRouter.cpp | routes, pattern compilation, dispatch; what routes lead to; members of objects | Model/Router, Model/HandlerTree, Model/MethodRoute |
| HttpServer.cpp | pool of connections, accept, closed, the sockets | Model/HttpServer, Model/HttpServerSockets |
| parser/http_parser.c | response side of `http_parser_execute`, keep-alive, pause | Model/HttpParser |
| HttpClient.cpp | request writer, response parser, client, network reply, access manager | Model/RequestWriter, ResponseParser, HttpClient, Gunzip, NetworkReply (content, pooling), NetworkMeta (createRequest 889-958, reply slots 792-872) |
| HttpHandlerProxy.cpp | all: the request upstream (29-62), the pipe (70-155), the access manager (161-209) | Model/ProxyForward, Model/HttpHandlerProxy, Model/ProxyUpload |
| HttpHandlerQtScript.cpp | conversions of headers (10-27), handleRequest (80-121), the script file (150-188) | Model/QtScript |

### 4.2 Code that is not modelled

* The TLS of HttpsServer (its incomingConnection, HttpsServer.cpp:33-56, takes connections from the same pool and handles its sockets the same way, so C34, C73 and C87 are about it, too), the script engine, the examples; the request side and the URL parser of http_parser.c (Pillow never uses them);
  thin.c (not compiled into the library).
* Qt itself. Assumptions, each stated at the definition or as a hypothesis of the theorem that needs it:
  - `QByteArray`: value semantics; `toInt`/`toLongLong` as modelled in ConnPure (blank-trimmed, optional sign, overflow detected).
  - `QIODevice`: reads return what has arrived, in order; writes append; `bytesToWrite` counts what was written and not sent.
    Short reads are covered by splitting the arrival into several events.
  - `QRegExp`: an arbitrary engine (`Engine`); C31 assumes `GoodEngine` (it understands literal characters and the two groups the
    router generates), and one such engine (`greedyEngine`) is built and proved to satisfy it.
  - `QString` is a byte string; `toUtf8`/`fromUtf8` round trips and Unicode case folding are not modelled. `QString::arg` as implemented in Qt (Model/LogEntry): markers are looked for in the
    present text, bytes from 0x80 on are no digits, `%L1` gets the text of `%1`; `QString(QByteArray)` ends at the first NUL.
  - File system: an abstract `FileSystem` (existence, canonical path, readable content) that does not change during a transfer; in C88 it does.
  - zlib: for the client in general, an oracle for what the transformer returns for the blocks so far; in C77 the transformer is modelled (Model/Gunzip) around
    a zlib of which `Decodes` (Spec/Gunzip) is assumed.
  - `QNetworkRequest::setRawHeader` replaces headers of the same name (qstricmp); the script engine and the times of files (`QDateTime`) as values.
  - `QNetworkCookie`/`QNetworkCookieJar`: parsing and rendering are arbitrary functions (`CookieEnv`), the cookies for a url an arbitrary list.
  - `QUrl`: the parts the client reads (host, port, path, query), already encoded.
  - `QMetaObject`: a list of methods in the order of lookup; `QMetaMethod::invoke` compares the number of arguments, not their types (Model/MethodRoute).
  - `QNetworkReply` for the proxy: status, headers, arriving bytes, three signals.
* Timing: `QElapsedTimer` is a clock value that events advance; timeouts are compared, not waited for.
* Memory exhaustion, thread interleavings (every object lives in one thread), signals of `QObject` other than the named ones.
* Slots of the client, of replies and of the pipe's upstream do not run a nested event loop; slots of the *server connection* may call
  anything at any depth (explicit stack).

### 4.3 How executions are represented

* `HttpConnection`: `Conf.step` is a small-step relation with an explicit stack; foreign code takes any `Label` whenever it is in control.
  `Reach` is reachability by any finite sequence of steps; theorems about it hold for every schedule and depth of nesting.
  Where a theorem needs a hypothesis on the environment (`Gentle`: it does not call `close()` inside `requestCompleted`; `Proper`: it does not
  re-initialize a busy connection) the hypothesis is named in the statement and its necessity is shown by a `_violation` theorem.
* `HttpClient`: what the slots do is a parameter (any lists of calls per signal, any nesting, `fuel` arbitrary; by `C86_returns` it does not matter once it is the number of reactions); events of the socket are
  any list.
* `HttpServer`, `NetworkAccessManager`, the pipe: histories of events over the above.

## 5. Defects found in the code

Each is a theorem about the model (the negation of the property for a concrete run), the reason why the property is "partial".

| property | defect | theorem |
|---|---|---|
| C05 | `appendNumber` of the most negative value negates it: undefined behaviour | `C05_most_negative` |
| C07 | `h += h` copies past the end | `C07_self_append` |
| C14 | `GET /abc? HTTP/1.1`: the NUL written behind the (empty) query overwrites nothing, the one behind the path overwrites `?`, so `requestUri()` is `"/abc\0"` | `C14_violation` |
| C15, C16 | `close()` called in `requestCompleted`: null device dereference, or `closed` twice | `C15_violation`, `C16_violation`; exactly when: `C16_only_kept_alive`, `C16_inevitable`, `C15_inevitable` |
| C21 | `writeResponse` to HEAD completes the request inside `writeHeaders`; the pipelined next request receives the content | `C21_violation` |
| C22 | unknown status code: the status line has no number | `C22_violation` |
| C28 | `requestParams()` after completion caches the old parameters for the next request | `C28_violation` |
| C31 | parameters bind by kind first, so `/*a/:b` is bound crosswise | `C31_violation` |
| C30/C31 | route paths are pasted into a regular expression unescaped | `C30_special_characters` |
| C32 | public directory `/srv/www` also serves `/srv/www-private/...` | `C32_violation` |
| C33 | HEAD of a large file leaves a transfer behind that writes into the next response | `C33_violation` |
| C34 | a pooled connection may be deleted while it is emitting `closed` | `C34_violation` |
| C35 | an empty `inject()` acts as end of file | `C35_limits` |
| C36 | half-received header field and gzip decoder survive into the next response | `C36_violation`; exactly when and what: `C36_exactly`, `C36_cut`, `C36_trailers` |
| C37 | HEAD + `abort()` in `headersCompleted`: `finished` twice; in no other case (`C37_exactly`) | `C37_violation` |
| C38 | two requests in one callback: the first is silently lost | `C38_violation` |
| C39 | two interim responses and the final one in one segment: the rest is dropped and the request hangs | `C39_violation`, in general `C39_dropped` |
| C41 | a handler's `Transfer-Encoding: "chunked "` is not recognized by the server but is by the client | `C41_encoding_needed` |
| C44 | upstream 404 without content becomes 503 | `C44_violation` |
| C45 | proxied chunked replies never get a final chunk; failed ones are never ended | `C45_chunks_cut_off`, `C45_hang` |
| C47 | a client that finishes twice is pooled twice | `C47_violation` |
| C64 | the proxy forwards only the last header of each name, and nothing of an absolute target | `C64_duplicates_lost`, `C64_absolute_lost` |
| C66 | a script that fails after its response is ended: 500 to the next request | `C66_violation` |
| C67 | a script written while it is being loaded is never loaded; `setFileName()` is ignored after the first load | `C67_race`, `C67_setFileName` |
| C68 | an application's `Cookie` header and one of the jar are both sent | `C68_two_cookies` |
| C69 | `error()` of a network reply stays `NoError`; any `Location` is a redirection; headers with empty values are lost | `C69_error_violation`, `C69_redirection_violation`, `C69_headers_lost` |
| C70 | a target with `%2F` garbles its log entry; the entry about a closed connection reads freed memory | `C70_marker_violation`, `C70_stale_close` |
| C71 | a failure inside the headers or inside compressed content garbles the next response | `C71_header_violation`, `C71_gzip_violation` |
| C72 | scripts are shown content and header values percent-decoded although they are not encoded, only the last of repeated headers, and names only in the case they were sent in | `C72_content_violation`, `C72_value_violation`, `C72_repeated_violation`, `C72_case_violation` |
| C73 | `requestParams()` called between the connecting of a client and its first request answers with the parameters of the previous client, also for the new client's request | `C73_violation` |
| C75 | a request made while the socket is still sending the previous one (early refusal of an upload, then a request) is neither sent nor reported: `connectToHost()` is refused by a closing socket | `C75_violation`, `C75_hang` |
| C76 | content that a server adds to a 100 response is reported by `contentReadyRead()` before `headersCompleted()`; all trailers of a chunked response but the last become headers; `abort()` does not withdraw a request made in a slot and put off | `C76_violation`, `C76_example`, `C76_abort_deferred` |
| C77 | content declared gzip that is not loses its first byte if this arrives alone (what zlib has taken without complaint is not passed on); only the first part of a multi-part gzip file is shown; output beyond the 32 KiB buffer can stay in zlib until the next piece | `C77_division_violation`, `C77_parts_violation`, `C77_late` |
| C80 | a router reports a request as handled although its route has refused it, so that the handlers behind it are not asked and nobody answers (e.g. a file handler behind a route, asked for a file that does not exist) | `C80_violation` |
| C81 | a route to a `Q_INVOKABLE` method given by its signature never calls anything (HttpHandlerSimpleRouter.cpp:146 discards the result of `indexOfMethod`) | `C81_violation` |
| C59 | the read buffer limits compressed content before it is decoded: with room for 4 bytes a client may keep any amount | `C59_compressed_violation` |
| C84 | `writeResponse()` with content for a HEAD request reads the method after the request buffer was replaced (a use of freed memory if a part of the next request is already there) | `C84_violation` |
| C85 | pipelined requests that are answered at once nest: each is handed out from within the completion of the one before, so the call stack grows with what the client sends | `C85_violation` |
| C86 | `finished()` is emitted from within `request()` when connecting fails at once; an application that tries again from the slot recurses without bound | `C86_violation` |
| C87 | `close()` while `requestCompleted` is being handled, and again later: `closed` comes twice, the second time without a device; the server releases through a null pointer, keeps the object twice in its pool, and gives it to two clients at once | `C87_violation`, `C34_violation_shared` |
| C88 | a file that is appended to while it is sent: the piece read past the announced end is refused whole, the transfer goes on behind it, and other bytes are sent in its place, or nothing more at all; a file that is truncated: nothing more is sent, and the connection stays open | `C88_violation`, `C88_violation_stuck` |
| C89 | the proxy does not copy the content it uploads: when upstream answers before it has read everything, and the client has pipelined another request, the end of that request's content is sent upstream as part of the first one; when the client goes away and the object is reused, freed or foreign memory is read | `C89_violation`, `C89_violation_freed` |
| C90 | Transfer-Encoding of requests is ignored: every chunked request is handed out without its content, and with a Content-Length beside it any request can be smuggled inside the content of another; contradicting Content-Length headers are accepted | `C90_chunked_violation`, `C90_smuggling_violation`, `C90_lengths_violation`, `C90_violation` |
| C91 | values of headers (and paths) are written without looking for line ends: whoever chooses the text of one value can make the other side see any further request or response | `C91_requests_violation`, `C91_responses_violation`, `C91_requests_example`, `C91_responses_example` |
| C93 | a connection that waits for a request head and is initialized again does not react to the first bytes of the new device (its parser is zeroed, but not initialized); in a slot of `requestCompleted` the new device is closed, in one of `closed` forgotten | `C93_waiting`, `C93_violation`, `C93_in_completed`, `C93_in_closed` |
| C94 | a client of the library behind the proxy gets every reply of no declared length, and every reply in chunks, with an error at the end, although it is complete | `C94_until_closed_violation`, `C94_chunked_violation` |
| C96 | responseContentLength() and responseStatusCode() show what the client was not told: lengths from 2 GiB on, codes without an entry in the table | `C96_length_violation`, `C96_status_violation` |
| C97 | a 204, 304 or 1xx with a Content-Length (which a 304 may have) makes the client wait for the content: the request is not finished until the server closes, and then with an error; `Transfer-Encoding: gzip, chunked` is not recognized as chunked; of contradicting lengths the last one counts | `C97_waits_violation`, `C97_takes_more_violation`, `C97_codings_violation`, `C97_lengths_violation` |
| C98 | writeResponse(204, …) with content announces and writes it on a connection that is kept: a client takes it for the next response; a response with `Transfer-Encoding: gzip` is to be read until the connection is closed, which the server keeps | `C98_violation`, `C98_codings_violation` |
| C99 | the version of a request is copied into the status line of the response, and numbers of any size are let pass: the response to `GET / HTTP/1000.1` begins with a version no client (the library's own included) accepts | `C99_version_violation` |
| C50 | `Content-Length` is truncated to 32 bits | `C50_violation`, `C50_overflow` |

Observed while reading, outside the listed properties: duplicate `Content-Length` headers, last wins; an empty one gives 413;
`Content-Length: 5 5` is read as 55 by
http_parser.c; a request made while the client's socket is closing is never sent; 1xx other than 100 count as final responses;
`followRedirection()` repeats POST as POST after 303 and does not resolve a relative `Location`; with a limited read buffer, bytes that
arrived stay unread in the socket until `consumeContent()` is called, and are lost when the connection is closed
(`C62_unread_lost`); a response that ends with the connection is always reported with an error (`C62_closed`);
a reply for `UnknownOperation` never finishes; `initialize(device)` with the default for its second argument has no output device, and the first write
is through a null pointer; a connection initialized with a second device keeps listening to the first; the access manager sends only what `outgoingData` has available when the request is made.

## 6. Testing the theorems

`seeded/gen*.py` list realistic faults in the model, `tools/mutate.py` applies each in a scratch copy, rebuilds, cuts out proofs that break and
reports which property theorems no longer hold. Results are in `seeded/LOG.jsonl`; theorems that let a fault through were tightened.
`tools/automut.py` makes small edits (constants, comparisons, dropped updates, negated conditions) all over the model automatically; entries `auto:…` of the log give the first theorem or
example each one broke. The survivors are equivalent to the model, or concern initial values and cases no claim speaks of; one led to a tighter C44.
