{"id": "C01", "title": "Header lookup is first-match, ASCII case-insensitive", "statement": "HttpHeaderCollection::getFieldValue(name) returns the value of the first header whose field name equals name up to ASCII letter case, and the empty value when there is none; the lower-case-token overload gives the same answer for every lower-case token.", "quantifier": "every header collection, every field name (any bytes, any length)", "why_tests_cant": "name x collection space is infinite; tests sample ASCII names only", "anchors": ["pillowcore/HttpHeader.cpp:getFieldValue", "pillowcore/ByteArrayHelpers.h:asciiEqualsCaseInsensitive"]}
{"id": "C02", "title": "Multi-value header access is complete, ordered and exact", "statement": "getFieldValues(name) returns exactly the values of all headers with that name (ASCII case-insensitive), in insertion order; testFieldValue(name, value) is true iff some header matches both name and value case-insensitively.", "quantifier": "every header collection, name and value", "why_tests_cant": "unbounded collections", "anchors": ["pillowcore/HttpHeader.cpp:getFieldValues", "pillowcore/HttpHeader.cpp:testFieldValue"]}
{"id": "C03", "title": "ASCII case-insensitive comparison is an equivalence that only folds A-Z/a-z", "statement": "asciiEqualsCaseInsensitive(a,b) holds iff a and b have the same length and agree after mapping A-Z to a-z byte by byte (all other bytes, incl. >=0x80, compare exactly); it is reflexive, symmetric and transitive.", "quantifier": "every pair/triple of byte strings", "why_tests_cant": "256^n strings; bugs live at range edges and in high bytes", "anchors": ["pillowcore/ByteArrayHelpers.h:asciiEqualsCaseInsensitive"]}
{"id": "C04", "title": "Percent decoding inverts percent encoding, in place, and never grows or overruns", "statement": "Decoding any percent-encoding of a byte string (any choice of which bytes are escaped, upper or lower case hex) gives the byte string back; text without % is unchanged; a truncated or trailing % is kept literally; the in-place decoder never writes ahead of its read position, never past the size it was given, and the size it returns is the number of decoded bytes.", "quantifier": "every byte string and every choice of escapes", "why_tests_cant": "infinite strings and escape choices; aliasing of read/write cursor", "anchors": ["pillowcore/ByteArrayHelpers.h:percentDecodeInPlace", "pillowcore/ByteArrayHelpers.h:unhex"]}
{"id": "C05", "title": "Number formatting is exact", "statement": "appendNumber appends to the target the canonical decimal (or lower-case hex) rendering of the number: no leading zeros, a minus sign for negatives, parsing it back gives the number, bytes already in the target are untouched; for all representable values of the integer type.", "quantifier": "every 32/64-bit value, every target, base 10 and 16", "why_tests_cant": "2^64 values; the extreme value is the interesting one", "anchors": ["pillowcore/ByteArrayHelpers.h:appendNumber"]}
{"id": "C06", "title": "\"Field: Value\" literals split at the first colon", "statement": "Constructing an HttpHeader from the literal name \": \" value yields (name, value) for every name without colon and every value not starting with a space; without a colon the whole text is the name and the value is empty; a value may itself contain colons.", "quantifier": "every literal", "why_tests_cant": "unbounded text", "anchors": ["pillowcore/HttpHeader.cpp:setFromRawHeader"]}
{"id": "C07", "title": "Appending header collections concatenates", "statement": "a += b (and a << b, a + b) yields the headers of a followed by the headers of b, for every a and b, including when b is a itself.", "quantifier": "every pair of collections including aliased ones", "why_tests_cant": "aliasing is rarely tested", "anchors": ["pillowcore/HttpHeader.cpp:operator+="]}
{"id": "C08", "title": "Request parsing is independent of TCP segmentation", "statement": "However the bytes of a request stream are cut into readyRead deliveries, the connection produces the same requestReady sequence (same method, uri, path, query, fragment, version, headers, content), the same responses and the same error replies.", "quantifier": "every byte stream and every way of cutting it into segments", "why_tests_cant": "2^(n-1) segmentations per stream", "anchors": ["pillowcore/HttpConnection.cpp:processInput", "pillowcore/parser/parser.c:thin_http_parser_execute"]}
{"id": "C09", "title": "The request head accepted is exactly the grammar, and the fields are the right slices", "statement": "A head is accepted iff it is METHOD SP request-uri [# fragment] SP HTTP/d+.d+ CRLF (name \":\" SP* value CRLF)* CRLF with the documented character classes; when accepted, requestMethod/Uri/Path/QueryString/Fragment/HttpVersion and requestHeaders (order and duplicates kept) are exactly the corresponding pieces of the input.", "quantifier": "every byte sequence", "why_tests_cant": "the 58-state table cannot be covered by examples; soundness is a negative claim over all inputs", "anchors": ["pillowcore/parser/parser.c", "pillowcore/parser/common.rl", "pillowcore/HttpConnection.cpp:setupRequestHeaders"]}
{"id": "C10", "title": "Client writer and server parser agree", "statement": "Any request HttpRequestWriter writes (valid method, origin-form path, token header names, CR-free values) is parsed by HttpConnection into the same method, uri, header list (plus the generated Content-Length) and content, with nothing left over.", "quantifier": "every method/path/headers/data within the documented character sets", "why_tests_cant": "cross-component round trip over infinite data", "anchors": ["pillowcore/HttpClient.cpp:HttpRequestWriter::write", "pillowcore/parser/parser.c"]}
{"id": "C11", "title": "Malformed or oversized heads get one 400 and a closed connection, never a handler call", "statement": "If the stream is not (a prefix of) a valid head, or the head exceeds MaximumRequestHeaderLength, the connection writes exactly one \"HTTP/1.0 400 Bad Request\" + \"Connection: close\" reply, emits no requestReady for it, and stops reading.", "quantifier": "every byte stream", "why_tests_cant": "infinite invalid inputs, boundary of 32 KiB", "anchors": ["pillowcore/HttpConnection.cpp:processInput", "pillowcore/HttpConnection.cpp:writeRequestErrorResponse"]}
{"id": "C12", "title": "Content-Length decides accept/400/413 and the content delivered", "statement": "With no Content-Length (or 0) the handler is called with empty content; negative gives 400; unparsable or larger than 128 MiB gives 413; otherwise the handler is called as soon as, and only when, that many content bytes have arrived and requestContent() is exactly those bytes.", "quantifier": "every header value and body", "why_tests_cant": "integer edge cases and arbitrary segmentation", "anchors": ["pillowcore/HttpConnection.cpp:transitionToReceivingContent", "pillowcore/HttpConnection.cpp:processInput"]}
{"id": "C13", "title": "Pipelined bytes are neither lost, duplicated nor altered", "statement": "After a request completes on a kept-alive connection, the next request is parsed from exactly the bytes following the content of the completed one, in order, whether they were already buffered or still in the device.", "quantifier": "every stream and every arrival schedule", "why_tests_cant": "depends on arrival schedule and buffer reuse", "anchors": ["pillowcore/HttpConnection.cpp:transitionToCompleted"]}
{"id": "C14", "title": "Request accessors show the client bytes (NUL termination in the shared buffer corrupts nothing)", "statement": "When requestReady fires, each accessor (method, uri, path, query, fragment, version, every header name and value, content) equals the bytes the client sent for it, although the implementation overwrites delimiter bytes of the shared buffer with NUL.", "quantifier": "every accepted request", "why_tests_cant": "aliasing between overlapping views; depends on delimiter positions", "anchors": ["pillowcore/HttpConnection.cpp:transitionToSendingHeaders", "pillowcore/ByteArrayHelpers.h:setFromRawDataAndNullterm"]}
{"id": "C15", "title": "requestReady / requestCompleted / closed protocol", "statement": "On every connection, for every handler behaviour (synchronous, asynchronous, re-entrant), each requestReady is followed by requestCompleted or closed before the next requestReady; requestCompleted is never emitted without a preceding requestReady; closed is emitted at most once per initialize.", "quantifier": "every sequence of API calls and device events, nested in slots in any way", "why_tests_cant": "interleavings and re-entrancy", "anchors": ["pillowcore/HttpConnection.cpp:transitionToCompleted", "pillowcore/HttpConnection.cpp:transitionToClosed"]}
{"id": "C16", "title": "No crash from any call sequence", "statement": "No sequence of public API calls and device events (including calls made from inside the signals, and the peer disconnecting at any moment) makes the connection dereference a null device.", "quantifier": "every event sequence", "why_tests_cant": "needs all interleavings and disconnect points", "anchors": ["pillowcore/HttpConnection.cpp:transitionToCompleted", "pillowcore/HttpConnection.cpp:processInput"]}
{"id": "C17", "title": "Calls in the wrong state are inert", "statement": "writeResponse/writeHeaders outside SendingHeaders, writeContent/endContent outside SendingContent, and input processing outside the receiving states write nothing, emit nothing and change no observable state.", "quantifier": "every reachable state", "why_tests_cant": "state x call product over all histories", "anchors": ["pillowcore/HttpConnection.cpp:writeHeaders", "pillowcore/HttpConnection.cpp:writeContent", "pillowcore/HttpConnection.cpp:endContent"]}
{"id": "C18", "title": "A declared Content-Length is honoured", "statement": "With a declared non-negative response Content-Length N, the body bytes written never exceed N, a writeContent that would exceed it writes nothing, and the response completes exactly when the N-th byte has been written (immediately for N = 0 or HEAD).", "quantifier": "every sequence of writeContent sizes", "why_tests_cant": "all partitions of the body", "anchors": ["pillowcore/HttpConnection.cpp:writeContent"]}
{"id": "C19", "title": "Chunked responses decode to the written content", "statement": "When chunked transfer encoding is in effect, the bytes written after the head by any sequence of writeContent calls followed by endContent decode, by the RFC 2616 chunked decoding, to the concatenation of the contents, with nothing left over; empty writes never terminate the body early.", "quantifier": "every sequence of contents", "why_tests_cant": "all partitions and sizes", "anchors": ["pillowcore/HttpConnection.cpp:writeContent", "pillowcore/HttpConnection.cpp:endContent", "pillowcore/ByteArrayHelpers.h:appendNumber"]}
{"id": "C20", "title": "Keep-alive negotiation", "statement": "The connection is kept after a response iff the client wants it (HTTP/1.1 without Connection: close, or another version with Connection: keep-alive) and the response length is delimited (known length or chunked) and the handler did not ask for Connection: close; the Connection header written tells the client the same decision.", "quantifier": "every request version/headers and response headers", "why_tests_cant": "decision table over unbounded header values", "anchors": ["pillowcore/HttpConnection.cpp:writeHeaders"]}
{"id": "C21", "title": "HEAD responses carry no body bytes", "statement": "For a HEAD request no body byte of its response is ever written to the connection, whatever the handler passes to writeResponse/writeContent and whatever is pipelined behind it.", "quantifier": "every handler behaviour and pipelined input", "why_tests_cant": "depends on re-entrancy and pipelining", "anchors": ["pillowcore/HttpConnection.cpp:writeResponse", "pillowcore/HttpConnection.cpp:transitionToSendingContent"]}
{"id": "C22", "title": "The status line is well formed", "statement": "The first line of every response is VERSION SP three-digit-code SP reason CRLF with the code passed by the handler, or 500 if the code is not a known HTTP status.", "quantifier": "every status code", "why_tests_cant": "2^32 codes", "anchors": ["pillowcore/HttpConnection.cpp:writeHeaders", "pillowcore/HttpHelpers.cpp:getStatusCodeAndMessage"]}
{"id": "C23", "title": "Response head layout", "statement": "Every header passed by the handler other than Content-Length, Content-Type, Connection and Transfer-Encoding is written verbatim, once, in order; exactly one Content-Length line with the decimal length is written iff the length is known; the default Content-Type is added iff none was given and the length is positive; the head ends with exactly one empty line.", "quantifier": "every header list and length", "why_tests_cant": "unbounded header lists; lengths beyond 2^31", "anchors": ["pillowcore/HttpConnection.cpp:writeHeaders"]}
{"id": "C24", "title": "Nothing unsent is dropped on an orderly close", "statement": "When a response that is not kept alive completes (or an error reply is sent), the connection closes the device only once every byte written has left the write buffer, for every pace at which the device drains; and it does close once everything has left.", "quantifier": "every drain schedule", "why_tests_cant": "all device paces", "anchors": ["pillowcore/HttpConnection.cpp:drain", "pillowcore/HttpConnection.cpp:transitionToFlushing"]}
{"id": "C25", "title": "Expect: 100-continue", "statement": "The interim \"HTTP/1.1 100 Continue\" is written iff the request announces a positive acceptable Content-Length and its first Expect header equals 100-continue (case-insensitive), exactly once, before the final response.", "quantifier": "every request", "why_tests_cant": "all headers and segmentations", "anchors": ["pillowcore/HttpConnection.cpp:transitionToReceivingContent"]}
{"id": "C26", "title": "Query parameters", "statement": "requestParams() is the list of &-separated items of the query string, each split at its first = and both halves percent-decoded, in order; requestParamValue(name) is the value of the first parameter with that name, case-insensitively.", "quantifier": "every query string", "why_tests_cant": "unbounded text", "anchors": ["pillowcore/HttpConnection.cpp:requestParams", "pillowcore/HttpConnection.cpp:requestParamValue"]}
{"id": "C27", "title": "setRequestParam is an update of the first match", "statement": "After setRequestParam(n,v), requestParamValue(n) is v, every differently-named parameter keeps its value, and the order and number of other parameters are unchanged.", "quantifier": "every parameter list, name and value", "why_tests_cant": "unbounded lists", "anchors": ["pillowcore/HttpConnection.cpp:setRequestParam"]}
{"id": "C28", "title": "Decoded accessors and params always belong to the current request", "statement": "requestPathDecoded()/requestUriDecoded()/... and requestParams() are always the decoding of the current request fields, however often they were read for earlier requests on the same connection.", "quantifier": "every history of requests and reads", "why_tests_cant": "cache staleness depends on history", "anchors": ["pillowcore/HttpConnection.cpp:PERCENT_DECODABLE", "pillowcore/HttpConnection.cpp:transitionToSendingHeaders"]}
{"id": "C29", "title": "Handler stack: first handler that accepts wins", "statement": "HttpHandlerStack calls its child handlers in order until one returns true, calls none after it, and returns true iff one did.", "quantifier": "every list of handlers and every handler behaviour", "why_tests_cant": "unbounded lists", "anchors": ["pillowcore/HttpHandler.cpp:HttpHandlerStack::handleRequest"]}
{"id": "C30", "title": "Router dispatch", "statement": "HttpHandlerSimpleRouter invokes exactly the first route (in registration order) whose path matches and whose method is empty or equals the request method case-insensitively; otherwise it answers 404/405 or passes through according to the configured actions, and the 405 Allow header lists exactly the methods of the routes whose path matched.", "quantifier": "every route table and request", "why_tests_cant": "unbounded tables", "anchors": ["pillowcore/HttpHandlerSimpleRouter.cpp:handleRequest"]}
{"id": "C31", "title": "Route parameters bind to the part of the path they stand for", "statement": "When a route with :param and *splat placeholders matches, requestParamValue(name) is the piece of the path matched by the placeholder of that name.", "quantifier": "every route pattern and path", "why_tests_cant": "placeholder order is combinatorial", "anchors": ["pillowcore/HttpHandlerSimpleRouter.cpp:pathToRegExp", "pillowcore/HttpHandlerSimpleRouter.cpp:handleRequest"]}
{"id": "C32", "title": "Static file handler never leaves the public directory", "statement": "HttpHandlerFile serves only regular files whose canonical path lies inside the public directory, for every request path (including .., percent-encoding and symlinks).", "quantifier": "every request path and file system", "why_tests_cant": "adversarial inputs are infinite", "anchors": ["pillowcore/HttpHandler.cpp:HttpHandlerFile::handleRequest"]}
{"id": "C33", "title": "Large file transfers deliver the file exactly", "statement": "For a file larger than the buffer size, the body bytes written are exactly the file content in order, for every pace at which the output device drains, never buffering more than the buffer size at once.", "quantifier": "every file, buffer size and drain schedule", "why_tests_cant": "all schedules", "anchors": ["pillowcore/HttpHandler.cpp:HttpHandlerFileTransfer::writeNextPayload"]}
{"id": "C34", "title": "Server connection pool never shares or leaks past its bound", "statement": "A connection object handed to a client is not handed to another client before it emitted closed; at most 25 idle connections are kept; every idle connection in the pool is distinct.", "quantifier": "every sequence of accepts and closes", "why_tests_cant": "all histories", "anchors": ["pillowcore/HttpServer.cpp:HttpServerPrivate"]}
{"id": "C35", "title": "Response parsing is independent of segmentation", "statement": "However the bytes received are divided into non-empty inject() calls (what a call leaves unconsumed being injected again), HttpResponseParser calls the same virtual functions in the same order, with the same status, headers and content visible during them, and reports an error in the same cases; without error the accessors end up showing the same. Every call consumes something unless there is an error.", "quantifier": "every byte sequence, valid or not, every way to divide it and every earlier use of the parser", "why_tests_cant": "the number of divisions is exponential in the length", "anchors": ["pillowcore/HttpClient.cpp:HttpResponseParser::inject", "pillowcore/parser/http_parser.c:http_parser_execute"]}
{"id": "C36", "title": "Responses are isolated from each other", "statement": "The headers and content reported for a response depend only on the bytes of that response, not on an earlier response on the same parser/client, even if the earlier one was aborted or had trailers.", "quantifier": "every history of earlier responses", "why_tests_cant": "history dependence", "anchors": ["pillowcore/HttpClient.cpp:HttpResponseParser::clear", "pillowcore/HttpClient.cpp:HttpResponseParser::pushHeader", "pillowcore/HttpClient.cpp:HttpClient::headersComplete"]}
{"id": "C37", "title": "Client reports finished exactly once per request", "statement": "For every accepted request, finished() is emitted exactly once: on complete response, network error, invalid response or abort; never while no request is pending; and error() then tells which.", "quantifier": "every sequence of calls, device events and callback re-entrancy", "why_tests_cant": "interleavings", "anchors": ["pillowcore/HttpClient.cpp:HttpClient::abort", "pillowcore/HttpClient.cpp:HttpClient::device_error", "pillowcore/HttpClient.cpp:HttpClient::messageComplete"]}
{"id": "C38", "title": "Client never pipelines and never loses a request made from a callback", "statement": "While a response is pending a new request is refused and changes nothing; a request issued from inside a callback after completion is sent once the current parse returns.", "quantifier": "every call sequence", "why_tests_cant": "re-entrancy", "anchors": ["pillowcore/HttpClient.cpp:HttpClient::request", "pillowcore/HttpClient.cpp:HttpClient::device_readyRead"]}
{"id": "C39", "title": "100-Continue interim responses are invisible to the client user", "statement": "Any number of 100 responses preceding the final response changes neither headers(), content(), statusCode() nor the signals observed, whatever the segmentation.", "quantifier": "every number of interim responses and segmentation", "why_tests_cant": "unbounded repetition x segmentation", "anchors": ["pillowcore/HttpClient.cpp:HttpClient::messageComplete", "pillowcore/HttpClient.cpp:HttpClient::device_readyRead"]}
{"id": "C40", "title": "Connection reuse only for the same server and within the keep-alive timeout", "statement": "A request is sent on the existing connection only if the socket is connected, host and port equal those of the previous request and the keep-alive timeout has not expired; otherwise the client reconnects and the Host header written names the new server.", "quantifier": "every sequence of requests and timer values", "why_tests_cant": "history", "anchors": ["pillowcore/HttpClient.cpp:HttpClient::request", "pillowcore/HttpClient.cpp:HttpClient::sendRequest"]}
{"id": "C41", "title": "Server response and client parser agree", "statement": "The bytes HttpConnection writes for a response with known length parse, with HttpResponseParser, to the same status code, headers and content and leave nothing over.", "quantifier": "every status, header list and content in the documented character sets", "why_tests_cant": "cross-component round trip", "anchors": ["pillowcore/HttpConnection.cpp:writeHeaders", "pillowcore/parser/http_parser.c"]}
{"id": "C42", "title": "HTTP dates have the fixed RFC 1123 layout", "statement": "getHttpDate yields \"Www, DD Mon YYYY HH:MM:SS GMT\" with the right names and zero padding for every valid UTC date-time with a four digit year; reading the fields back gives the date-time.", "quantifier": "every date-time", "why_tests_cant": "infinite domain", "anchors": ["pillowcore/HttpHelpers.cpp:getHttpDate"]}
{"id": "C43", "title": "Status table is consistent", "statement": "getStatusMessage(code) is the reason phrase of getStatusCodeAndMessage(code), whose first three characters are the decimal code; both are null for exactly the same codes.", "quantifier": "every int", "why_tests_cant": "2^32 codes", "anchors": ["pillowcore/HttpHelpers.cpp:getStatusCodeAndMessage"]}
{"id": "C44", "title": "Proxy pipe relays status, headers and content once", "statement": "The pipe writes the proxied status and headers exactly once before any content, relays the content bytes in order, answers 503 iff the upstream failed before anything was sent, and writes nothing after the client request completed or closed.", "quantifier": "every sequence of upstream/downstream events", "why_tests_cant": "interleavings", "anchors": ["pillowcore/HttpHandlerProxy.cpp:HttpHandlerProxyPipe"]}
{"id": "C45", "title": "Proxied replies of unknown length are delimited for the client", "statement": "When the upstream reply ends, the client can tell that the body is complete: declared length reached, final chunk sent, or connection closed for an un-chunked body.", "quantifier": "every upstream reply", "why_tests_cant": "header combinations", "anchors": ["pillowcore/HttpHandlerProxy.cpp:proxiedReply_finished"]}
{"id": "C46", "title": "QNetworkReply facade reads content exactly once in order", "statement": "Reading from the reply returns the response content bytes in order, each exactly once, for any read sizes interleaved with any arrival of content; bytesAvailable() is the number not yet read.", "quantifier": "every interleaving of arrivals and reads", "why_tests_cant": "interleavings", "anchors": ["pillowcore/HttpClient.cpp:NetworkReply::readData"]}
{"id": "C47", "title": "NetworkAccessManager never gives one client to two live replies and keeps hosts apart", "statement": "A pooled HttpClient is used by at most one unfinished reply at a time and is only reused for the authority it was created for.", "quantifier": "every sequence of requests and completions", "why_tests_cant": "histories", "anchors": ["pillowcore/HttpClient.cpp:NetworkAccessManager::createRequest"]}
{"id": "C48", "title": "Request log has one line per completed request", "statement": "HttpHandlerLog writes, in LogCompletedRequests mode, exactly one entry per requestCompleted of a logged connection, and in TraceRequests mode a BEGIN entry per request as well, for every interleaving of connections.", "quantifier": "every interleaving of connections and requests", "why_tests_cant": "interleavings", "anchors": ["pillowcore/HttpHandler.cpp:HttpHandlerLog"]}
{"id": "C49", "title": "Writer output framing", "statement": "HttpRequestWriter writes request line, headers in order, Content-Length iff data is non-empty, an empty line and then exactly the data; consecutive requests on one writer do not influence each other.", "quantifier": "every sequence of requests", "why_tests_cant": "builder reuse depends on history and sizes (4096 / 16384 thresholds)", "anchors": ["pillowcore/HttpClient.cpp:HttpRequestWriter::write"]}
{"id": "C50", "title": "Large response lengths are announced correctly", "statement": "The Content-Length line written equals the response length for every 64-bit length.", "quantifier": "every qint64 length", "why_tests_cant": "tests would need > 2 GiB bodies", "anchors": ["pillowcore/HttpConnection.cpp:writeHeaders", "pillowcore/ByteArrayHelpers.h:appendNumber"]}
{"id": "C51", "title": "Byte builder appends exactly", "statement": "Pillow::ByteArray append overloads have the effect of concatenation whether or not the reserved capacity suffices, and never write past the capacity.", "quantifier": "every content, capacity and append sequence", "why_tests_cant": "capacity dependent paths", "anchors": ["pillowcore/private/ByteArray.h"]}
{"id": "C52", "title": "Fixed / 404 / function handlers always answer exactly once", "statement": "HttpHandlerFixed and HttpHandler404 produce one complete response (configured status and content / 404 with the path in the text) for every request and report it handled.", "quantifier": "every request", "why_tests_cant": "all requests", "anchors": ["pillowcore/HttpHandler.cpp:HttpHandlerFixed::handleRequest", "pillowcore/HttpHandler.cpp:HttpHandler404::handleRequest"]}
{"id": "C53", "title": "Static files are cacheable", "statement": "A static file that fits in the buffer is answered with 200, its whole content and an ETag that is a digest of the content; a request repeating that ETag in If-None-Match is answered with 304 and no content as long as the file content is unchanged, any other request gets the content; an unreadable file gets 403.", "quantifier": "every file content, request and digest", "why_tests_cant": "all contents and header combinations", "anchors": ["pillowcore/HttpHandler.cpp:HttpHandlerFile::handleRequest"]}
{"id": "C54", "title": "No input makes an assertion of the bundled response parser fail", "statement": "Whatever bytes are injected into an HttpResponseParser, in whatever pieces, with end of input and clear() anywhere between, no assert in http_parser.c fails (they are compiled in unless NDEBUG is set and would abort the client).", "quantifier": "every sequence of inject(), injectEof() and clear() calls with every data", "why_tests_cant": "arbitrary hostile input", "anchors": ["pillowcore/HttpClient.cpp:HttpResponseParser", "pillowcore/parser/http_parser.c:http_parser_execute"]}
{"id": "C55", "title": "Well-formed responses are reported exactly", "statement": "Whatever sequence of well-formed HTTP/1.x responses (with Content-Length, chunked, bodiless, or ended by the end of the input) reaches a response parser, it reports for each the status code, the reason-independent header list, the content and the completion, consumes exactly its bytes, and goes on with the next; the division of the bytes into pieces does not matter.", "quantifier": "every sequence of well-formed responses and every segmentation", "why_tests_cant": "all contents and divisions", "anchors": ["pillowcore/HttpClient.cpp:HttpResponseParser", "pillowcore/parser/http_parser.c:http_parser_execute"]}
{"id": "C56", "title": "The client reports exactly the response it received", "statement": "When a well-formed response (whose end does not depend on the connection) to a pending request (headers only, if the request is HEAD) arrives, in any pieces, at a client whose read buffer is not limited and which has only been sent complete responses before, and the application does not abort, the client emits headersCompleted() with its status and headers, contentReadyRead() for content, and finished() with no error, and the pieces of content taken with consumeContent() followed by what is left in content() are exactly the content of the response.", "quantifier": "every response, segmentation and application", "why_tests_cant": "all contents and divisions", "anchors": ["pillowcore/HttpClient.cpp:HttpClient::device_readyRead", "pillowcore/HttpClient.cpp:HttpClient::messageContent"]}
{"id": "C57", "title": "No input makes an assertion of the client's parser fail", "statement": "Whatever a server sends and whatever the application does in its slots (abort, new requests, consumeContent), no assert in http_parser.c fails in an HttpClient.", "quantifier": "every run of the client", "why_tests_cant": "arbitrary hostile input interleaved with re-entrant calls", "anchors": ["pillowcore/HttpClient.cpp:HttpClient", "pillowcore/parser/http_parser.c:http_parser_pause"]}
{"id": "C58", "title": "A client and a server of the library understand each other", "statement": "When an HttpClient asks an HttpConnection for something, over connections that deliver the bytes in order but cut and delay them in any way, the handler is shown the request the application made (method, path with query, Host and the application's headers, content), and, when it completes a response whose end the client can see, the client reports that status, those headers and exactly that content (none for a HEAD request), once, without error; and so on for the next request on the same connection.", "quantifier": "every request, handler, response, segmentation and timing on both sides", "why_tests_cant": "the product of two state machines and all interleavings", "anchors": ["pillowcore/HttpClient.cpp:HttpClient", "pillowcore/HttpConnection.cpp:HttpConnection"]}
{"id": "C59", "title": "Reading at the pace of the application", "statement": "Whatever read buffer size an application sets, and whenever it takes content or does anything else but abort, the client reports exactly the response it was sent once it has read it, and until then the request stays pending and the unread rest stays in the socket; taking the content and returning to the event loop always makes progress, so that the response is reported after at most as many rounds as there are unread bytes; and while the read buffer has the size n, the client never holds or shows more than n bytes of content, as long as no response it was sent is compressed.", "quantifier": "every response, segmentation, read buffer size and timing", "why_tests_cant": "all sizes and interleavings of arrivals, reads and consumption", "anchors": ["pillowcore/HttpClient.cpp:HttpClient::device_readyRead", "pillowcore/HttpClient.cpp:HttpClient::consumeContent", "pillowcore/HttpClient.cpp:HttpClient::setReadBufferSize"]}
{"id": "C60", "title": "HEAD requests of the client", "statement": "When the response to a HEAD request arrives, in any pieces, the client reports its status and headers, no content, and finished() without error, whatever Content-Length, Transfer-Encoding or Content-Encoding the headers announce, and can be used for further requests on the same connection.", "quantifier": "every response head and segmentation", "why_tests_cant": "all headers and divisions", "anchors": ["pillowcore/HttpClient.cpp:HttpClient::headersComplete"]}
{"id": "C61", "title": "What the client shows between responses; following redirections", "statement": "From the finished() of a request until the next request is accepted, statusCode(), headers() and content() return what they returned in finished(), except for consumed content. followRedirection() after a response with status 300, 301, 302, 303 or 307 repeats the same method, headers and data at the url of the first Location header (name compared without case), at once or when the running slot has returned; after other responses, and while a response is awaited, it makes no request. No request is ever made that the application did not ask for in one of these two ways.", "quantifier": "every history of requests, responses, slots and calls", "why_tests_cant": "arbitrary interleavings of calls, signals and segments", "anchors": ["pillowcore/HttpClient.cpp:HttpClient::redirected", "pillowcore/HttpClient.cpp:HttpClient::followRedirection", "pillowcore/HttpClient.cpp:HttpClient::statusCode"]}
{"id": "C62", "title": "Responses that end with the connection", "statement": "When a response without Content-Length and chunks arrives, in any pieces and read at any pace, the request stays pending, headersCompleted() is emitted once with its status and headers, and once what has arrived has been read, the content taken with consumeContent() followed by content() is everything that came after the headers (taking it and returning to the event loop suffices for everything to be read). When the connection ends, finished() is emitted with that status, those headers and the rest of the content, with RemoteHostClosedError (or NetworkError), and later requests of the same client are not affected.", "quantifier": "every response, content, segmentation and timing", "why_tests_cant": "the length of the content and its division are arbitrary", "anchors": ["pillowcore/HttpClient.cpp:HttpClient::device_error", "pillowcore/HttpClient.cpp:HttpClient::device_readyRead", "pillowcore/parser/http_parser.c:http_message_needs_eof"]}
{"id": "C63", "title": "A response that breaks off is never taken for a complete one", "statement": "At whatever byte the answer to a request breaks off, in whatever pieces it has arrived and however it was read, the request is still pending, finished() has not been emitted for it, and what the application has seen is at most one headersCompleted(), with the status and headers of the response, and a beginning of its content; when the connection fails or is closed, finished() is emitted with an error and a beginning of the content (and, if headersCompleted() had been emitted, with the status and headers of the response).", "quantifier": "every response, every point at which it breaks off, every segmentation and timing", "why_tests_cant": "every crash point of the server or the network", "anchors": ["pillowcore/HttpClient.cpp:HttpClient::device_error", "pillowcore/HttpClient.cpp:HttpClient::device_readyRead"]}
{"id": "C64", "title": "The proxy asks upstream for what its client asked for", "statement": "For every request a proxy handler with a proxied url takes, the request it makes upstream is determined by the bytes of its client: the method, path, query, fragment, headers in their order and content of the client's last request, at the scheme, host and port of the proxied url; and the content, which is read from the connection while upstream takes it, does not change before the response is ended, whatever the client sends meanwhile. Without a proxied url the handler reports the request not handled.", "quantifier": "every byte stream of the client, every proxied url, every time at which the content is read", "why_tests_cant": "requests and the moments at which upstream reads are unbounded", "anchors": ["pillowcore/HttpHandlerProxy.cpp:HttpHandlerProxy::handleRequest", "pillowcore/HttpHandlerProxy.cpp:HttpHandlerProxy::createProxiedReply"]}
{"id": "C65", "title": "Proxied requests do not wait for each other", "statement": "In every history of requests made through the elastic access manager and replies deleted, every request under way is with exactly one manager, no manager has more than six of them (the number of connections Qt opens to a server), and there are never more managers than the largest number of requests under way together requires (a sixth of it, rounded up).", "quantifier": "every history of requests and deletions of replies", "why_tests_cant": "histories are unbounded", "anchors": ["pillowcore/HttpHandlerProxy.cpp:ElasticNetworkAccessManager::createRequest"]}
{"id": "C66", "title": "A failing script is answered for once", "statement": "When a script handler's function fails and has sent nothing for its request, its client gets exactly one complete 500 response with the description of the error; if it had begun to respond nothing is added to the response; the request is reported handled. A function that does not fail decides by its return value whether the request was handled, and the handler sends nothing itself; a value that is not a function handles nothing.", "quantifier": "every connection history, everything the script does and everything that happens meanwhile", "why_tests_cant": "the script and the environment may do anything", "anchors": ["pillowcore/HttpHandlerQtScript.cpp:HttpHandlerQtScript::handleRequest"]}
{"id": "C67", "title": "Script files: the present version is the one that is run", "statement": "With autoReload, what becomes of a request is what the present text of the script file says: the function of the configured name is run, or, if the text does not evaluate or has no such function, the answer is 500, whatever the file contained before. A failed load is tried again by the next request. Without autoReload, or when the file has been removed, the function run last is run again; if there never was one the answer is 500.", "quantifier": "every history of writes and removals of the file and of requests, and every interleaving of the two", "why_tests_cant": "interleavings of the handler with writers of the file", "anchors": ["pillowcore/HttpHandlerQtScript.cpp:HttpHandlerQtScriptFile::handleRequest"]}
{"id": "C68", "title": "Requests made through the access manager", "statement": "For a url of scheme http (compared without case) and an operation of QNetworkAccessManager, the client is asked for exactly that url with the method of the operation (HEAD, GET, PUT, POST, DELETE or the custom verb); with the headers set on the request, the last of each name, in their order, followed by one Cookie header with the cookies of the jar joined by \"; \" if there are any; and with the data for PUT, POST and custom verbs and none for the others. A handler of this library at the other end is shown exactly this after Host. Urls of other schemes are left to Qt.", "quantifier": "every operation, url, headers, cookies and data", "why_tests_cant": "headers, cookies and data are unbounded", "anchors": ["pillowcore/HttpClient.cpp:NetworkAccessManager::createRequest"]}
{"id": "C69", "title": "What a network reply tells of the response", "statement": "A QNetworkReply of the access manager has, before it shows any content, the status of the response as attribute, its headers (of each name the last), its Location as the redirection target and all the cookies of its Set-Cookie headers, which are stored in the jar. It emits metaDataChanged() once and then finished() once; if the client reports an error, error() with the error of Qt that corresponds to it is emitted just before finished(), and nothing after that; isFinished() holds from then on and not before.", "quantifier": "every response, segmentation and history of the client", "why_tests_cant": "responses and their division are arbitrary", "anchors": ["pillowcore/HttpClient.cpp:NetworkReply::client_headersCompleted", "pillowcore/HttpClient.cpp:NetworkReply::client_finished", "pillowcore/HttpClient.cpp:NetworkReply::client_contentReadyRead"]}
{"id": "C70", "title": "What a log entry says", "statement": "The entry the log handler writes for a completed request is one line with the remote address, the date, the method, target and version of that request as it was sent, the status and the content length of its response, and the time since it was handed out in seconds with three decimals, in this order; whatever the client sends, no entry is more than one line. Entries about the end of a connection name the last request of it.", "quantifier": "every request, response and time; every history of the connection", "why_tests_cant": "targets are arbitrary text from the network", "anchors": ["pillowcore/HttpHandler.cpp:HttpHandlerLog::handleRequest", "pillowcore/HttpHandler.cpp:HttpHandlerLog::requestCompleted", "pillowcore/HttpHandler.cpp:HttpHandlerLog::requestClosed"]}
{"id": "C71", "title": "A request that failed does not affect later ones", "statement": "When the connection breaks or the application aborts at any point of a response, however it has arrived and been read, finished() is emitted at once with the error, and the response to the next request of the same client is reported exactly, as if the first one had not been made; so are all those after it.", "quantifier": "every response, every point at which it breaks off, every segmentation and read buffer, every following request and response, any number of failures", "why_tests_cant": "every crash point and every history of the client", "anchors": ["pillowcore/HttpClient.cpp:HttpClient::device_error", "pillowcore/HttpClient.cpp:HttpClient::abort", "pillowcore/HttpClient.cpp:HttpClient::request", "pillowcore/HttpClient.cpp:HttpResponseParser::clear"]}
{"id": "C72", "title": "What a script is shown of the request", "statement": "The object a script function is called with shows the request of the client: method, uri, path, query string and fragment percent-decoded, the content and, under its name whatever its case, each header as they were sent, and the items of the query. An object of headers that a script passes to the connection becomes one header for each property, in the order in which they were set.", "quantifier": "every connection history, every request and every sequence of properties a script sets", "why_tests_cant": "requests are arbitrary and unbounded", "anchors": ["pillowcore/HttpHandlerQtScript.cpp:HttpHandlerQtScript::handleRequest", "pillowcore/HttpHandlerQtScript.cpp:toScriptValue", "pillowcore/HttpHandlerQtScript.cpp:fromScriptValue"]}
{"id": "C73", "title": "A pooled connection serves its next client as a new one would", "statement": "Whatever a connection object of the server has been through, to the next client it serves it behaves as a newly constructed object: given the same bytes, calls and answers of the device it hands out the same requests, shows the same of them, writes the same bytes and emits the same signals; nothing of an earlier client remains.", "quantifier": "every history of the object, every sequence of later events; every history of a server and each of its connections", "why_tests_cant": "the state left behind depends on the whole history of the object", "anchors": ["pillowcore/HttpConnection.cpp:HttpConnection::initialize", "pillowcore/HttpConnection.cpp:HttpConnectionPrivate::initialize", "pillowcore/HttpServer.cpp:HttpServerPrivate::takeConnection"]}
{"id": "C74", "title": "What a served file is declared to be", "statement": "A response of the file handler that carries a file has exactly one Content-Type, determined by the name asked for: the type of its extension (html, jpg, jpeg, png, gif, css, js, xml, in any letter case), and application/octet-stream for every other name.", "quantifier": "every name, file system and request", "why_tests_cant": "names are unbounded", "anchors": ["pillowcore/HttpHelpers.cpp:getMimeTypeForFilename", "pillowcore/HttpHandler.cpp:HttpHandlerFile::handleRequest"]}
{"id": "C75", "title": "A request is put on its way", "statement": "Whenever the client says that a response is pending, the request is under way: a connection with the server its url names is being opened, or the request has been written, as a whole, to an established connection with that server; and when the connection being opened is made, the request is written to it.", "quantifier": "every application (calls in slots and outside), every behaviour of server and socket, every history of requests", "why_tests_cant": "whether the request gets out depends on the state the whole history left the socket in", "anchors": ["pillowcore/HttpClient.cpp:HttpClient::request", "pillowcore/HttpClient.cpp:HttpClient::device_connected", "pillowcore/HttpClient.cpp:HttpClient::sendRequest", "pillowcore/HttpClient.cpp:HttpClient::messageComplete"]}
{"id": "C76", "title": "The signals of a request come in order and agree with each other", "statement": "After the client has accepted a request, headersCompleted() comes at most once, contentReadyRead() only after it and each time with content to which some has been added since the last time or since it was consumed, then finished() once. finished() without an error comes only after headersCompleted(); it shows the status and the headers headersCompleted() showed (trailers added) and the content contentReadyRead() showed. Meanwhile the accessors agree with the signals.", "quantifier": "every application (calls in slots and outside), every byte stream of the server and its segmentation, every history of requests", "why_tests_cant": "the order depends on the bytes of the server, their division, and what slots do", "anchors": ["pillowcore/HttpClient.cpp:HttpClient::headersComplete", "pillowcore/HttpClient.cpp:HttpClient::messageContent", "pillowcore/HttpClient.cpp:HttpClient::messageComplete", "pillowcore/HttpClient.cpp:HttpClient::abort", "pillowcore/parser/http_parser.c:http_parser_execute"]}
{"id": "C77", "title": "Compressed content is shown decompressed", "statement": "The content of a response with Content-Encoding: gzip that is a complete gzip stream is shown to the application as the decompressed data, in whatever pieces the response arrives and however they are read, whatever its size; before its end the application has seen a beginning of the decompressed data and nothing else. From the first piece in which zlib finds an error, the content is passed on unchanged; content zlib rejects from its first piece on is shown exactly as it was sent.", "quantifier": "every gzip stream, every division of it into pieces (segments, chunks, reads), every size", "why_tests_cant": "sizes and divisions are unbounded", "anchors": ["pillowcore/HttpClient.cpp:GunzipContentTransformer::transform", "pillowcore/HttpClient.cpp:HttpClient::messageContent", "pillowcore/HttpClient.cpp:HttpClient::headersComplete"]}
{"id": "C78", "title": "A file of the server reaches the client", "statement": "When a client of this library asks a server of this library for a file of its public directory, whatever the two have exchanged on the connection before, the application is told 200, the type of the file, and exactly its bytes, whatever its size and however the bytes are divided on their way; a HEAD request is answered with the same status and type and without content; asking again with the digest it was told yields 304 without content. In general, the response a handler gives with writeResponse() is reported to the application as given, and the client is ready for the next request.", "quantifier": "every history of client and server, every file and name, every division of the bytes", "why_tests_cant": "files, histories and divisions are unbounded", "anchors": ["pillowcore/HttpHandler.cpp:HttpHandlerFile::handleRequest", "pillowcore/HttpHandler.cpp:HttpHandlerFileTransfer", "pillowcore/HttpConnection.cpp:HttpConnection::writeResponse", "pillowcore/HttpClient.cpp:HttpClient::messageComplete"]}
{"id": "C79", "title": "What the handler of a route is told of the request", "statement": "While a request is being handled, requestParamValue(name) is the value last set for this request under that name, else the one the query of the request has, whatever happened to earlier requests on the connection. A router passes the request to the first of its routes whose path pattern and method fit (the method being that of the _method parameter if the router is to consider it and there is one, else that of the request), and the handler of the route finds, besides the parameters there were, one for each name of the pattern: the piece of the decoded path that stands for it. If no route fits, the request is refused or answered 404 or 405 as configured. A request made with the client of the library is handled with the method, path and query of the url it was given.", "quantifier": "every history of the connection with handlers that set and read parameters in time; every table of routes with plain paths, every request", "why_tests_cant": "the parameters are kept on a connection that serves any number of requests, and several handlers may set them", "anchors": ["pillowcore/HttpHandlerSimpleRouter.cpp:HttpHandlerSimpleRouter::handleRequest", "pillowcore/HttpConnection.cpp:HttpConnection::requestParams", "pillowcore/HttpConnection.cpp:HttpConnection::setRequestParam", "pillowcore/HttpConnection.cpp:HttpConnection::requestParamValue"]}
{"id": "C80", "title": "Exactly one handler takes a request", "statement": "However handlers are put inside stacks and behind routes, a request that is reported as handled is answered or taken over by exactly one of them, the first that accepts it, and the handlers before it leave the connection as it was but for parameters; a stack that ends with a fixed or a 404 handler leaves no request unanswered; and what that handler answers with writeResponse() is what the client is told.", "quantifier": "every tree of handlers of the library and of the application, every request, every history of the connection", "why_tests_cant": "trees are unbounded and applications add handlers of their own", "anchors": ["pillowcore/HttpHandler.cpp:HttpHandlerStack::handleRequest", "pillowcore/HttpHandlerSimpleRouter.cpp:HttpHandlerSimpleRouter::handleRequest", "pillowcore/HttpHandlerSimpleRouter.cpp:HandlerRoute::invoke", "pillowcore/HttpHandler.cpp:HttpHandlerFunction::handleRequest"]}
{"id": "C81", "title": "A route to a method of an object calls that method", "statement": "A route added with an object and one of its methods that takes a connection (given by name, by signature or with SLOT()) calls exactly that method for the requests it is invoked with; nothing is added for a null object or member.", "quantifier": "every class, every method of it and every way to name it", "why_tests_cant": "classes are those of the application", "anchors": ["pillowcore/HttpHandlerSimpleRouter.cpp:HttpHandlerSimpleRouter::addRoute", "pillowcore/HttpHandlerSimpleRouter.cpp:QObjectMetaCallRoute::invoke", "pillowcore/HttpHandlerSimpleRouter.cpp:QObjectMethodCallRoute::invoke"]}
{"id": "C82", "title": "A client and its servers understand each other as long as they exist", "statement": "Let a client of this library talk to servers of this library over connections that deliver what is sent, in order, in any pieces and at any time, and that break, or are aborted, at most before the client has read any of an awaited response or after it has read its headers; let the responses be such that their end can be seen (a length or chunks), with final statuses, headers that are lines, and heads within the limits of the parsers. Each connection of the client is served by one initialization of a connection object of a server; the requests its handler is shown are the requests the client has written to that connection, in order, with their method, uri, headers and content; every request of the client that has ended has ended without error, with the status, headers and content the handler has written in answer to that very request, or it has failed, was the last on its connection, and the application was given no content for it or the status and headers of that answer and a beginning of its content; only the last request has not ended. And it ends when the handler has completed its answer, that has arrived, and the application takes the content that is there.", "quantifier": "every interleaving of the steps of client, network, servers and handlers; any number of connections and requests, requests made in slots included; every division of the bytes in both directions", "why_tests_cant": "interleavings, divisions, requests and responses are unbounded, and client and server are two state machines that never see each other", "anchors": ["pillowcore/HttpClient.cpp:HttpClient::request", "pillowcore/HttpClient.cpp:HttpClient::messageComplete", "pillowcore/HttpConnection.cpp:HttpConnection::processInput", "pillowcore/HttpConnection.cpp:HttpConnection::writeHeaders", "pillowcore/HttpConnection.cpp:HttpConnectionPrivate::transitionToCompleted", "pillowcore/parser/http_parser.c:http_parser_execute"]}
{"id": "C83", "title": "A client cannot make a connection hold more than one request", "statement": "Whenever control is in the event loop and a connection expects input, what it has taken from its device beyond the requests handed out is the beginning of one request: part of a head of at most the accepted length, or an acceptable head and less content than it announces; so it is bounded by the limits on heads and contents, whatever the client sends and however often. While state() is anything but ReceivingHeaders and ReceivingContent, in particular from requestReady() until the response is complete, the connection reads nothing: what arrives stays in the device.", "quantifier": "every byte stream, division, time of arrival and sequence of calls", "why_tests_cant": "the stream is unbounded", "anchors": ["pillowcore/HttpConnection.cpp:HttpConnectionPrivate::processInput", "pillowcore/HttpConnection.cpp:HttpConnectionPrivate::transitionToReceivingContent", "pillowcore/HttpConnection.cpp:HttpConnectionPrivate::transitionToCompleted"]}
{"id": "C84", "title": "Request data is not read after its memory was given up", "statement": "From requestReady() until the response is complete, everything the accessors of a connection show of the request (method, uri, path, query, fragment, version, headers, content) lies in memory the connection still holds, whatever arrives, is called or is sent meanwhile; and neither the connection itself nor a handler that uses the accessors only in that time ever reads request data whose memory has been given up.", "quantifier": "every sequence of requests, arrivals, calls and responses on a connection", "why_tests_cant": "whether memory is still valid depends on the whole history of the buffer, and reading freed memory usually goes unnoticed", "anchors": ["pillowcore/HttpConnection.cpp:HttpConnectionPrivate::setupRequestHeaders", "pillowcore/HttpConnection.cpp:HttpConnectionPrivate::transitionToReceivingContent", "pillowcore/HttpConnection.cpp:HttpConnectionPrivate::transitionToSendingHeaders", "pillowcore/HttpConnection.cpp:HttpConnectionPrivate::transitionToCompleted", "pillowcore/HttpConnection.cpp:HttpConnectionPrivate::writeResponse"]}
{"id": "C85", "title": "Every call gives control back, and no client decides how deep the calls nest", "statement": "Every method of a connection, called in any state, returns or emits a signal after a bounded number of steps, whatever has arrived; when slots only return, control is back in the event loop after finitely many steps. And the number of signals being handled one inside the other (each holds a part of the call stack) is bounded independently of what the client sends.", "quantifier": "every state, call, byte stream and behaviour of the slots", "why_tests_cant": "the states and streams are unbounded; a stack that grows with the input overflows only for inputs larger than those of a test", "anchors": ["pillowcore/HttpConnection.cpp:HttpConnectionPrivate::processInput", "pillowcore/HttpConnection.cpp:HttpConnectionPrivate::transitionToCompleted", "pillowcore/HttpConnection.cpp:HttpConnectionPrivate::transitionToSendingHeaders", "pillowcore/HttpConnection.cpp:HttpConnectionPrivate::drain", "pillowcore/HttpConnection.cpp:HttpConnection::writeResponse"]}
{"id": "C86", "title": "The signals of a client nest no deeper than the application reacts, and no network makes them nest", "statement": "Every call of a client and every event of its socket is done with after finitely many signals, nested no deeper than the number of times the application reacts to them, whatever the slots do. And the depth does not depend on what becomes of the connections: an application that makes its request again when it has failed is told of each failure from the event loop, not from within the slot that made the request.", "quantifier": "every application (calls in slots and outside), every byte stream and behaviour of the socket", "why_tests_cant": "re-entrant slots can be nested to any depth and in any order; failures while connecting are hard to provoke", "anchors": ["pillowcore/HttpClient.cpp:HttpClient::request", "pillowcore/HttpClient.cpp:HttpClient::device_error", "pillowcore/HttpClient.cpp:HttpClient::abort", "pillowcore/HttpClient.cpp:HttpClient::messageComplete"]}
{"id": "C87", "title": "The server releases every socket exactly once, when its connection is closed", "statement": "Every socket the server creates for a client is handed to exactly one connection object (or deleted at once when the descriptor is refused), and released exactly once: in the moment its connection emits closed(). No socket is released while a connection still serves its client, none is forgotten, and the server never releases through a null pointer.", "quantifier": "every history of clients that come and leave, refused descriptors, and calls of the application", "why_tests_cant": "a leak or a double release shows only in long histories with particular orders of closing and accepting", "anchors": ["pillowcore/HttpServer.cpp:HttpServer::incomingConnection", "pillowcore/HttpServer.cpp:HttpServer::connection_closed", "pillowcore/HttpServer.cpp:HttpLocalServer::this_newConnection", "pillowcore/HttpServer.cpp:HttpLocalServer::connection_closed", "pillowcore/HttpConnection.cpp:HttpConnectionPrivate::transitionToClosed", "pillowcore/HttpsServer.cpp:HttpsServer::incomingConnection"]}
{"id": "C88", "title": "A file that other programs change while it is being sent", "statement": "Whatever other programs do to a large file while it is being sent (overwrite, truncate, append, in any order, at any moment): no more content is sent than announced; a response is completed only when all announced bytes have been sent; every byte sent is one the file had at that position at some time since the request; and when the rest cannot be had any more the connection is closed, so that the client does not wait for ever.", "quantifier": "every sequence of changes of the file, interleaved in every way with the sending", "why_tests_cant": "the changes can come between any two reads; a test of a growing file passes or fails by chance", "anchors": ["pillowcore/HttpHandler.cpp:HttpHandlerFileTransfer::writeNextPayload", "pillowcore/HttpHandler.cpp:HttpHandlerFile::handleRequest", "pillowcore/HttpConnection.cpp:HttpConnectionPrivate::writeContent"]}
{"id": "C89", "title": "The content a proxy sends upstream belongs to the request it forwards", "statement": "All bytes a proxy sends upstream as the content of a request are the content of that request, from its beginning and in order; whatever else happens while it is being forwarded (upstream answers early, the client sends its next request or goes away, the connection object is used for another client), no byte of another request is sent in its place, and none is read from memory that is no longer valid.", "quantifier": "every interleaving of reading the content with the signals of the upstream reply, of the connection and of the event loop", "why_tests_cant": "the content is read piece by piece while upstream answers; only a particular order of an early answer, a pipelined request and the deferred deletion of the reply shows the difference", "anchors": ["pillowcore/HttpHandlerProxy.cpp:HttpHandlerProxy::createProxiedReply", "pillowcore/HttpHandlerProxy.cpp:HttpHandlerProxyPipe::teardown", "pillowcore/HttpConnection.cpp:HttpConnectionPrivate::transitionToCompleted", "pillowcore/HttpConnection.cpp:HttpConnectionPrivate::initialize"]}
{"id": "C90", "title": "The server takes a request to end where the standard says it ends", "statement": "Whatever stream of requests a client (or an intermediary that forwards several users over one connection) sends, the server hands out exactly the requests RFC 7230 section 3.3.3 takes it for, with their content: a Transfer-Encoding decides before any Content-Length, several Content-Length headers must agree or the request is refused, and nothing that belongs to the content of one request is ever handed out as another.", "quantifier": "every byte stream, every division into requests, every combination of length and encoding headers, every content", "why_tests_cant": "request smuggling uses combinations of headers no ordinary client sends; the space of streams is infinite", "anchors": ["pillowcore/HttpConnection.cpp:HttpConnectionPrivate::transitionToReceivingContent", "pillowcore/HttpConnection.cpp:HttpConnectionPrivate::processInput", "pillowcore/HttpConnection.cpp:HttpConnectionPrivate::transitionToCompleted"]}
{"id": "C91", "title": "What an application puts into a message stays in that message", "statement": "Whatever texts an application puts into the headers, the path or the content of a message (they may come from a user, for instance a decoded part of the path of a request), the other side sees exactly the one message that was written: a client cannot be made to write a second request, nor a handler a second response or another header, by the text of a value.", "quantifier": "every text of every value, in any number of messages, in both directions", "why_tests_cant": "the harmful texts are those with line ends in the right places followed by any message at all; tests use harmless values", "anchors": ["pillowcore/HttpClient.cpp:HttpRequestWriter::write", "pillowcore/HttpConnection.cpp:HttpConnectionPrivate::writeHeaders", "pillowcore/HttpConnection.cpp:HttpConnectionPrivate::writeResponse"]}
{"id": "C92", "title": "HEAD is answered with the head GET would get", "statement": "For two requests that differ only in the method, one of them HEAD, whatever response a handler passes to writeResponse or writeHeaders, exactly the same head is written for both (status, all headers, length, connection); the file handler does the same for both.", "quantifier": "every request, status, header list, content and file system, on any two connections in any state in which a response may be written", "why_tests_cant": "the head is built from the request and the whole header list; equality must hold for all of them", "anchors": ["pillowcore/HttpConnection.cpp:HttpConnectionPrivate::writeHeaders", "pillowcore/HttpConnection.cpp:HttpConnectionPrivate::writeResponse", "pillowcore/HttpHandler.cpp:HttpHandlerFile::handleRequest"]}
{"id": "C93", "title": "initialize() starts afresh", "statement": "initialize() may be called on a connection object at any time, whatever it is doing: from then on it serves the new device as a newly constructed connection object would (the same requests are handed out, the same is written, the same signals are emitted), and nothing of what went on before remains.", "quantifier": "every history of the object, every state it may be in, every later sequence of bytes, calls and answers of the device", "why_tests_cant": "how the object starts depends on every member the whole history left behind; the existing tests initialize closed connections only", "anchors": ["pillowcore/HttpConnection.cpp:HttpConnection::initialize", "pillowcore/HttpConnection.cpp:HttpConnectionPrivate::initialize", "pillowcore/HttpConnection.cpp:HttpConnectionPrivate::transitionToReceivingHeaders", "pillowcore/parser/parser.c:thin_http_parser_execute"]}
{"id": "C94", "title": "A client behind the proxy gets the answer of upstream", "statement": "When a client of the library asks a server of the library that answers with a proxy handler, it reports the status, the headers and all the content of what the upstream server replied, without an error; and 503 without content if upstream fails before anything of its reply has been sent. It never takes a part of a reply for the whole.", "quantifier": "every request a client may make, every reply of upstream (declared length, chunks or neither; arriving in any pieces), every division of what the proxy sends on its way to the client", "why_tests_cant": "three machines that delimit the content each in its own way; whether the last one sees the end depends on headers of the first", "anchors": ["pillowcore/HttpHandlerProxy.cpp:HttpHandlerProxyPipe", "pillowcore/HttpConnection.cpp:HttpConnectionPrivate::writeHeaders", "pillowcore/HttpClient.cpp:HttpClient::device_readyRead"]}
{"id": "C95", "title": "Nothing outside the request buffer is touched", "statement": "Whatever a client sends and however it arrives, and whatever slots do meanwhile, the connection reads and writes only inside the memory of its request buffer: received bytes and the NUL behind them are stored in what has been allocated, the NULs behind the request fields, the fields themselves and the content lie in what has been received, and no assertion of the head parser about positions fails.", "quantifier": "every sequence of bytes in every division, every sequence of calls (also of initialize()) at every depth of nesting", "why_tests_cant": "raw pointers and positions that several requests, states and reallocations share; one wrong position shows as a crash on some input only, if at all", "anchors": ["pillowcore/HttpConnection.cpp:HttpConnectionPrivate::processInput", "pillowcore/HttpConnection.cpp:HttpConnectionPrivate::setupRequestHeaders", "pillowcore/HttpConnection.cpp:HttpConnectionPrivate::transitionToSendingHeaders", "pillowcore/ByteArrayHelpers.h:setFromRawDataAndNullterm", "pillowcore/parser/parser.c:thin_http_parser_execute"]}
{"id": "C96", "title": "The connection shows the response that was put on the wire", "statement": "From the time the head of a response has been sent until the next request is handed out, responseStatusCode() is the code in the status line that was sent and responseContentLength() the length announced in it (-1 if none was), whatever is called meanwhile.", "quantifier": "every history of the connection, every status code and list of headers, every sequence of calls (also refused ones, also of initialize()) after the head", "why_tests_cant": "a refused second writeHeaders(), writeResponse() or writeContent() must change neither; what is shown must be what was formatted, for every code and length", "anchors": ["pillowcore/HttpConnection.cpp:HttpConnection::responseStatusCode", "pillowcore/HttpConnection.cpp:HttpConnection::responseContentLength", "pillowcore/HttpConnection.cpp:HttpConnectionPrivate::writeHeaders", "pillowcore/HttpConnection.cpp:HttpConnectionPrivate::writeResponse"]}
{"id": "C97", "title": "The client takes a response to end where the standard says it ends", "statement": "Whatever response a server sends to a request other than HEAD, HttpClient takes it to end where RFC 7230 section 3.3.3 says: 1xx, 204 and 304 end with their head, whatever length it announces; chunked content ends with the last chunk, also when it is coded otherwise, too; otherwise the Content-Length headers, which must agree, give the length; otherwise the response ends with the connection. The request is finished then, with exactly that content.", "quantifier": "every well-formed head, every content, every division into segments and every pace of reading", "why_tests_cant": "a 304 that announces the length of what it does not send is common; a client that waits for that content hangs until the server closes, and takes what the server says next for content", "anchors": ["pillowcore/HttpClient.cpp:HttpResponseParser::inject", "pillowcore/HttpClient.cpp:HttpClient::headersComplete", "pillowcore/parser/http_parser.c:http_parser_execute", "pillowcore/parser/http_parser.c:http_message_needs_eof"]}
{"id": "C98", "title": "The responses of the server end where the standard says they end", "statement": "Whatever a handler does, a client that follows RFC 7230 section 3.3.3 takes exactly the bytes the server wrote for a response to be that response: what follows its head is the content the handler gave, in the announced length or in chunks, or it ends with the connection, which is not kept; nothing follows the head of a response to HEAD.", "quantifier": "every history of the connection, every status code of the standard, every list of headers and content", "why_tests_cant": "a byte too many after a response that the client takes to be complete is the beginning of the next response; where one response ends depends on the method, the status and the headers together", "anchors": ["pillowcore/HttpConnection.cpp:HttpConnectionPrivate::writeHeaders", "pillowcore/HttpConnection.cpp:HttpConnectionPrivate::writeResponse", "pillowcore/HttpConnection.cpp:HttpConnectionPrivate::writeContent", "pillowcore/HttpConnection.cpp:HttpConnectionPrivate::endContent"]}
{"id": "C99", "title": "All that a connection writes is its responses, whole and in order", "statement": "Everything a connection has written since it was initialized is, byte for byte, the responses to the requests it announced with requestReady(), one whole response (as HTTP/1.1 frames it) for each requestCompleted(), in the order of the requests, with nothing before, between or after them except the interim response in front of the response to a request that asked for it; then at most a beginning of the response to the last request, or a response that ends with the connection, or the error reply to what came instead of a further request.", "quantifier": "all requests, handlers, histories of a connection (including reuse of the object), splits of the input and orders of events", "why_tests_cant": "a test looks at the bytes of a few exchanges; stray bytes need one particular order of calls and events", "anchors": ["pillowcore/HttpConnection.cpp:HttpConnectionPrivate::processInput", "pillowcore/HttpConnection.cpp:HttpConnectionPrivate::writeResponse", "pillowcore/HttpConnection.cpp:HttpConnectionPrivate::writeHeaders", "pillowcore/HttpConnection.cpp:HttpConnectionPrivate::writeContent", "pillowcore/HttpConnection.cpp:HttpConnectionPrivate::endContent", "pillowcore/HttpConnection.cpp:HttpConnectionPrivate::writeRequestErrorResponse"]}
