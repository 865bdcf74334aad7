import json
P=[]
def p(id,title,statement,quantifier,why,anchors):
    P.append(dict(id=id,title=title,statement=statement,quantifier=quantifier,why_tests_cant=why,anchors=anchors))
A='pillowcore/'
p('C01','Header lookup is first-match, ASCII case-insensitive',
 'HttpHeaderCollection::getFieldValue(name) returns the value of the first header whose field name equals name up to ASCII letter case, and the empty value when there is none; the lower-case-token overload gives the same answer for every lower-case token.',
 'every header collection, every field name (any bytes, any length)','name x collection space is infinite; tests sample ASCII names only',
 [A+'HttpHeader.cpp:getFieldValue',A+'ByteArrayHelpers.h:asciiEqualsCaseInsensitive'])
p('C02','Multi-value header access is complete, ordered and exact',
 'getFieldValues(name) returns exactly the values of all headers with that name (ASCII case-insensitive), in insertion order; testFieldValue(name, value) is true iff some header matches both name and value case-insensitively.',
 'every header collection, name and value','unbounded collections',
 [A+'HttpHeader.cpp:getFieldValues',A+'HttpHeader.cpp:testFieldValue'])
p('C03','ASCII case-insensitive comparison is an equivalence that only folds A-Z/a-z',
 'asciiEqualsCaseInsensitive(a,b) holds iff a and b have the same length and agree after mapping A-Z to a-z byte by byte (all other bytes, incl. >=0x80, compare exactly); it is reflexive, symmetric and transitive.',
 'every pair/triple of byte strings','256^n strings; bugs live at range edges and in high bytes',
 [A+'ByteArrayHelpers.h:asciiEqualsCaseInsensitive'])
p('C04','Percent decoding inverts percent encoding, in place, and never grows or overruns',
 'Decoding any percent-encoding of a byte string (any choice of which bytes are escaped, upper or lower case hex) gives the byte string back; text without % is unchanged; a truncated or trailing % is kept literally; the in-place decoder never writes ahead of its read position, never past the size it was given, and the size it returns is the number of decoded bytes.',
 'every byte string and every choice of escapes','infinite strings and escape choices; aliasing of read/write cursor',
 [A+'ByteArrayHelpers.h:percentDecodeInPlace',A+'ByteArrayHelpers.h:unhex'])
p('C05','Number formatting is exact',
 'appendNumber appends to the target the canonical decimal (or lower-case hex) rendering of the number: no leading zeros, a minus sign for negatives, parsing it back gives the number, bytes already in the target are untouched; for all representable values of the integer type.',
 'every 32/64-bit value, every target, base 10 and 16','2^64 values; the extreme value is the interesting one',
 [A+'ByteArrayHelpers.h:appendNumber'])
p('C06','"Field: Value" literals split at the first colon',
 'Constructing an HttpHeader from the literal name ": " value yields (name, value) for every name without colon and every value not starting with a space; without a colon the whole text is the name and the value is empty; a value may itself contain colons.',
 'every literal','unbounded text',
 [A+'HttpHeader.cpp:setFromRawHeader'])
p('C07','Appending header collections concatenates',
 'a += b (and a << b, a + b) yields the headers of a followed by the headers of b, for every a and b, including when b is a itself.',
 'every pair of collections including aliased ones','aliasing is rarely tested',
 [A+'HttpHeader.cpp:operator+='])
p('C08','Request parsing is independent of TCP segmentation',
 'However the bytes of a request stream are cut into readyRead deliveries, the connection produces the same requestReady sequence (same method, uri, path, query, fragment, version, headers, content), the same responses and the same error replies.',
 'every byte stream and every way of cutting it into segments','2^(n-1) segmentations per stream',
 [A+'HttpConnection.cpp:processInput',A+'parser/parser.c:thin_http_parser_execute'])
p('C09','The request head accepted is exactly the grammar, and the fields are the right slices',
 'A head is accepted iff it is METHOD SP request-uri [# fragment] SP HTTP/d+.d+ CRLF (name ":" SP* value CRLF)* CRLF with the documented character classes; when accepted, requestMethod/Uri/Path/QueryString/Fragment/HttpVersion and requestHeaders (order and duplicates kept) are exactly the corresponding pieces of the input.',
 'every byte sequence','the 58-state table cannot be covered by examples; soundness is a negative claim over all inputs',
 [A+'parser/parser.c',A+'parser/common.rl',A+'HttpConnection.cpp:setupRequestHeaders'])
p('C10','Client writer and server parser agree',
 'Any request HttpRequestWriter writes (valid method, origin-form path, token header names, CR-free values) is parsed by HttpConnection into the same method, uri, header list (plus the generated Content-Length) and content, with nothing left over.',
 'every method/path/headers/data within the documented character sets','cross-component round trip over infinite data',
 [A+'HttpClient.cpp:HttpRequestWriter::write',A+'parser/parser.c'])
p('C11','Malformed or oversized heads get one 400 and a closed connection, never a handler call',
 'If the stream is not (a prefix of) a valid head, or the head exceeds MaximumRequestHeaderLength, the connection writes exactly one "HTTP/1.0 400 Bad Request" + "Connection: close" reply, emits no requestReady for it, and stops reading.',
 'every byte stream','infinite invalid inputs, boundary of 32 KiB',
 [A+'HttpConnection.cpp:processInput',A+'HttpConnection.cpp:writeRequestErrorResponse'])
p('C12','Content-Length decides accept/400/413 and the content delivered',
 'With no Content-Length (or 0) the handler is called with empty content; negative gives 400; unparsable or larger than 128 MiB gives 413; otherwise the handler is called as soon as, and only when, that many content bytes have arrived and requestContent() is exactly those bytes.',
 'every header value and body','integer edge cases and arbitrary segmentation',
 [A+'HttpConnection.cpp:transitionToReceivingContent',A+'HttpConnection.cpp:processInput'])
p('C13','Pipelined bytes are neither lost, duplicated nor altered',
 'After a request completes on a kept-alive connection, the next request is parsed from exactly the bytes following the content of the completed one, in order, whether they were already buffered or still in the device.',
 'every stream and every arrival schedule','depends on arrival schedule and buffer reuse',
 [A+'HttpConnection.cpp:transitionToCompleted'])
p('C14','Request accessors show the client bytes (NUL termination in the shared buffer corrupts nothing)',
 'When requestReady fires, each accessor (method, uri, path, query, fragment, version, every header name and value, content) equals the bytes the client sent for it, although the implementation overwrites delimiter bytes of the shared buffer with NUL.',
 'every accepted request','aliasing between overlapping views; depends on delimiter positions',
 [A+'HttpConnection.cpp:transitionToSendingHeaders',A+'ByteArrayHelpers.h:setFromRawDataAndNullterm'])
p('C15','requestReady / requestCompleted / closed protocol',
 'On every connection, for every handler behaviour (synchronous, asynchronous, re-entrant), each requestReady is followed by requestCompleted or closed before the next requestReady; requestCompleted is never emitted without a preceding requestReady; closed is emitted at most once per initialize.',
 'every sequence of API calls and device events, nested in slots in any way','interleavings and re-entrancy',
 [A+'HttpConnection.cpp:transitionToCompleted',A+'HttpConnection.cpp:transitionToClosed'])
p('C16','No crash from any call sequence',
 'No sequence of public API calls and device events (including calls made from inside the signals, and the peer disconnecting at any moment) makes the connection dereference a null device.',
 'every event sequence','needs all interleavings and disconnect points',
 [A+'HttpConnection.cpp:transitionToCompleted',A+'HttpConnection.cpp:processInput'])
p('C17','Calls in the wrong state are inert',
 'writeResponse/writeHeaders outside SendingHeaders, writeContent/endContent outside SendingContent, and input processing outside the receiving states write nothing, emit nothing and change no observable state.',
 'every reachable state','state x call product over all histories',
 [A+'HttpConnection.cpp:writeHeaders',A+'HttpConnection.cpp:writeContent',A+'HttpConnection.cpp:endContent'])
p('C18','A declared Content-Length is honoured',
 'With a declared non-negative response Content-Length N, the body bytes written never exceed N, a writeContent that would exceed it writes nothing, and the response completes exactly when the N-th byte has been written (immediately for N = 0 or HEAD).',
 'every sequence of writeContent sizes','all partitions of the body',
 [A+'HttpConnection.cpp:writeContent'])
p('C19','Chunked responses decode to the written content',
 'When chunked transfer encoding is in effect, the bytes written after the head by any sequence of writeContent calls followed by endContent decode, by the RFC 2616 chunked decoding, to the concatenation of the contents, with nothing left over; empty writes never terminate the body early.',
 'every sequence of contents','all partitions and sizes',
 [A+'HttpConnection.cpp:writeContent',A+'HttpConnection.cpp:endContent',A+'ByteArrayHelpers.h:appendNumber'])
p('C20','Keep-alive negotiation',
 'The connection is kept after a response iff the client wants it (HTTP/1.1 without Connection: close, or another version with Connection: keep-alive) and the response length is delimited (known length or chunked) and the handler did not ask for Connection: close; the Connection header written tells the client the same decision.',
 'every request version/headers and response headers','decision table over unbounded header values',
 [A+'HttpConnection.cpp:writeHeaders'])
p('C21','HEAD responses carry no body bytes',
 'For a HEAD request no body byte of its response is ever written to the connection, whatever the handler passes to writeResponse/writeContent and whatever is pipelined behind it.',
 'every handler behaviour and pipelined input','depends on re-entrancy and pipelining',
 [A+'HttpConnection.cpp:writeResponse',A+'HttpConnection.cpp:transitionToSendingContent'])
p('C22','The status line is well formed',
 'The first line of every response is VERSION SP three-digit-code SP reason CRLF with the code passed by the handler, or 500 if the code is not a known HTTP status.',
 'every status code','2^32 codes',
 [A+'HttpConnection.cpp:writeHeaders',A+'HttpHelpers.cpp:getStatusCodeAndMessage'])
p('C23','Response head layout',
 'Every header passed by the handler other than Content-Length, Content-Type, Connection and Transfer-Encoding is written verbatim, once, in order; exactly one Content-Length line with the decimal length is written iff the length is known; the default Content-Type is added iff none was given and the length is positive; the head ends with exactly one empty line.',
 'every header list and length','unbounded header lists; lengths beyond 2^31',
 [A+'HttpConnection.cpp:writeHeaders'])
p('C24','Nothing unsent is dropped on an orderly close',
 'When a response that is not kept alive completes (or an error reply is sent), the connection closes the device only once every byte written has left the write buffer, for every pace at which the device drains; and it does close once everything has left.',
 'every drain schedule','all device paces',
 [A+'HttpConnection.cpp:drain',A+'HttpConnection.cpp:transitionToFlushing'])
p('C25','Expect: 100-continue',
 'The interim "HTTP/1.1 100 Continue" is written iff the request announces a positive acceptable Content-Length and its first Expect header equals 100-continue (case-insensitive), exactly once, before the final response.',
 'every request','all headers and segmentations',
 [A+'HttpConnection.cpp:transitionToReceivingContent'])
p('C26','Query parameters',
 'requestParams() is the list of &-separated items of the query string, each split at its first = and both halves percent-decoded, in order; requestParamValue(name) is the value of the first parameter with that name, case-insensitively.',
 'every query string','unbounded text',
 [A+'HttpConnection.cpp:requestParams',A+'HttpConnection.cpp:requestParamValue'])
p('C27','setRequestParam is an update of the first match',
 'After setRequestParam(n,v), requestParamValue(n) is v, every differently-named parameter keeps its value, and the order and number of other parameters are unchanged.',
 'every parameter list, name and value','unbounded lists',
 [A+'HttpConnection.cpp:setRequestParam'])
p('C28','Decoded accessors and params always belong to the current request',
 'requestPathDecoded()/requestUriDecoded()/... and requestParams() are always the decoding of the current request fields, however often they were read for earlier requests on the same connection.',
 'every history of requests and reads','cache staleness depends on history',
 [A+'HttpConnection.cpp:PERCENT_DECODABLE',A+'HttpConnection.cpp:transitionToSendingHeaders'])
p('C29','Handler stack: first handler that accepts wins',
 'HttpHandlerStack calls its child handlers in order until one returns true, calls none after it, and returns true iff one did.',
 'every list of handlers and every handler behaviour','unbounded lists',
 [A+'HttpHandler.cpp:HttpHandlerStack::handleRequest'])
p('C30','Router dispatch',
 'HttpHandlerSimpleRouter invokes exactly the first route (in registration order) whose path matches and whose method is empty or equals the request method case-insensitively; otherwise it answers 404/405 or passes through according to the configured actions, and the 405 Allow header lists exactly the methods of the routes whose path matched.',
 'every route table and request','unbounded tables',
 [A+'HttpHandlerSimpleRouter.cpp:handleRequest'])
p('C31','Route parameters bind to the part of the path they stand for',
 'When a route with :param and *splat placeholders matches, requestParamValue(name) is the piece of the path matched by the placeholder of that name.',
 'every route pattern and path','placeholder order is combinatorial',
 [A+'HttpHandlerSimpleRouter.cpp:pathToRegExp',A+'HttpHandlerSimpleRouter.cpp:handleRequest'])
p('C32','Static file handler never leaves the public directory',
 'HttpHandlerFile serves only regular files whose canonical path lies inside the public directory, for every request path (including .., percent-encoding and symlinks).',
 'every request path and file system','adversarial inputs are infinite',
 [A+'HttpHandler.cpp:HttpHandlerFile::handleRequest'])
p('C33','Large file transfers deliver the file exactly',
 'For a file larger than the buffer size, the body bytes written are exactly the file content in order, for every pace at which the output device drains, never buffering more than the buffer size at once.',
 'every file, buffer size and drain schedule','all schedules',
 [A+'HttpHandler.cpp:HttpHandlerFileTransfer::writeNextPayload'])
p('C34','Server connection pool never shares or leaks past its bound',
 'A connection object handed to a client is not handed to another client before it emitted closed; at most 25 idle connections are kept; every idle connection in the pool is distinct.',
 'every sequence of accepts and closes','all histories',
 [A+'HttpServer.cpp:HttpServerPrivate'])
p('C35','Response parsing is independent of segmentation',
 'However the bytes received are divided into non-empty inject() calls (what a call leaves unconsumed being injected again), HttpResponseParser calls the same virtual functions in the same order, with the same status, headers and content visible during them, and reports an error in the same cases; without error the accessors end up showing the same. Every call consumes something unless there is an error.',
 'every byte sequence, valid or not, every way to divide it and every earlier use of the parser','the number of divisions is exponential in the length',
 [A+'HttpClient.cpp:HttpResponseParser::inject',A+'parser/http_parser.c:http_parser_execute'])
p('C36','Responses are isolated from each other',
 'The headers and content reported for a response depend only on the bytes of that response, not on an earlier response on the same parser/client, even if the earlier one was aborted or had trailers.',
 'every history of earlier responses','history dependence',
 [A+'HttpClient.cpp:HttpResponseParser::clear',A+'HttpClient.cpp:HttpResponseParser::pushHeader',A+'HttpClient.cpp:HttpClient::headersComplete'])
p('C37','Client reports finished exactly once per request',
 'For every accepted request, finished() is emitted exactly once: on complete response, network error, invalid response or abort; never while no request is pending; and error() then tells which.',
 'every sequence of calls, device events and callback re-entrancy','interleavings',
 [A+'HttpClient.cpp:HttpClient::abort',A+'HttpClient.cpp:HttpClient::device_error',A+'HttpClient.cpp:HttpClient::messageComplete'])
p('C38','Client never pipelines and never loses a request made from a callback',
 'While a response is pending a new request is refused and changes nothing; a request issued from inside a callback after completion is sent once the current parse returns.',
 'every call sequence','re-entrancy',
 [A+'HttpClient.cpp:HttpClient::request',A+'HttpClient.cpp:HttpClient::device_readyRead'])
p('C39','100-Continue interim responses are invisible to the client user',
 'Any number of 100 responses preceding the final response changes neither headers(), content(), statusCode() nor the signals observed, whatever the segmentation.',
 'every number of interim responses and segmentation','unbounded repetition x segmentation',
 [A+'HttpClient.cpp:HttpClient::messageComplete',A+'HttpClient.cpp:HttpClient::device_readyRead'])
p('C40','Connection reuse only for the same server and within the keep-alive timeout',
 'A request is sent on the existing connection only if the socket is connected, host and port equal those of the previous request and the keep-alive timeout has not expired; otherwise the client reconnects and the Host header written names the new server.',
 'every sequence of requests and timer values','history',
 [A+'HttpClient.cpp:HttpClient::request',A+'HttpClient.cpp:HttpClient::sendRequest'])
p('C41','Server response and client parser agree',
 'The bytes HttpConnection writes for a response with known length parse, with HttpResponseParser, to the same status code, headers and content and leave nothing over.',
 'every status, header list and content in the documented character sets','cross-component round trip',
 [A+'HttpConnection.cpp:writeHeaders',A+'parser/http_parser.c'])
p('C42','HTTP dates have the fixed RFC 1123 layout',
 'getHttpDate yields "Www, DD Mon YYYY HH:MM:SS GMT" with the right names and zero padding for every valid UTC date-time with a four digit year; reading the fields back gives the date-time.',
 'every date-time','infinite domain',
 [A+'HttpHelpers.cpp:getHttpDate'])
p('C43','Status table is consistent',
 'getStatusMessage(code) is the reason phrase of getStatusCodeAndMessage(code), whose first three characters are the decimal code; both are null for exactly the same codes.',
 'every int','2^32 codes',
 [A+'HttpHelpers.cpp:getStatusCodeAndMessage'])
p('C44','Proxy pipe relays status, headers and content once',
 'The pipe writes the proxied status and headers exactly once before any content, relays the content bytes in order, answers 503 iff the upstream failed before anything was sent, and writes nothing after the client request completed or closed.',
 'every sequence of upstream/downstream events','interleavings',
 [A+'HttpHandlerProxy.cpp:HttpHandlerProxyPipe'])
p('C45','Proxied replies of unknown length are delimited for the client',
 'When the upstream reply ends, the client can tell that the body is complete: declared length reached, final chunk sent, or connection closed for an un-chunked body.',
 'every upstream reply','header combinations',
 [A+'HttpHandlerProxy.cpp:proxiedReply_finished'])
p('C46','QNetworkReply facade reads content exactly once in order',
 'Reading from the reply returns the response content bytes in order, each exactly once, for any read sizes interleaved with any arrival of content; bytesAvailable() is the number not yet read.',
 'every interleaving of arrivals and reads','interleavings',
 [A+'HttpClient.cpp:NetworkReply::readData'])
p('C47','NetworkAccessManager never gives one client to two live replies and keeps hosts apart',
 'A pooled HttpClient is used by at most one unfinished reply at a time and is only reused for the authority it was created for.',
 'every sequence of requests and completions','histories',
 [A+'HttpClient.cpp:NetworkAccessManager::createRequest'])
p('C48','Request log has one line per completed request',
 'HttpHandlerLog writes, in LogCompletedRequests mode, exactly one entry per requestCompleted of a logged connection, and in TraceRequests mode a BEGIN entry per request as well, for every interleaving of connections.',
 'every interleaving of connections and requests','interleavings',
 [A+'HttpHandler.cpp:HttpHandlerLog'])
p('C49','Writer output framing',
 'HttpRequestWriter writes request line, headers in order, Content-Length iff data is non-empty, an empty line and then exactly the data; consecutive requests on one writer do not influence each other.',
 'every sequence of requests','builder reuse depends on history and sizes (4096 / 16384 thresholds)',
 [A+'HttpClient.cpp:HttpRequestWriter::write'])
p('C50','Large response lengths are announced correctly',
 'The Content-Length line written equals the response length for every 64-bit length.',
 'every qint64 length','tests would need > 2 GiB bodies',
 [A+'HttpConnection.cpp:writeHeaders',A+'ByteArrayHelpers.h:appendNumber'])
p('C51','Byte builder appends exactly',
 'Pillow::ByteArray append overloads have the effect of concatenation whether or not the reserved capacity suffices, and never write past the capacity.',
 'every content, capacity and append sequence','capacity dependent paths',
 [A+'private/ByteArray.h'])
p('C52','Fixed / 404 / function handlers always answer exactly once',
 'HttpHandlerFixed and HttpHandler404 produce one complete response (configured status and content / 404 with the path in the text) for every request and report it handled.',
 'every request','all requests',
 [A+'HttpHandler.cpp:HttpHandlerFixed::handleRequest',A+'HttpHandler.cpp:HttpHandler404::handleRequest'])
p('C53','Static files are cacheable',
 'A static file that fits in the buffer is answered with 200, its whole content and an ETag that is a digest of the content; a request repeating that ETag in If-None-Match is answered with 304 and no content as long as the file content is unchanged, any other request gets the content; an unreadable file gets 403.',
 'every file content, request and digest','all contents and header combinations',
 [A+'HttpHandler.cpp:HttpHandlerFile::handleRequest'])
p('C54','No input makes an assertion of the bundled response parser fail',
 'Whatever bytes are injected into an HttpResponseParser, in whatever pieces, with end of input and clear() anywhere between, no assert in http_parser.c fails (they are compiled in unless NDEBUG is set and would abort the client).',
 'every sequence of inject(), injectEof() and clear() calls with every data','arbitrary hostile input',
 [A+'HttpClient.cpp:HttpResponseParser',A+'parser/http_parser.c:http_parser_execute'])
p('C55','Well-formed responses are reported exactly',
 'Whatever sequence of well-formed HTTP/1.x responses (with Content-Length, chunked, bodiless, or ended by the end of the input) reaches a response parser, it reports for each the status code, the reason-independent header list, the content and the completion, consumes exactly its bytes, and goes on with the next; the division of the bytes into pieces does not matter.',
 'every sequence of well-formed responses and every segmentation','all contents and divisions',
 [A+'HttpClient.cpp:HttpResponseParser',A+'parser/http_parser.c:http_parser_execute'])
p('C56','The client reports exactly the response it received',
 'When a well-formed response (whose end does not depend on the connection) to a pending request (headers only, if the request is HEAD) arrives, in any pieces, at a client whose read buffer is not limited and which has only been sent complete responses before, and the application does not abort, the client emits headersCompleted() with its status and headers, contentReadyRead() for content, and finished() with no error, and the pieces of content taken with consumeContent() followed by what is left in content() are exactly the content of the response.',
 'every response, segmentation and application','all contents and divisions',
 [A+'HttpClient.cpp:HttpClient::device_readyRead',A+'HttpClient.cpp:HttpClient::messageContent'])
p('C57','No input makes an assertion of the client\'s parser fail',
 'Whatever a server sends and whatever the application does in its slots (abort, new requests, consumeContent), no assert in http_parser.c fails in an HttpClient.',
 'every run of the client','arbitrary hostile input interleaved with re-entrant calls',
 [A+'HttpClient.cpp:HttpClient',A+'parser/http_parser.c:http_parser_pause'])
p('C58','A client and a server of the library understand each other',
 'When an HttpClient asks an HttpConnection for something, over connections that deliver the bytes in order but cut and delay them in any way, the handler is shown the request the application made (method, path with query, Host and the application\'s headers, content), and, when it completes a response whose end the client can see, the client reports that status, those headers and exactly that content (none for a HEAD request), once, without error; and so on for the next request on the same connection.',
 'every request, handler, response, segmentation and timing on both sides','the product of two state machines and all interleavings',
 [A+'HttpClient.cpp:HttpClient',A+'HttpConnection.cpp:HttpConnection'])
p('C59','Reading at the pace of the application',
 'Whatever read buffer size an application sets, and whenever it takes content or does anything else but abort, the client reports exactly the response it was sent once it has read it, and until then the request stays pending and the unread rest stays in the socket; taking the content and returning to the event loop always makes progress, so that the response is reported after at most as many rounds as there are unread bytes; and while the read buffer has the size n, the client never holds or shows more than n bytes of content, as long as no response it was sent is compressed.',
 'every response, segmentation, read buffer size and timing','all sizes and interleavings of arrivals, reads and consumption',
 [A+'HttpClient.cpp:HttpClient::device_readyRead',A+'HttpClient.cpp:HttpClient::consumeContent',A+'HttpClient.cpp:HttpClient::setReadBufferSize'])
p('C60','HEAD requests of the client',
 'When the response to a HEAD request arrives, in any pieces, the client reports its status and headers, no content, and finished() without error, whatever Content-Length, Transfer-Encoding or Content-Encoding the headers announce, and can be used for further requests on the same connection.',
 'every response head and segmentation','all headers and divisions',
 [A+'HttpClient.cpp:HttpClient::headersComplete'])
p('C61','What the client shows between responses; following redirections',
 'From the finished() of a request until the next request is accepted, statusCode(), headers() and content() return what they returned in finished(), except for consumed content. followRedirection() after a response with status 300, 301, 302, 303 or 307 repeats the same method, headers and data at the url of the first Location header (name compared without case), at once or when the running slot has returned; after other responses, and while a response is awaited, it makes no request. No request is ever made that the application did not ask for in one of these two ways.',
 'every history of requests, responses, slots and calls','arbitrary interleavings of calls, signals and segments',
 [A+'HttpClient.cpp:HttpClient::redirected',A+'HttpClient.cpp:HttpClient::followRedirection',A+'HttpClient.cpp:HttpClient::statusCode'])
p('C62','Responses that end with the connection',
 'When a response without Content-Length and chunks arrives, in any pieces and read at any pace, the request stays pending, headersCompleted() is emitted once with its status and headers, and once what has arrived has been read, the content taken with consumeContent() followed by content() is everything that came after the headers (taking it and returning to the event loop suffices for everything to be read). When the connection ends, finished() is emitted with that status, those headers and the rest of the content, with RemoteHostClosedError (or NetworkError), and later requests of the same client are not affected.',
 'every response, content, segmentation and timing','the length of the content and its division are arbitrary',
 [A+'HttpClient.cpp:HttpClient::device_error',A+'HttpClient.cpp:HttpClient::device_readyRead',A+'parser/http_parser.c:http_message_needs_eof'])
p('C63','A response that breaks off is never taken for a complete one',
 'At whatever byte the answer to a request breaks off, in whatever pieces it has arrived and however it was read, the request is still pending, finished() has not been emitted for it, and what the application has seen is at most one headersCompleted(), with the status and headers of the response, and a beginning of its content; when the connection fails or is closed, finished() is emitted with an error and a beginning of the content (and, if headersCompleted() had been emitted, with the status and headers of the response).',
 'every response, every point at which it breaks off, every segmentation and timing','every crash point of the server or the network',
 [A+'HttpClient.cpp:HttpClient::device_error',A+'HttpClient.cpp:HttpClient::device_readyRead'])
p('C64','The proxy asks upstream for what its client asked for',
 'For every request a proxy handler with a proxied url takes, the request it makes upstream is determined by the bytes of its client: the method, path, query, fragment, headers in their order and content of the client\'s last request, at the scheme, host and port of the proxied url; and the content, which is read from the connection while upstream takes it, does not change before the response is ended, whatever the client sends meanwhile. Without a proxied url the handler reports the request not handled.',
 'every byte stream of the client, every proxied url, every time at which the content is read','requests and the moments at which upstream reads are unbounded',
 [A+'HttpHandlerProxy.cpp:HttpHandlerProxy::handleRequest',A+'HttpHandlerProxy.cpp:HttpHandlerProxy::createProxiedReply'])
p('C65','Proxied requests do not wait for each other',
 'In every history of requests made through the elastic access manager and replies deleted, every request under way is with exactly one manager, no manager has more than six of them (the number of connections Qt opens to a server), and there are never more managers than the largest number of requests under way together requires (a sixth of it, rounded up).',
 'every history of requests and deletions of replies','histories are unbounded',
 [A+'HttpHandlerProxy.cpp:ElasticNetworkAccessManager::createRequest'])
p('C66','A failing script is answered for once',
 'When a script handler\'s function fails and has sent nothing for its request, its client gets exactly one complete 500 response with the description of the error; if it had begun to respond nothing is added to the response; the request is reported handled. A function that does not fail decides by its return value whether the request was handled, and the handler sends nothing itself; a value that is not a function handles nothing.',
 'every connection history, everything the script does and everything that happens meanwhile','the script and the environment may do anything',
 [A+'HttpHandlerQtScript.cpp:HttpHandlerQtScript::handleRequest'])
p('C67','Script files: the present version is the one that is run',
 'With autoReload, what becomes of a request is what the present text of the script file says: the function of the configured name is run, or, if the text does not evaluate or has no such function, the answer is 500, whatever the file contained before. A failed load is tried again by the next request. Without autoReload, or when the file has been removed, the function run last is run again; if there never was one the answer is 500.',
 'every history of writes and removals of the file and of requests, and every interleaving of the two','interleavings of the handler with writers of the file',
 [A+'HttpHandlerQtScript.cpp:HttpHandlerQtScriptFile::handleRequest'])
p('C68','Requests made through the access manager',
 'For a url of scheme http (compared without case) and an operation of QNetworkAccessManager, the client is asked for exactly that url with the method of the operation (HEAD, GET, PUT, POST, DELETE or the custom verb); with the headers set on the request, the last of each name, in their order, followed by one Cookie header with the cookies of the jar joined by "; " if there are any; and with the data for PUT, POST and custom verbs and none for the others. A handler of this library at the other end is shown exactly this after Host. Urls of other schemes are left to Qt.',
 'every operation, url, headers, cookies and data','headers, cookies and data are unbounded',
 [A+'HttpClient.cpp:NetworkAccessManager::createRequest'])
p('C69','What a network reply tells of the response',
 'A QNetworkReply of the access manager has, before it shows any content, the status of the response as attribute, its headers (of each name the last), its Location as the redirection target and all the cookies of its Set-Cookie headers, which are stored in the jar. It emits metaDataChanged() once and then finished() once; if the client reports an error, error() with the error of Qt that corresponds to it is emitted just before finished(), and nothing after that; isFinished() holds from then on and not before.',
 'every response, segmentation and history of the client','responses and their division are arbitrary',
 [A+'HttpClient.cpp:NetworkReply::client_headersCompleted',A+'HttpClient.cpp:NetworkReply::client_finished',A+'HttpClient.cpp:NetworkReply::client_contentReadyRead'])
p('C70','What a log entry says',
 'The entry the log handler writes for a completed request is one line with the remote address, the date, the method, target and version of that request as it was sent, the status and the content length of its response, and the time since it was handed out in seconds with three decimals, in this order; whatever the client sends, no entry is more than one line. Entries about the end of a connection name the last request of it.',
 'every request, response and time; every history of the connection','targets are arbitrary text from the network',
 [A+'HttpHandler.cpp:HttpHandlerLog::handleRequest',A+'HttpHandler.cpp:HttpHandlerLog::requestCompleted',A+'HttpHandler.cpp:HttpHandlerLog::requestClosed'])
p('C71','A request that failed does not affect later ones',
 'When the connection breaks or the application aborts at any point of a response, however it has arrived and been read, finished() is emitted at once with the error, and the response to the next request of the same client is reported exactly, as if the first one had not been made; so are all those after it.',
 'every response, every point at which it breaks off, every segmentation and read buffer, every following request and response, any number of failures','every crash point and every history of the client',
 [A+'HttpClient.cpp:HttpClient::device_error',A+'HttpClient.cpp:HttpClient::abort',A+'HttpClient.cpp:HttpClient::request',A+'HttpClient.cpp:HttpResponseParser::clear'])
p('C72','What a script is shown of the request',
 'The object a script function is called with shows the request of the client: method, uri, path, query string and fragment percent-decoded, the content and, under its name whatever its case, each header as they were sent, and the items of the query. An object of headers that a script passes to the connection becomes one header for each property, in the order in which they were set.',
 'every connection history, every request and every sequence of properties a script sets','requests are arbitrary and unbounded',
 [A+'HttpHandlerQtScript.cpp:HttpHandlerQtScript::handleRequest',A+'HttpHandlerQtScript.cpp:toScriptValue',A+'HttpHandlerQtScript.cpp:fromScriptValue'])
p('C73','A pooled connection serves its next client as a new one would',
 'Whatever a connection object of the server has been through, to the next client it serves it behaves as a newly constructed object: given the same bytes, calls and answers of the device it hands out the same requests, shows the same of them, writes the same bytes and emits the same signals; nothing of an earlier client remains.',
 'every history of the object, every sequence of later events; every history of a server and each of its connections','the state left behind depends on the whole history of the object',
 [A+'HttpConnection.cpp:HttpConnection::initialize',A+'HttpConnection.cpp:HttpConnectionPrivate::initialize',A+'HttpServer.cpp:HttpServerPrivate::takeConnection'])
p('C74','What a served file is declared to be',
 'A response of the file handler that carries a file has exactly one Content-Type, determined by the name asked for: the type of its extension (html, jpg, jpeg, png, gif, css, js, xml, in any letter case), and application/octet-stream for every other name.',
 'every name, file system and request','names are unbounded',
 [A+'HttpHelpers.cpp:getMimeTypeForFilename',A+'HttpHandler.cpp:HttpHandlerFile::handleRequest'])
p('C75','A request is put on its way',
 'Whenever the client says that a response is pending, the request is under way: a connection with the server its url names is being opened, or the request has been written, as a whole, to an established connection with that server; and when the connection being opened is made, the request is written to it.',
 'every application (calls in slots and outside), every behaviour of server and socket, every history of requests','whether the request gets out depends on the state the whole history left the socket in',
 [A+'HttpClient.cpp:HttpClient::request',A+'HttpClient.cpp:HttpClient::device_connected',A+'HttpClient.cpp:HttpClient::sendRequest',A+'HttpClient.cpp:HttpClient::messageComplete'])
p('C76','The signals of a request come in order and agree with each other',
 'After the client has accepted a request, headersCompleted() comes at most once, contentReadyRead() only after it and each time with content to which some has been added since the last time or since it was consumed, then finished() once. finished() without an error comes only after headersCompleted(); it shows the status and the headers headersCompleted() showed (trailers added) and the content contentReadyRead() showed. Meanwhile the accessors agree with the signals.',
 'every application (calls in slots and outside), every byte stream of the server and its segmentation, every history of requests','the order depends on the bytes of the server, their division, and what slots do',
 [A+'HttpClient.cpp:HttpClient::headersComplete',A+'HttpClient.cpp:HttpClient::messageContent',A+'HttpClient.cpp:HttpClient::messageComplete',A+'HttpClient.cpp:HttpClient::abort',A+'parser/http_parser.c:http_parser_execute'])
p('C77','Compressed content is shown decompressed',
 'The content of a response with Content-Encoding: gzip that is a complete gzip stream is shown to the application as the decompressed data, in whatever pieces the response arrives and however they are read, whatever its size; before its end the application has seen a beginning of the decompressed data and nothing else. From the first piece in which zlib finds an error, the content is passed on unchanged; content zlib rejects from its first piece on is shown exactly as it was sent.',
 'every gzip stream, every division of it into pieces (segments, chunks, reads), every size','sizes and divisions are unbounded',
 [A+'HttpClient.cpp:GunzipContentTransformer::transform',A+'HttpClient.cpp:HttpClient::messageContent',A+'HttpClient.cpp:HttpClient::headersComplete'])
p('C78','A file of the server reaches the client',
 'When a client of this library asks a server of this library for a file of its public directory, whatever the two have exchanged on the connection before, the application is told 200, the type of the file, and exactly its bytes, whatever its size and however the bytes are divided on their way; a HEAD request is answered with the same status and type and without content; asking again with the digest it was told yields 304 without content. In general, the response a handler gives with writeResponse() is reported to the application as given, and the client is ready for the next request.',
 'every history of client and server, every file and name, every division of the bytes','files, histories and divisions are unbounded',
 [A+'HttpHandler.cpp:HttpHandlerFile::handleRequest',A+'HttpHandler.cpp:HttpHandlerFileTransfer',A+'HttpConnection.cpp:HttpConnection::writeResponse',A+'HttpClient.cpp:HttpClient::messageComplete'])
p('C79','What the handler of a route is told of the request',
 'While a request is being handled, requestParamValue(name) is the value last set for this request under that name, else the one the query of the request has, whatever happened to earlier requests on the connection. A router passes the request to the first of its routes whose path pattern and method fit (the method being that of the _method parameter if the router is to consider it and there is one, else that of the request), and the handler of the route finds, besides the parameters there were, one for each name of the pattern: the piece of the decoded path that stands for it. If no route fits, the request is refused or answered 404 or 405 as configured. A request made with the client of the library is handled with the method, path and query of the url it was given.',
 'every history of the connection with handlers that set and read parameters in time; every table of routes with plain paths, every request','the parameters are kept on a connection that serves any number of requests, and several handlers may set them',
 [A+'HttpHandlerSimpleRouter.cpp:HttpHandlerSimpleRouter::handleRequest',A+'HttpConnection.cpp:HttpConnection::requestParams',A+'HttpConnection.cpp:HttpConnection::setRequestParam',A+'HttpConnection.cpp:HttpConnection::requestParamValue'])
p('C80','Exactly one handler takes a request',
 'However handlers are put inside stacks and behind routes, a request that is reported as handled is answered or taken over by exactly one of them, the first that accepts it, and the handlers before it leave the connection as it was but for parameters; a stack that ends with a fixed or a 404 handler leaves no request unanswered; and what that handler answers with writeResponse() is what the client is told.',
 'every tree of handlers of the library and of the application, every request, every history of the connection','trees are unbounded and applications add handlers of their own',
 [A+'HttpHandler.cpp:HttpHandlerStack::handleRequest',A+'HttpHandlerSimpleRouter.cpp:HttpHandlerSimpleRouter::handleRequest',A+'HttpHandlerSimpleRouter.cpp:HandlerRoute::invoke',A+'HttpHandler.cpp:HttpHandlerFunction::handleRequest'])
p('C81','A route to a method of an object calls that method',
 'A route added with an object and one of its methods that takes a connection (given by name, by signature or with SLOT()) calls exactly that method for the requests it is invoked with; nothing is added for a null object or member.',
 'every class, every method of it and every way to name it','classes are those of the application',
 [A+'HttpHandlerSimpleRouter.cpp:HttpHandlerSimpleRouter::addRoute',A+'HttpHandlerSimpleRouter.cpp:QObjectMetaCallRoute::invoke',A+'HttpHandlerSimpleRouter.cpp:QObjectMethodCallRoute::invoke'])
p('C82','A client and its servers understand each other as long as they exist',
 'Let a client of this library talk to servers of this library over connections that deliver what is sent, in order, in any pieces and at any time, and that break, or are aborted, at most before the client has read any of an awaited response or after it has read its headers; let the responses be such that their end can be seen (a length or chunks), with final statuses, headers that are lines, and heads within the limits of the parsers. Each connection of the client is served by one initialization of a connection object of a server; the requests its handler is shown are the requests the client has written to that connection, in order, with their method, uri, headers and content; every request of the client that has ended has ended without error, with the status, headers and content the handler has written in answer to that very request, or it has failed, was the last on its connection, and the application was given no content for it or the status and headers of that answer and a beginning of its content; only the last request has not ended. And it ends when the handler has completed its answer, that has arrived, and the application takes the content that is there.',
 'every interleaving of the steps of client, network, servers and handlers; any number of connections and requests, requests made in slots included; every division of the bytes in both directions','interleavings, divisions, requests and responses are unbounded, and client and server are two state machines that never see each other',
 [A+'HttpClient.cpp:HttpClient::request',A+'HttpClient.cpp:HttpClient::messageComplete',A+'HttpConnection.cpp:HttpConnection::processInput',A+'HttpConnection.cpp:HttpConnection::writeHeaders',A+'HttpConnection.cpp:HttpConnectionPrivate::transitionToCompleted',A+'parser/http_parser.c:http_parser_execute'])
p('C83','A client cannot make a connection hold more than one request',
 'Whenever control is in the event loop and a connection expects input, what it has taken from its device beyond the requests handed out is the beginning of one request: part of a head of at most the accepted length, or an acceptable head and less content than it announces; so it is bounded by the limits on heads and contents, whatever the client sends and however often. While state() is anything but ReceivingHeaders and ReceivingContent, in particular from requestReady() until the response is complete, the connection reads nothing: what arrives stays in the device.',
 'every byte stream, division, time of arrival and sequence of calls','the stream is unbounded',
 [A+'HttpConnection.cpp:HttpConnectionPrivate::processInput',A+'HttpConnection.cpp:HttpConnectionPrivate::transitionToReceivingContent',A+'HttpConnection.cpp:HttpConnectionPrivate::transitionToCompleted'])
p('C84','Request data is not read after its memory was given up',
 'From requestReady() until the response is complete, everything the accessors of a connection show of the request (method, uri, path, query, fragment, version, headers, content) lies in memory the connection still holds, whatever arrives, is called or is sent meanwhile; and neither the connection itself nor a handler that uses the accessors only in that time ever reads request data whose memory has been given up.',
 'every sequence of requests, arrivals, calls and responses on a connection','whether memory is still valid depends on the whole history of the buffer, and reading freed memory usually goes unnoticed',
 [A+'HttpConnection.cpp:HttpConnectionPrivate::setupRequestHeaders',A+'HttpConnection.cpp:HttpConnectionPrivate::transitionToReceivingContent',A+'HttpConnection.cpp:HttpConnectionPrivate::transitionToSendingHeaders',A+'HttpConnection.cpp:HttpConnectionPrivate::transitionToCompleted',A+'HttpConnection.cpp:HttpConnectionPrivate::writeResponse'])
p('C85','Every call gives control back, and no client decides how deep the calls nest',
 'Every method of a connection, called in any state, returns or emits a signal after a bounded number of steps, whatever has arrived; when slots only return, control is back in the event loop after finitely many steps. And the number of signals being handled one inside the other (each holds a part of the call stack) is bounded independently of what the client sends.',
 'every state, call, byte stream and behaviour of the slots','the states and streams are unbounded; a stack that grows with the input overflows only for inputs larger than those of a test',
 [A+'HttpConnection.cpp:HttpConnectionPrivate::processInput',A+'HttpConnection.cpp:HttpConnectionPrivate::transitionToCompleted',A+'HttpConnection.cpp:HttpConnectionPrivate::transitionToSendingHeaders',A+'HttpConnection.cpp:HttpConnectionPrivate::drain',A+'HttpConnection.cpp:HttpConnection::writeResponse'])
p('C86','The signals of a client nest no deeper than the application reacts, and no network makes them nest',
 'Every call of a client and every event of its socket is done with after finitely many signals, nested no deeper than the number of times the application reacts to them, whatever the slots do. And the depth does not depend on what becomes of the connections: an application that makes its request again when it has failed is told of each failure from the event loop, not from within the slot that made the request.',
 'every application (calls in slots and outside), every byte stream and behaviour of the socket','re-entrant slots can be nested to any depth and in any order; failures while connecting are hard to provoke',
 [A+'HttpClient.cpp:HttpClient::request',A+'HttpClient.cpp:HttpClient::device_error',A+'HttpClient.cpp:HttpClient::abort',A+'HttpClient.cpp:HttpClient::messageComplete'])
p('C87','The server releases every socket exactly once, when its connection is closed',
 'Every socket the server creates for a client is handed to exactly one connection object (or deleted at once when the descriptor is refused), and released exactly once: in the moment its connection emits closed(). No socket is released while a connection still serves its client, none is forgotten, and the server never releases through a null pointer.',
 'every history of clients that come and leave, refused descriptors, and calls of the application','a leak or a double release shows only in long histories with particular orders of closing and accepting',
 [A+'HttpServer.cpp:HttpServer::incomingConnection',A+'HttpServer.cpp:HttpServer::connection_closed',A+'HttpServer.cpp:HttpLocalServer::this_newConnection',A+'HttpServer.cpp:HttpLocalServer::connection_closed',A+'HttpConnection.cpp:HttpConnectionPrivate::transitionToClosed',A+'HttpsServer.cpp:HttpsServer::incomingConnection'])
p('C88','A file that other programs change while it is being sent',
 'Whatever other programs do to a large file while it is being sent (overwrite, truncate, append, in any order, at any moment): no more content is sent than announced; a response is completed only when all announced bytes have been sent; every byte sent is one the file had at that position at some time since the request; and when the rest cannot be had any more the connection is closed, so that the client does not wait for ever.',
 'every sequence of changes of the file, interleaved in every way with the sending','the changes can come between any two reads; a test of a growing file passes or fails by chance',
 [A+'HttpHandler.cpp:HttpHandlerFileTransfer::writeNextPayload',A+'HttpHandler.cpp:HttpHandlerFile::handleRequest',A+'HttpConnection.cpp:HttpConnectionPrivate::writeContent'])
p('C89','The content a proxy sends upstream belongs to the request it forwards',
 'All bytes a proxy sends upstream as the content of a request are the content of that request, from its beginning and in order; whatever else happens while it is being forwarded (upstream answers early, the client sends its next request or goes away, the connection object is used for another client), no byte of another request is sent in its place, and none is read from memory that is no longer valid.',
 'every interleaving of reading the content with the signals of the upstream reply, of the connection and of the event loop','the content is read piece by piece while upstream answers; only a particular order of an early answer, a pipelined request and the deferred deletion of the reply shows the difference',
 [A+'HttpHandlerProxy.cpp:HttpHandlerProxy::createProxiedReply',A+'HttpHandlerProxy.cpp:HttpHandlerProxyPipe::teardown',A+'HttpConnection.cpp:HttpConnectionPrivate::transitionToCompleted',A+'HttpConnection.cpp:HttpConnectionPrivate::initialize'])
p('C90','The server takes a request to end where the standard says it ends',
 'Whatever stream of requests a client (or an intermediary that forwards several users over one connection) sends, the server hands out exactly the requests RFC 7230 section 3.3.3 takes it for, with their content: a Transfer-Encoding decides before any Content-Length, several Content-Length headers must agree or the request is refused, and nothing that belongs to the content of one request is ever handed out as another.',
 'every byte stream, every division into requests, every combination of length and encoding headers, every content','request smuggling uses combinations of headers no ordinary client sends; the space of streams is infinite',
 [A+'HttpConnection.cpp:HttpConnectionPrivate::transitionToReceivingContent',A+'HttpConnection.cpp:HttpConnectionPrivate::processInput',A+'HttpConnection.cpp:HttpConnectionPrivate::transitionToCompleted'])
p('C91','What an application puts into a message stays in that message',
 'Whatever texts an application puts into the headers, the path or the content of a message (they may come from a user, for instance a decoded part of the path of a request), the other side sees exactly the one message that was written: a client cannot be made to write a second request, nor a handler a second response or another header, by the text of a value.',
 'every text of every value, in any number of messages, in both directions','the harmful texts are those with line ends in the right places followed by any message at all; tests use harmless values',
 [A+'HttpClient.cpp:HttpRequestWriter::write',A+'HttpConnection.cpp:HttpConnectionPrivate::writeHeaders',A+'HttpConnection.cpp:HttpConnectionPrivate::writeResponse'])
p('C92','HEAD is answered with the head GET would get',
 'For two requests that differ only in the method, one of them HEAD, whatever response a handler passes to writeResponse or writeHeaders, exactly the same head is written for both (status, all headers, length, connection); the file handler does the same for both.',
 'every request, status, header list, content and file system, on any two connections in any state in which a response may be written','the head is built from the request and the whole header list; equality must hold for all of them',
 [A+'HttpConnection.cpp:HttpConnectionPrivate::writeHeaders',A+'HttpConnection.cpp:HttpConnectionPrivate::writeResponse',A+'HttpHandler.cpp:HttpHandlerFile::handleRequest'])
p('C93','initialize() starts afresh',
 'initialize() may be called on a connection object at any time, whatever it is doing: from then on it serves the new device as a newly constructed connection object would (the same requests are handed out, the same is written, the same signals are emitted), and nothing of what went on before remains.',
 'every history of the object, every state it may be in, every later sequence of bytes, calls and answers of the device','how the object starts depends on every member the whole history left behind; the existing tests initialize closed connections only',
 [A+'HttpConnection.cpp:HttpConnection::initialize',A+'HttpConnection.cpp:HttpConnectionPrivate::initialize',A+'HttpConnection.cpp:HttpConnectionPrivate::transitionToReceivingHeaders',A+'parser/parser.c:thin_http_parser_execute'])
p('C94','A client behind the proxy gets the answer of upstream',
 'When a client of the library asks a server of the library that answers with a proxy handler, it reports the status, the headers and all the content of what the upstream server replied, without an error; and 503 without content if upstream fails before anything of its reply has been sent. It never takes a part of a reply for the whole.',
 'every request a client may make, every reply of upstream (declared length, chunks or neither; arriving in any pieces), every division of what the proxy sends on its way to the client','three machines that delimit the content each in its own way; whether the last one sees the end depends on headers of the first',
 [A+'HttpHandlerProxy.cpp:HttpHandlerProxyPipe',A+'HttpConnection.cpp:HttpConnectionPrivate::writeHeaders',A+'HttpClient.cpp:HttpClient::device_readyRead'])
p('C95','Nothing outside the request buffer is touched',
 'Whatever a client sends and however it arrives, and whatever slots do meanwhile, the connection reads and writes only inside the memory of its request buffer: received bytes and the NUL behind them are stored in what has been allocated, the NULs behind the request fields, the fields themselves and the content lie in what has been received, and no assertion of the head parser about positions fails.',
 'every sequence of bytes in every division, every sequence of calls (also of initialize()) at every depth of nesting','raw pointers and positions that several requests, states and reallocations share; one wrong position shows as a crash on some input only, if at all',
 [A+'HttpConnection.cpp:HttpConnectionPrivate::processInput',A+'HttpConnection.cpp:HttpConnectionPrivate::setupRequestHeaders',A+'HttpConnection.cpp:HttpConnectionPrivate::transitionToSendingHeaders',A+'ByteArrayHelpers.h:setFromRawDataAndNullterm',A+'parser/parser.c:thin_http_parser_execute'])
p('C96','The connection shows the response that was put on the wire',
 'From the time the head of a response has been sent until the next request is handed out, responseStatusCode() is the code in the status line that was sent and responseContentLength() the length announced in it (-1 if none was), whatever is called meanwhile.',
 'every history of the connection, every status code and list of headers, every sequence of calls (also refused ones, also of initialize()) after the head','a refused second writeHeaders(), writeResponse() or writeContent() must change neither; what is shown must be what was formatted, for every code and length',
 [A+'HttpConnection.cpp:HttpConnection::responseStatusCode',A+'HttpConnection.cpp:HttpConnection::responseContentLength',A+'HttpConnection.cpp:HttpConnectionPrivate::writeHeaders',A+'HttpConnection.cpp:HttpConnectionPrivate::writeResponse'])
p('C97','The client takes a response to end where the standard says it ends',
 'Whatever response a server sends to a request other than HEAD, HttpClient takes it to end where RFC 7230 section 3.3.3 says: 1xx, 204 and 304 end with their head, whatever length it announces; chunked content ends with the last chunk, also when it is coded otherwise, too; otherwise the Content-Length headers, which must agree, give the length; otherwise the response ends with the connection. The request is finished then, with exactly that content.',
 'every well-formed head, every content, every division into segments and every pace of reading','a 304 that announces the length of what it does not send is common; a client that waits for that content hangs until the server closes, and takes what the server says next for content',
 [A+'HttpClient.cpp:HttpResponseParser::inject',A+'HttpClient.cpp:HttpClient::headersComplete',A+'parser/http_parser.c:http_parser_execute',A+'parser/http_parser.c:http_message_needs_eof'])
p('C98','The responses of the server end where the standard says they end',
 'Whatever a handler does, a client that follows RFC 7230 section 3.3.3 takes exactly the bytes the server wrote for a response to be that response: what follows its head is the content the handler gave, in the announced length or in chunks, or it ends with the connection, which is not kept; nothing follows the head of a response to HEAD.',
 'every history of the connection, every status code of the standard, every list of headers and content','a byte too many after a response that the client takes to be complete is the beginning of the next response; where one response ends depends on the method, the status and the headers together',
 [A+'HttpConnection.cpp:HttpConnectionPrivate::writeHeaders',A+'HttpConnection.cpp:HttpConnectionPrivate::writeResponse',A+'HttpConnection.cpp:HttpConnectionPrivate::writeContent',A+'HttpConnection.cpp:HttpConnectionPrivate::endContent'])
p('C99','All that a connection writes is its responses, whole and in order',
 'Everything a connection has written since it was initialized is, byte for byte, the responses to the requests it announced with requestReady(), one whole response (as HTTP/1.1 frames it) for each requestCompleted(), in the order of the requests, with nothing before, between or after them except the interim response in front of the response to a request that asked for it; then at most a beginning of the response to the last request, or a response that ends with the connection, or the error reply to what came instead of a further request.',
 'all requests, handlers, histories of a connection (including reuse of the object), splits of the input and orders of events',
 'a test looks at the bytes of a few exchanges; stray bytes need one particular order of calls and events',
 [A+'HttpConnection.cpp:HttpConnectionPrivate::processInput',A+'HttpConnection.cpp:HttpConnectionPrivate::writeResponse',A+'HttpConnection.cpp:HttpConnectionPrivate::writeHeaders',A+'HttpConnection.cpp:HttpConnectionPrivate::writeContent',A+'HttpConnection.cpp:HttpConnectionPrivate::endContent',A+'HttpConnection.cpp:HttpConnectionPrivate::writeRequestErrorResponse'])
with open('/verif/properties.jsonl','w') as f:
    for x in P: f.write(json.dumps(x)+'\n')
print(len(P))
