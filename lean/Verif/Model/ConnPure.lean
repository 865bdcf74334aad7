import Verif.Model.ThinParser
import Verif.Model.HttpHeader
import Verif.Model.HttpHelpers
/-!
# Model of the pure parts of `pillowcore/HttpConnection.cpp`

Views into the request buffer and NUL termination, `Content-Length` parsing, the response head.
-/
namespace Pillow

/-- `QByteArray(data + start, length)` / a raw view read through the buffer `buf`. (HttpConnection.cpp:206-207,
266-271.) -/
def Slice.of (s : Slice) (buf : Bytes) : Bytes := (buf.drop s.start).take s.len

/-! ### Qt number parsing -/

/-- C `isspace` in the C locale. C library; used inside Qt's `toInt`/`toLongLong` (HttpConnection.cpp:224, 478). -/
def isSpaceC (b : Byte) : Bool := b == 32 || (9 ≤ b && b ≤ 13)

/-- Leading white space is skipped by Qt's `toInt`/`toLongLong` (used at HttpConnection.cpp:224, 478). -/
def dropSpaces : Bytes → Bytes
  | [] => []
  | b :: bs => if isSpaceC b then dropSpaces bs else b :: bs

/-- The C string at the start of the array (Qt hands `constData()` to `strtoll`-like code). (Qt, behind
HttpConnection.cpp:224, 478.) -/
def cString : Bytes → Bytes
  | [] => []
  | b :: bs => if b == 0 then [] else b :: cString bs

/-- Decimal digits to a number; `none` if some byte is not a digit. (Qt, behind HttpConnection.cpp:224, 478.) -/
def digitsVal : Nat → Bytes → Option Nat
  | acc, [] => some acc
  | acc, b :: bs => if isDigit b then digitsVal (10 * acc + (b.toNat - 48)) bs else none

/-- Unsigned part: at least one digit and nothing else. (Qt, behind HttpConnection.cpp:224, 478.) -/
def natVal (s : Bytes) : Option Nat := if s = [] then none else digitsVal 0 s

/-- `QByteArray::toLongLong(bool*, 10)` of Qt 4/5 (Qt code, not in this repository; modelled from its documented
behaviour): leading white space, optional sign, digits up to the end of the C string; `none` is `ok == false`
(then 0 is returned). Used at HttpConnection.cpp:478. -/
def qtToLongLong (s : Bytes) : Option Int :=
  let v : Option Int :=
    match dropSpaces (cString s) with
    | 45 :: ds => (natVal ds).map fun n => -(n : Int)
    | 43 :: ds => (natVal ds).map fun n => (n : Int)
    | ds => (natVal ds).map fun n => (n : Int)
  match v with
  | some n => if -(2 ^ 63 : Int) ≤ n ∧ n < 2 ^ 63 then some n else none
  | none => none

/-- `QByteArray::toInt(bool*, 10)`: the same with the 32-bit range. Used at HttpConnection.cpp:224. -/
def qtToInt (s : Bytes) : Option Int :=
  match qtToLongLong s with
  | some n => if -(2 ^ 31 : Int) ≤ n ∧ n < 2 ^ 31 then some n else none
  | none => none

/-! ### The request as seen through the accessors -/

/-- What the request accessors of `HttpConnection` return. (The members HttpConnection.cpp:86-95, behind the accessors
671-730.) -/
structure ReqView where
  method : Bytes := []
  uri : Bytes := []
  fragment : Bytes := []
  path : Bytes := []
  query : Bytes := []
  version : Bytes := []
  headers : Headers := []
  content : Bytes := []
  deriving Repr, DecidableEq, Inhabited

/-- The write done by `setFromRawDataAndNullterm` (ByteArrayHelpers.h:55-92): the byte behind a non-empty view is
overwritten with NUL. -/
def nulTerm (buf : Bytes) (s : Slice) : Bytes := if s.len = 0 then buf else buf.set (s.start + s.len) 0

/-- Effect of `setupRequestHeaders` (HttpConnection.cpp:199-213) on the buffer. -/
def setupHeaders (buf : Bytes) (refs : List FieldRef) : Bytes :=
  refs.foldl (fun b r => nulTerm (nulTerm b r.name) r.value) buf

/-- The header views read through the buffer. (HttpConnection.cpp:199-213.) -/
def viewHeaders (buf : Bytes) (refs : List FieldRef) : Headers :=
  refs.map fun r => ⟨r.name.of buf, r.value.of buf⟩

/-- `_requestContentLengthHeaderIndex` (HttpConnection.cpp:420-430): the index of the last header whose name is 14
bytes long and equals `content-length` case-insensitively.  Simplification: in the code the index is computed in
the parser callback; the bytes of a name do not change between the callback and the use at line 222, so the model
computes it there. -/
def contentLengthIndex (buf : Bytes) (refs : List FieldRef) : Option Nat :=
  (refs.foldl (fun (acc : Option Nat × Nat) r =>
    (if r.name.len == 14 && asciiEqualsCI (r.name.of buf) b!"content-length" then some acc.2 else acc.1, acc.2 + 1))
    (none, 0)).1

/-- The NUL terminations of `transitionToSendingHeaders` (HttpConnection.cpp:264-282); the second component is the
deep copy of the uri, made when the query string is not empty (lines 270-275). -/
def prepareFields (p : Parser) (buf : Bytes) : Bytes × Option Bytes :=
  let (buf, copy) := if p.query.len = 0 then (nulTerm buf p.uri, none) else (buf, some (p.uri.of buf))
  (nulTerm (nulTerm (nulTerm (nulTerm (nulTerm buf p.method) p.fragment) p.path) p.query) p.version, copy)

/-- The accessors' values once the buffer has been prepared: all but a copied uri are views into the final
buffer (HttpConnection.cpp:264-291). -/
def requestView (p : Parser) (refs : List FieldRef) (buf : Bytes) (copy : Option Bytes) (clen : Nat) : ReqView where
  method := p.method.of buf
  uri := copy.getD (p.uri.of buf)
  fragment := p.fragment.of buf
  path := p.path.of buf
  query := p.query.of buf
  version := p.version.of buf
  headers := viewHeaders buf refs
  content := (⟨p.bodyStart, clen⟩ : Slice).of buf

/-! ### The response head -/

/-- What `writeHeaders` decides and writes. (HttpConnection.cpp:446-553.) -/
structure RespHead where
  status : Int
  headers : Headers
  len : Int
  chunked : Bool
  keepAlive : Bool
  bytes : Bytes
  deriving Repr, DecidableEq, Inhabited

/-- `append(const HttpHeader&)`. (private/ByteArray.h:65-81.) -/
def headerLine (h : Header) : Bytes := h.name ++ b!": " ++ h.value ++ b!"\r\n"

/-- State of the header loop (HttpConnection.cpp:471-496). -/
structure HdrScan where
  out : Bytes
  len : Int
  ctype : Option Header := none
  conn : Option Header := none
  te : Option Header := none
  deriving Repr, DecidableEq

/-- One iteration of the header loop. (HttpConnection.cpp:473-494.) -/
def scanHeader (s : HdrScan) (h : Header) : HdrScan :=
  if asciiEqualsCILower h.name b!"content-length" then
    { s with len := (qtToLongLong h.value).getD (-1) }
  else if asciiEqualsCILower h.name b!"content-type" then { s with ctype := some h }
  else if asciiEqualsCILower h.name b!"connection" then { s with conn := some h }
  else if asciiEqualsCILower h.name b!"transfer-encoding" then { s with te := some h }
  else { s with out := s.out ++ headerLine h }

/-- `static_cast<int>` of a `qint64` (the template argument at HttpConnection.cpp:546). -/
def truncInt32 (n : Int) : Int := (n + 2 ^ 31) % 2 ^ 32 - 2 ^ 31

/-- Conversion of the status code to text (HttpConnection.cpp:454-460): an unknown code uses
`getStatusMessage(500)`. -/
def statusText (code : Int) : Bytes :=
  match getStatusCodeAndMessage code with
  | some m => m
  | none => (getStatusMessage 500).getD []

/-- `transferEncodingHeader != 0 && asciiEqualsCaseInsensitive(…, chunkedToken)` (HttpConnection.cpp:496). -/
def HdrScan.teChunked (s : HdrScan) : Bool :=
  match s.te with
  | some h => asciiEqualsCILower h.value b!"chunked"
  | none => false

/-- Chunked encoding is only used for HTTP/1.1 when the length is unknown (HttpConnection.cpp:498-512). -/
def HdrScan.chunkable (s : HdrScan) (http11 : Bool) : Bool := http11 && s.len == -1

/-- `_responseChunkedTransferEncoding` afterwards (HttpConnection.cpp:496-513). -/
def HdrScan.chunked (s : HdrScan) (http11 chunkedIn : Bool) : Bool :=
  if s.teChunked && s.chunkable http11 then true else chunkedIn

/-- `transferEncodingHeader` afterwards: a chunked encoding that is not used is suppressed
(HttpConnection.cpp:496-513). -/
def HdrScan.teOut (s : HdrScan) (http11 : Bool) : Option Header :=
  if s.teChunked && !s.chunkable http11 then none else s.te

/-- `clientWantsKeepAlive` (HttpConnection.cpp:516-527). -/
def clientKeepAlive (http11 : Bool) (r : ReqView) : Bool :=
  if http11 then !asciiEqualsCILower (getFieldValueTok r.headers b!"connection") b!"close"
  else asciiEqualsCILower (getFieldValueTok r.headers b!"connection") b!"keep-alive"

/-- `_responseConnectionKeepAlive` afterwards (HttpConnection.cpp:529-543). -/
def HdrScan.keepAlive (s : HdrScan) (http11 : Bool) (r : ReqView) (chunked : Bool) : Bool :=
  if clientKeepAlive http11 r then
    match s.conn with
    | some h => (decide (s.len ≥ 0) || chunked) && !asciiEqualsCILower h.value b!"close"
    | none => decide (s.len ≥ 0) || chunked
  else false

/-- The status line (HttpConnection.cpp:462-466). -/
def statusLine (r : ReqView) (status : Int) : Bytes := r.version ++ b!" " ++ statusText status ++ b!"\r\n"

/-- `Content-Length`, if known (HttpConnection.cpp:546); `none` is the undefined behaviour of `appendNumber` on
the most negative `int`. -/
def lengthLine (len : Int) : Option Bytes :=
  if len ≠ -1 then (appendNumber 32 10 b!"Content-Length: " (truncInt32 len)).map (· ++ b!"\r\n") else some []

/-- `Content-Type` (HttpConnection.cpp:547). -/
def HdrScan.typeLine (s : HdrScan) : Bytes :=
  match s.ctype with
  | some h => headerLine h
  | none => if s.len > 0 then b!"Content-Type: text/plain\r\n" else []

/-- `Connection` (HttpConnection.cpp:548). -/
def connectionLine (http11 keepAlive : Bool) : Bytes :=
  if !http11 || !keepAlive then
    if keepAlive then b!"Connection: keep-alive\r\n" else b!"Connection: close\r\n"
  else []

/-- `Transfer-Encoding` (HttpConnection.cpp:549). -/
def teLine (te : Option Header) : Bytes :=
  match te with
  | some h => headerLine h
  | none => []

/-- `writeHeaders` between the state check and the write (HttpConnection.cpp:454-550).  `buf0` is what is in
`_responseHeadersBuffer`, `http11` is `_requestHttp11`, `r` the current request, `lenIn` the value of
`_responseContentLength` on entry, `chunkedIn` the value of `_responseChunkedTransferEncoding`.
`none` is the undefined behaviour of `appendNumber` on the most negative `int`.  The parts appended to the buffer
are written as one concatenation, in the order of the code. -/
def buildHead (buf0 : Bytes) (http11 : Bool) (r : ReqView) (lenIn : Int) (chunkedIn : Bool) (status : Int)
    (hs : Headers) : Option RespHead :=
  let s := hs.foldl scanHeader { out := buf0 ++ statusLine r status, len := lenIn }
  let chunked := s.chunked http11 chunkedIn
  let keepAlive := s.keepAlive http11 r chunked
  (lengthLine s.len).map fun cl =>
    { status := status, headers := hs, len := s.len, chunked := chunked, keepAlive := keepAlive,
      bytes := s.out ++ cl ++ s.typeLine ++ connectionLine http11 keepAlive ++ teLine (s.teOut http11) ++ b!"\r\n" }

/-- The error reply (HttpConnection.cpp:401-418). -/
def errorReplyBytes (code : Int) : Bytes :=
  b!"HTTP/1.0 " ++ (getStatusCodeAndMessage code).getD [] ++ b!"\r\n" ++ b!"Connection: close" ++ b!"\r\n" ++ b!"\r\n"

/-- The interim response (HttpConnection.cpp:234). -/
def continueBytes : Bytes := b!"HTTP/1.1 100 Continue\r\n\r\n"

/-- `appendNumber<int, 16>(buffer, content.size()); buffer.append("\r\n", 2)` (HttpConnection.cpp:580).
Content sizes are non-negative, so `appendNumber` is defined. -/
def chunkPrefix (n : Nat) : Bytes := ((appendNumber 32 16 [] n).getD []) ++ b!"\r\n"

end Pillow
