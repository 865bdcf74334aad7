import Verif.Basic
/-!
# Model of the response side of `pillowcore/parser/http_parser.c`

`http_parser_execute` for a parser initialized with `HTTP_RESPONSE`, compiled with `HTTP_PARSER_STRICT = 1` (http_parser.h:50-52).
The states of the request side, `parse_url_char` and `http_parser_parse_url` are not modelled: Pillow never initializes the parser
for requests.  The callbacks are a parameter; all callbacks of Pillow return 0, so the `HPE_CB_*` errors are left out.  They may
change the parser object (`http_parser_pause`, `http_parser_init`).  A `*_mark` pointer is modelled by the bytes between the
mark and `p`.  A failed `assert` sets `bad`.
-/
namespace Pillow

/-- `enum state` (http_parser.c:222-300), the states of the response side. -/
inductive PState where
  | dead | startRes | resH | resHT | resHTT | resHTTP | firstMajor | major | firstMinor | minor | firstStatus | status | statusText
  | lineAlmostDone | fieldStart | field | valueStart | value | valueLws | almostDone | chunkSizeStart | chunkSize | chunkParams
  | chunkSizeAlmostDone | headersAlmostDone | headersDone
  | chunkData | chunkDataAlmostDone | chunkDataDone | bodyIdentity | bodyEof | messageDone
  deriving Repr, DecidableEq, Inhabited

/-- `PARSING_HEADER` (http_parser.c:303). -/
def PState.isHeader : PState → Bool
  | .chunkData | .chunkDataAlmostDone | .chunkDataDone | .bodyIdentity | .bodyEof | .messageDone => false
  | _ => true

/-- `enum header_states` (http_parser.c:306-330). -/
inductive HState where
  | general | c | co | con | mConnection | mProxyConnection | mContentLength | mTransferEncoding | mUpgrade
  | connection | contentLength | transferEncoding | upgrade | mChunked | mKeepAlive | mClose | chunked | keepAlive | close
  deriving Repr, DecidableEq, Inhabited

/-- `enum http_errno` (http_parser.h:152-197), those the response side can set. -/
inductive Errno where
  | ok | invalidEofState | headerOverflow | closedConnection | invalidVersion | invalidStatus | invalidHeaderToken
  | invalidContentLength | invalidChunkSize | invalidConstant | strict | paused
  deriving Repr, DecidableEq, Inhabited

/-- `struct http_parser` (http_parser.h:215-249); `flags` as booleans.  `content_length` is a `uint64_t`; the other numbers stay
far below their limits (`nread` is at most 81921, the version and status numbers at most 9999, `index` at most 17). -/
structure HParser where
  state : PState := .startRes
  hstate : HState := .general
  index : Nat := 0
  nread : Nat := 0
  contentLength : Nat := 0
  major : Nat := 0
  minor : Nat := 0
  status : Nat := 0
  errno : Errno := .ok
  upgrade : Bool := false
  fChunked : Bool := false
  fKeepAlive : Bool := false
  fClose : Bool := false
  fTrailing : Bool := false
  fUpgrade : Bool := false
  fSkipBody : Bool := false
  /-- An assertion of the C code failed. -/
  bad : Bool := false
  deriving Repr, DecidableEq, Inhabited

/-- `ULLONG_MAX`. (http_parser.c:32-34.) -/
def ullMax : Nat := 2 ^ 64 - 1

/-- `HTTP_MAX_HEADER_SIZE` (http_parser.h:63). -/
def maxHeaderSize : Nat := 80 * 1024

/-- `assert`. (http_parser.c:58, 81, 1652-1653, 1697-1698, 1715, 1750, 1761, 1780-1782, 1799-1800, 1807.) -/
def HParser.assert (p : HParser) (c : Bool) : HParser := if c then p else { p with bad := true }

/-- `http_parser_init(parser, HTTP_RESPONSE)` (http_parser.c:1929-1938); `bad` is not part of the C object and is kept. -/
def HParser.init (p : HParser) : HParser := { bad := p.bad }

/-- `http_parser_pause(parser, 1)` (http_parser.c:2028-2041). -/
def HParser.pause (p : HParser) : HParser :=
  if p.errno = .ok ∨ p.errno = .paused then { p with errno := .paused } else { p with bad := true }

/-- `http_message_needs_eof` (http_parser.c:1879-1900). -/
def HParser.needsEof (p : HParser) : Bool :=
  if p.status / 100 == 1 || p.status == 204 || p.status == 304 || p.fSkipBody then false
  else if p.fChunked || p.contentLength != ullMax then false
  else true

/-- `http_should_keep_alive` (http_parser.c:1903-1919). -/
def HParser.shouldKeepAlive (p : HParser) : Bool :=
  if p.major > 0 && p.minor > 0 then
    if p.fClose then false else !p.needsEof
  else if !p.fKeepAlive then false else !p.needsEof

/-- `NEW_MESSAGE()` (http_parser.c:365). -/
def HParser.newMessage (p : HParser) : PState := if p.shouldKeepAlive then .startRes else .dead

/-- `TOKEN` (http_parser.c:128-167,343): lower case for letters, 0 for a byte that is not a token character. -/
def token (b : Byte) : Byte :=
  if 65 ≤ b ∧ b ≤ 90 then b + 32
  else if 33 ≤ b ∧ b ≤ 126 ∧ b ∉ b!"\"(),/:;<=>?@[\\]{}" then b
  else 0

/-- `LOWER` (http_parser.c:336). -/
def lowerC (b : Byte) : Byte := b ||| 32

/-- `IS_NUM` (http_parser.c:338). -/
def isNum (b : Byte) : Bool := 48 ≤ b && b ≤ 57

/-- `unhex[]` (http_parser.c:170-180); `none` is -1. -/
def unhexC (b : Byte) : Option Nat :=
  if 48 ≤ b ∧ b ≤ 57 then some (b.toNat - 48)
  else if 65 ≤ b ∧ b ≤ 70 then some (b.toNat - 55)
  else if 97 ≤ b ∧ b ≤ 102 then some (b.toNat - 87)
  else none

/-- The callbacks, with their data. (`struct http_parser_settings`, http_parser.h:240-248.) -/
inductive Cb where
  | messageBegin
  | field (bs : Bytes)
  | value (bs : Bytes)
  | headersComplete
  | body (bs : Bytes)
  | messageComplete
  deriving Repr, DecidableEq

/-- The effect of the callbacks on the parser object and on the rest of the program. (http_parser.c:56-105; the
functions are HttpClient.cpp:251-337.) -/
abbrev CB (σ : Type) := Cb → HParser → σ → HParser × σ

/-- The local variables `header_field_mark`, `header_value_mark`, `body_mark` (http_parser.c:572-575). -/
structure Marks where
  field : Option Bytes := none
  value : Option Bytes := none
  body : Option Bytes := none
  deriving Repr, DecidableEq

/-- `p` moves over these bytes. (The loop head, http_parser.c:632.) -/
def Marks.adv (m : Marks) (bs : Bytes) : Marks := ⟨m.field.map (· ++ bs), m.value.map (· ++ bs), m.body.map (· ++ bs)⟩

/-- What a pass through the `switch` leads to: the loop goes on `n` bytes further, or the function returns with `n` more bytes
consumed. (http_parser.c:632-1875.) -/
inductive Res (σ : Type) where
  | go (p : HParser) (s : σ) (m : Marks) (n : Nat)
  | ret (p : HParser) (s : σ) (n : Nat)

variable {σ : Type}

/-- `SET_ERRNO(e); goto error;` (http_parser.c:1869-1874). -/
def fail (p : HParser) (s : σ) (e : Errno) : Res σ := .ret { p with errno := e } s 0

/-- `CALLBACK_NOTIFY(FOR); break;` (http_parser.c:57-75). -/
def notify (cb : CB σ) (c : Cb) (p : HParser) (s : σ) (m : Marks) : Res σ :=
  let r := cb c (p.assert (p.errno == .ok)) s
  if r.1.errno ≠ .ok then .ret r.1 r.2 1 else .go r.1 r.2 m 1

/-- `CALLBACK_DATA(header_field); break;` (http_parser.c:81-104). -/
def dataField (cb : CB σ) (p : HParser) (s : σ) (m : Marks) : Res σ :=
  match m.field with
  | none => .go p s m 1
  | some bs =>
    let r := cb (.field bs) (p.assert (p.errno == .ok)) s
    if r.1.errno ≠ .ok then .ret r.1 r.2 1 else .go r.1 r.2 { m with field := none } 1

/-- `CALLBACK_DATA(header_value); break;`. (http_parser.c:79-101.) -/
def dataValue (cb : CB σ) (p : HParser) (s : σ) (m : Marks) : Res σ :=
  match m.value with
  | none => .go p s m 1
  | some bs =>
    let r := cb (.value bs) (p.assert (p.errno == .ok)) s
    if r.1.errno ≠ .ok then .ret r.1 r.2 1 else .go r.1 r.2 { m with value := none } 1

/-- `CALLBACK_DATA(body); break;`. (http_parser.c:79-101.) -/
def dataBody (cb : CB σ) (p : HParser) (s : σ) (m : Marks) : Res σ :=
  match m.body with
  | none => .go p s m 1
  | some bs =>
    let r := cb (.body bs) (p.assert (p.errno == .ok)) s
    if r.1.errno ≠ .ok then .ret r.1 r.2 1 else .go r.1 r.2 { m with body := none } 1

/-- `case s_headers_done` (http_parser.c:1597-1646). -/
def doHeadersDone (cb : CB σ) (p : HParser) (s : σ) (m : Marks) (ch : Byte) : Res σ :=
  if ch ≠ 10 then fail p s .strict
  else
    let p := { p with nread := 0 }
    if p.upgrade then
      -- `CALLBACK_NOTIFY(message_complete); return (p - data) + 1;`
      let r := cb .messageComplete (HParser.assert { p with state := p.newMessage } (p.errno == Errno.ok)) s
      .ret r.1 r.2 1
    else if p.fSkipBody then notify cb .messageComplete { p with state := p.newMessage } s m
    else if p.fChunked then .go { p with state := .chunkSizeStart } s m 1
    else if p.contentLength = 0 then notify cb .messageComplete { p with state := p.newMessage } s m
    else if p.contentLength ≠ ullMax then .go { p with state := .bodyIdentity } s m 1
    else if !p.needsEof then notify cb .messageComplete { p with state := p.newMessage } s m
    else .go { p with state := .bodyEof } s m 1

/-- `case s_headers_almost_done` (http_parser.c:1547-1595).  `goto reexecute_byte` at the end continues with the case of the
state just set (`s_headers_done`): no callback of Pillow changes the state of the parser without pausing it. -/
def doHeadersAlmostDone (cb : CB σ) (p : HParser) (s : σ) (m : Marks) (ch : Byte) : Res σ :=
  if ch ≠ 10 then fail p s .strict
  else if p.fTrailing then notify cb .messageComplete { p with state := p.newMessage } s m
  else
    let p := { p with state := .headersDone, upgrade := p.fUpgrade }
    let r := cb .headersComplete p s
    if r.1.errno ≠ .ok then .ret r.1 r.2 0
    else doHeadersDone cb r.1 r.2 m ch

/-- `case s_header_field_start` (http_parser.c:1176-1223). -/
def doFieldStart (cb : CB σ) (p : HParser) (s : σ) (m : Marks) (ch : Byte) : Res σ :=
  if ch = 13 then .go { p with state := .headersAlmostDone } s m 1
  else if ch = 10 then doHeadersAlmostDone cb { p with state := .headersAlmostDone } s m ch
  else
    let c := token ch
    if c = 0 then fail p s .invalidHeaderToken
    else
      let m := { m with field := m.field.or (some []) }
      let h : HState := if c = 99 then .c else if c = 112 then .mProxyConnection else if c = 116 then .mTransferEncoding
        else if c = 117 then .mUpgrade else .general
      .go { p with index := 0, state := .field, hstate := h } s m 1

/-- `NAME[index]` of a string constant with its terminating 0; the index is not above `sizeof(NAME) - 1`. (The
constants http_parser.c:115-122 in the comparisons 1265-1316 and 1478-1502.) -/
def constAt (name : Bytes) (i : Nat) : Byte := (name ++ [0]).getD i 0

/-- One of the matching states (http_parser.c:1262-1319, 1469-1501): `index > sizeof(NAME)-1 || c != NAME[index]`,
`index == sizeof(NAME)-2`. -/
def matchStep (name : Bytes) (found : HState) (p : HParser) (c : Byte) : HParser :=
  let p := { p with index := p.index + 1 }
  if p.index > name.length ∨ c ≠ constAt name p.index then { p with hstate := .general }
  else if p.index = name.length - 1 then { p with hstate := found }
  else p

/-- The inner `switch` of `case s_header_field` (http_parser.c:1229-1331). -/
def fieldChar (p : HParser) (c ch : Byte) : HParser :=
  match p.hstate with
  | .general => p
  | .c => { p with index := p.index + 1, hstate := if c = 111 then .co else .general }
  | .co => { p with index := p.index + 1, hstate := if c = 110 then .con else .general }
  | .con => { p with index := p.index + 1, hstate := if c = 110 then .mConnection else if c = 116 then .mContentLength else .general }
  | .mConnection => matchStep b!"connection" .connection p c
  | .mProxyConnection => matchStep b!"proxy-connection" .connection p c
  | .mContentLength => matchStep b!"content-length" .contentLength p c
  | .mTransferEncoding => matchStep b!"transfer-encoding" .transferEncoding p c
  | .mUpgrade => matchStep b!"upgrade" .upgrade p c
  | .connection | .contentLength | .transferEncoding | .upgrade => if ch ≠ 32 then { p with hstate := .general } else p
  | _ => { p with bad := true }

/-- `case s_header_field` (http_parser.c:1225-1354). -/
def doField (cb : CB σ) (p : HParser) (s : σ) (m : Marks) (ch : Byte) : Res σ :=
  let c := token ch
  if c ≠ 0 then .go (fieldChar p c ch) s m 1
  else if ch = 58 then dataField cb { p with state := .valueStart } s m
  else if ch = 13 then dataField cb { p with state := .almostDone } s m
  else if ch = 10 then dataField cb { p with state := .fieldStart } s m
  else fail p s .invalidHeaderToken

/-- `case s_header_value_start` (http_parser.c:1356-1420). -/
def doValueStart (cb : CB σ) (p : HParser) (s : σ) (m : Marks) (ch : Byte) : Res σ :=
  if ch = 32 ∨ ch = 9 then .go p s m 1
  else
    let m := { m with value := m.value.or (some []) }
    let p := { p with state := .value, index := 0 }
    if ch = 13 then dataValue cb { p with hstate := .general, state := .almostDone } s m
    else if ch = 10 then dataValue cb { p with state := .fieldStart } s m
    else
      let c := lowerC ch
      match p.hstate with
      | .upgrade => .go { p with fUpgrade := true, hstate := .general } s m 1
      | .transferEncoding => .go { p with hstate := if c = 99 then .mChunked else .general } s m 1
      | .contentLength =>
        if !isNum ch then fail p s .invalidContentLength
        else .go { p with contentLength := ch.toNat - 48 } s m 1
      | .connection => .go { p with hstate := if c = 107 then .mKeepAlive else if c = 99 then .mClose else .general } s m 1
      | _ => .go { p with hstate := .general } s m 1

/-- `case s_header_almost_done` (http_parser.c:1512-1533). -/
def doAlmostDone (p : HParser) (s : σ) (m : Marks) (ch : Byte) : Res σ :=
  if ch ≠ 10 then fail p s .strict
  else
    let p := { p with state := .valueLws }
    match p.hstate with
    | .keepAlive => .go { p with fKeepAlive := true } s m 1
    | .close => .go { p with fClose := true } s m 1
    | .chunked => .go { p with fChunked := true } s m 1
    | _ => .go p s m 1

/-- One more digit: `t = content_length; t *= base; t += d;` and the overflow test (http_parser.c:1450-1463, 1745-1757). -/
def addDigit (p : HParser) (base d : Nat) : Option HParser :=
  let t := (p.contentLength * base + d) % 2 ^ 64
  if t < p.contentLength ∨ t = ullMax then none else some { p with contentLength := t }

/-- The inner `switch` of `case s_header_value` (http_parser.c:1437-1510); `none` is `HPE_INVALID_CONTENT_LENGTH`. -/
def valueChar (p : HParser) (c ch : Byte) : Option HParser :=
  match p.hstate with
  | .general => some p
  | .connection | .transferEncoding => some { p with bad := true }
  | .contentLength =>
    if ch = 32 then some p
    else if !isNum ch then none
    else addDigit p 10 (ch.toNat - 48)
  | .mChunked => some (matchStep b!"chunked" .chunked p c)
  | .mKeepAlive => some (matchStep b!"keep-alive" .keepAlive p c)
  | .mClose => some (matchStep b!"close" .close p c)
  | .chunked | .keepAlive | .close => some (if ch ≠ 32 then { p with hstate := .general } else p)
  | _ => some { p with state := .value, hstate := .general }

/-- `case s_header_value` (http_parser.c:1422-1510); for LF `CALLBACK_DATA_NOADVANCE` and `goto reexecute_byte` with the state
`s_header_almost_done`. -/
def doValue (cb : CB σ) (p : HParser) (s : σ) (m : Marks) (ch : Byte) : Res σ :=
  if ch = 13 then dataValue cb { p with state := .almostDone } s m
  else if ch = 10 then
    let p := { p with state := .almostDone }
    match m.value with
    | none => doAlmostDone p s m ch
    | some bs =>
      let r := cb (.value bs) (p.assert (p.errno == .ok)) s
      if r.1.errno ≠ .ok then .ret r.1 r.2 0 else doAlmostDone r.1 r.2 { m with value := none } ch
  else
    match valueChar p (lowerC ch) ch with
    | none => fail p s .invalidContentLength
    | some p => .go p s m 1

/-- `case s_body_identity` and, if this completes the body, `case s_message_done` (http_parser.c:1648-1692); `rest` are the bytes
from `p` to the end of the buffer. -/
def doBodyIdentity (cb : CB σ) (p : HParser) (s : σ) (m : Marks) (rest : Bytes) : Res σ :=
  let toRead := min p.contentLength rest.length
  let p := p.assert (p.contentLength ≠ 0 && p.contentLength ≠ ullMax)
  let m := { m with body := m.body.or (some []) }
  let p := { p with contentLength := p.contentLength - toRead }
  if p.contentLength = 0 then
    let p := { p with state := .messageDone }
    let r := cb (.body (m.body.getD [] ++ rest.take toRead)) (p.assert (p.errno == .ok)) s
    if r.1.errno ≠ .ok then .ret r.1 r.2 (toRead - 1)
    else
      -- `s_message_done`, with `p` at the last byte of the body
      let p := { r.1 with state := r.1.newMessage }
      let r := cb .messageComplete (p.assert (p.errno == .ok)) r.2
      if r.1.errno ≠ .ok then .ret r.1 r.2 toRead else .go r.1 r.2 { m with body := none } toRead
  else .go p s m toRead

/-- `case s_chunk_data` (http_parser.c:1796-1818). -/
def doChunkData (p : HParser) (s : σ) (m : Marks) (rest : Bytes) : Res σ :=
  let toRead := min p.contentLength rest.length
  let p := p.assert (p.fChunked && p.contentLength ≠ 0 && p.contentLength ≠ ullMax)
  let m := { m with body := m.body.or (some []) }
  let p := { p with contentLength := p.contentLength - toRead }
  .go (if p.contentLength = 0 then { p with state := .chunkDataAlmostDone } else p) s m toRead

/-- The `switch` (http_parser.c:644-1846) for the byte `ch`, the first of `rest`. -/
def switch (cb : CB σ) (p : HParser) (s : σ) (m : Marks) (ch : Byte) (rest : Bytes) : Res σ :=
  match p.state with
  | .dead => if ch = 13 ∨ ch = 10 then .go p s m 1 else fail p s .closedConnection
  | .startRes =>
    let p := { p with fChunked := false, fKeepAlive := false, fClose := false, fTrailing := false, fUpgrade := false, fSkipBody := false }
    let p := { p with contentLength := ullMax }
    if ch = 72 then notify cb .messageBegin { p with state := .resH } s m
    else if ch = 13 ∨ ch = 10 then notify cb .messageBegin p s m
    else fail p s .invalidConstant
  | .resH => if ch ≠ 84 then fail p s .strict else .go { p with state := .resHT } s m 1
  | .resHT => if ch ≠ 84 then fail p s .strict else .go { p with state := .resHTT } s m 1
  | .resHTT => if ch ≠ 80 then fail p s .strict else .go { p with state := .resHTTP } s m 1
  | .resHTTP => if ch ≠ 47 then fail p s .strict else .go { p with state := .firstMajor } s m 1
  | .firstMajor =>
    if !isNum ch then fail p s .invalidVersion else .go { p with major := ch.toNat - 48, state := .major } s m 1
  | .major =>
    if ch = 46 then .go { p with state := .firstMinor } s m 1
    else if !isNum ch then fail p s .invalidVersion
    else
      let p := { p with major := p.major * 10 + (ch.toNat - 48) }
      if p.major > 999 then fail p s .invalidVersion else .go p s m 1
  | .firstMinor =>
    if !isNum ch then fail p s .invalidVersion else .go { p with minor := ch.toNat - 48, state := .minor } s m 1
  | .minor =>
    if ch = 32 then .go { p with state := .firstStatus } s m 1
    else if !isNum ch then fail p s .invalidVersion
    else
      let p := { p with minor := p.minor * 10 + (ch.toNat - 48) }
      if p.minor > 999 then fail p s .invalidVersion else .go p s m 1
  | .firstStatus =>
    if !isNum ch then (if ch = 32 then .go p s m 1 else fail p s .invalidStatus)
    else .go { p with status := ch.toNat - 48, state := .status } s m 1
  | .status =>
    if !isNum ch then
      if ch = 32 then .go { p with state := .statusText } s m 1
      else if ch = 13 then .go { p with state := .lineAlmostDone } s m 1
      else if ch = 10 then .go { p with state := .fieldStart } s m 1
      else fail p s .invalidStatus
    else
      let p := { p with status := p.status * 10 + (ch.toNat - 48) }
      if p.status > 999 then fail p s .invalidStatus else .go p s m 1
  | .statusText =>
    if ch = 13 then .go { p with state := .lineAlmostDone } s m 1
    else if ch = 10 then .go { p with state := .fieldStart } s m 1
    else .go p s m 1
  | .lineAlmostDone => if ch ≠ 10 then fail p s .strict else .go { p with state := .fieldStart } s m 1
  | .fieldStart => doFieldStart cb p s m ch
  | .field => doField cb p s m ch
  | .valueStart => doValueStart cb p s m ch
  | .value => doValue cb p s m ch
  | .almostDone => doAlmostDone p s m ch
  | .valueLws =>
    if ch = 32 ∨ ch = 9 then .go { p with state := .valueStart } s m 1
    else doFieldStart cb { p with state := .fieldStart } s m ch
  | .headersAlmostDone => doHeadersAlmostDone cb p s m ch
  | .headersDone => doHeadersDone cb p s m ch
  | .bodyIdentity => doBodyIdentity cb p s m rest
  | .bodyEof => .go p s { m with body := m.body.or (some []) } rest.length
  | .messageDone => notify cb .messageComplete { p with state := p.newMessage } s m
  | .chunkSizeStart =>
    let p := p.assert (p.nread == 1 && p.fChunked)
    match unhexC ch with
    | none => fail p s .invalidChunkSize
    | some d => .go { p with contentLength := d, state := .chunkSize } s m 1
  | .chunkSize =>
    let p := p.assert p.fChunked
    if ch = 13 then .go { p with state := .chunkSizeAlmostDone } s m 1
    else match unhexC ch with
      | none => if ch = 59 ∨ ch = 32 then .go { p with state := .chunkParams } s m 1 else fail p s .invalidChunkSize
      | some d => match addDigit p 16 d with
        | none => fail p s .invalidContentLength
        | some p => .go p s m 1
  | .chunkParams =>
    let p := p.assert p.fChunked
    if ch = 13 then .go { p with state := .chunkSizeAlmostDone } s m 1 else .go p s m 1
  | .chunkSizeAlmostDone =>
    let p := p.assert p.fChunked
    if ch ≠ 10 then fail p s .strict
    else
      let p := { p with nread := 0 }
      if p.contentLength = 0 then .go { p with fTrailing := true, state := .fieldStart } s m 1
      else .go { p with state := .chunkData } s m 1
  | .chunkData => doChunkData p s m rest
  | .chunkDataAlmostDone =>
    let p := p.assert (p.fChunked && p.contentLength == 0)
    if ch ≠ 13 then fail p s .strict else dataBody cb { p with state := .chunkDataDone } s m
  | .chunkDataDone =>
    let p := p.assert p.fChunked
    if ch ≠ 10 then fail p s .strict else .go { p with nread := 0, state := .chunkSizeStart } s m 1

/-- The callbacks for the marks that are left over (http_parser.c:1848-1867). -/
def leftover (cb : CB σ) (p : HParser) (s : σ) (m : Marks) : HParser × σ :=
  let p := p.assert ((if m.field.isSome then 1 else 0) + (if m.value.isSome then 1 else 0) + (if m.body.isSome then 1 else 0) ≤ 1)
  let r := match m.field with
    | none => (p, s)
    | some bs => cb (.field bs) (p.assert (p.errno == .ok)) s
  if r.1.errno ≠ .ok then r
  else
    let r := match m.value with
      | none => r
      | some bs => cb (.value bs) (r.1.assert (r.1.errno == .ok)) r.2
    if r.1.errno ≠ .ok then r
    else match m.body with
      | none => r
      | some bs => cb (.body bs) (r.1.assert (r.1.errno == .ok)) r.2

/-- The loop over the buffer (http_parser.c:632-1847): `data` is what is left, `pos` what has been consumed. -/
def execLoop (cb : CB σ) (p : HParser) (s : σ) (m : Marks) (data : Bytes) (pos : Nat) : HParser × σ × Nat :=
  match data with
  | [] =>
    let r := leftover cb p s m
    (r.1, r.2, pos)
  | ch :: tl =>
    let p := if p.state.isHeader then { p with nread := p.nread + 1 } else p
    if p.state.isHeader && p.nread > maxHeaderSize then ({ p with errno := .headerOverflow }, s, pos)
    else match switch cb p s m ch (ch :: tl) with
      | .ret p s n => (p, s, pos + n)
      | .go p s m n => execLoop cb p s (m.adv ((ch :: tl).take n)) (tl.drop (n - 1)) (pos + n)
termination_by data.length
decreasing_by simp; omega

/-- `http_parser_execute` (http_parser.c:563-1875); the result is the number of consumed bytes. -/
def execute (cb : CB σ) (p : HParser) (s : σ) (data : Bytes) : HParser × σ × Nat :=
  if p.errno ≠ .ok then (p, s, 0)
  else match data with
  | [] =>
    match p.state with
    | .bodyEof =>
      let r := cb .messageComplete p s
      (r.1, r.2, 0)
    | .dead | .startRes => (p, s, 0)
    | _ => ({ p with errno := .invalidEofState }, s, 1)
  | data =>
    let m : Marks := { field := if p.state = .field then some [] else none, value := if p.state = .value then some [] else none }
    execLoop cb p s m data 0

end Pillow
