import Verif.Model.HttpConnection
/-!
# Model of the memory of the request buffer (pillowcore/HttpConnection.cpp:139-353, ByteArrayHelpers.h:57-110)

`_requestBuffer` is used as raw memory: bytes are read from the device to `data() + size()`, the parser runs over it with pointers, the callback of the parser compares a name in it, NULs are stored behind the
fields, and the request fields are made `QByteArray`s that point into it. Here is which positions are touched by each piece of code, and how much memory is allocated.

Simplifications:
* `reserve` allocates exactly what is asked for (a `QByteArray` of capacity `n` has `n + 1` bytes: there is one more for the NUL); a new array (`right`) has a capacity of its size; `clear` leaves none.
* The NUL behind the content (lines 170, and that which every `QByteArray` has) is not part of the bytes.
* What accessors read later through the `QByteArray`s is not modelled here (see `viewsValid` in Model/HttpConnection).
-/
namespace Pillow

/-- A use of the memory of the buffer. (HttpConnection.cpp:157-186, 199-213, 254-291, 420-430.) -/
inductive Access where
  /-- Bytes are stored behind the content, and a NUL behind them (lines 168-170). -/
  | fill (bs : Bytes)
  /-- The parser runs from this position to the end of the content (line 176). -/
  | scan (off : Nat)
  /-- A NUL is stored at this position (ByteArrayHelpers.h:72, 90). -/
  | nul (i : Nat)
  /-- These bytes are read, or made readable by `setRawData` (ByteArrayHelpers.h:57-110, line 425). -/
  | view (s : Slice)
  deriving Repr, DecidableEq

/-- `setFromRawDataAndNullterm` (ByteArrayHelpers.h:57-92). -/
def nulTermAccess (s : Slice) : List Access := if s.len = 0 then [] else [.view s, .nul (s.start + s.len)]

/-- `setupRequestHeaders` (HttpConnection.cpp:199-213). -/
def setupAccess (refs : List FieldRef) : List Access := refs.flatMap fun r => nulTermAccess r.name ++ nulTermAccess r.value

/-- Lines 264-289 of `transitionToSendingHeaders`. (HttpConnection.cpp:264-289.) -/
def prepareAccess (p : Parser) (clen : Int) : List Access :=
  (if p.query.len = 0 then nulTermAccess p.uri else [.view p.uri]) ++
  nulTermAccess p.method ++ nulTermAccess p.fragment ++ nulTermAccess p.path ++ nulTermAccess p.query ++ nulTermAccess p.version ++
  [.view ⟨p.bodyStart, clen.toNat⟩]

/-- What is touched by the instruction that is executed next. (HttpConnection.cpp:157-298, 420-430.) -/
def accesses : Instr → Conn → List Access
  | .processInput, c =>
    if c.st ≠ .receivingHeaders ∧ c.st ≠ .receivingContent then []
    else match c.dev with
    | none => []
    | some d =>
      (if d.inp = [] then [] else [.fill d.inp]) ++
      (if c.st = .receivingHeaders ∧ c.buf ++ d.inp ≠ [] then
        .scan c.parser.nread :: ((c.parser.execute (c.buf ++ d.inp) c.parser.nread).fields.drop c.parser.fields.length).map fun f => .view f.name
      else [])
  | .recvContent, c => if c.st = .receivingContent then [] else setupAccess c.refs
  | .sendHeaders, c =>
    if c.st = .sendingHeaders then []
    else (if c.hdrN ≠ c.refs.length then setupAccess c.refs else []) ++ prepareAccess c.parser c.clen
  | _, _ => []

/-- `QByteArray::reserve`: what is allocated afterwards. Qt; used at HttpConnection.cpp:166, 239. -/
def reserve (capacity n : Nat) : Nat := if capacity < n then n else capacity

/-- `_requestBuffer.capacity()` after an instruction (lines 165-166 of `processInput`, 239 of `transitionToReceivingContent`, 333-335 of `transitionToCompleted`). (HttpConnection.cpp:165-166, 239, 333-335.) -/
def capacityAfter : Instr → Conn → Nat → Nat
  | .processInput, c, cap =>
    if c.st ≠ .receivingHeaders ∧ c.st ≠ .receivingContent then cap
    else match c.dev with
    | none => cap
    | some d => if d.inp = [] then cap else reserve cap (c.buf.length + d.inp.length + 1)
  | .recvContent, c, cap =>
    if c.st ≠ .receivingContent ∧ c.recvContent.2 = [.processInput] then reserve cap (c.parser.bodyStart + c.recvContent.1.clen.toNat + 1) else cap
  | .completedRest, c, cap =>
    if (c.buf.length : Int) - c.parser.bodyStart - c.clen > 0 then c.completedRest.1.buf.length else if cap ≤ maxHeaderLength then cap else 0
  | _, _, cap => cap

/-- … and after `initialize` (lines 146-147). (HttpConnection.cpp:146-147.) -/
def capacityAfterInit (cap : Nat) : Nat := if cap ≤ maxHeaderLength then cap else 0

/-- The capacity after any step. (HttpConnection.cpp:139-353.) -/
def Conf.capacityAfter (s : Conf) (l : Label) (cap : Nat) : Nat :=
  match l, s.stack with
  | .tau _, i :: _ => Pillow.capacityAfter i s.c cap
  | .init, _ => capacityAfterInit cap
  | _, _ => cap

/-- The assertions of `thin_http_parser_execute` about positions (parser.c:79, 1206-1211). `nread` is checked before the last byte is added (line 1215). -/
def Parser.asserted (s : Parser) (buffer : Bytes) (off : Nat) : Prop :=
  let s' := s.execute buffer off
  off ≤ buffer.length ∧ (s'.nread - if s'.bodyStart ≠ 0 then 1 else 0) ≤ buffer.length ∧ s'.bodyStart ≤ buffer.length ∧ s'.mark < buffer.length ∧
  s'.fieldLen ≤ buffer.length ∧ s'.fieldStart < buffer.length

end Pillow
