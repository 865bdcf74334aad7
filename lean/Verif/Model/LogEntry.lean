import Verif.Model.HttpHandler
/-!
# The text of a log entry (HttpHandlerLog)

`QString::arg` is modelled after its documentation and implementation in Qt (`findArgEscapes`, `replaceArgEscapes` in qstring.cpp): the place markers `%n`, `%nn`
and `%Ln` are looked for in the *present* text, including what earlier `arg` calls have inserted, and all markers with the lowest number are replaced.
Simplifications: texts are bytes (a byte from 0x80 on is no digit), and a marker `%Ln` gets the same text as `%n`.
-/
namespace Pillow

/-- `QChar::digitValue() != -1`. (Qt, behind HttpHandler.cpp:158-161, 177-182, 196-201.) -/
def isDigitValue (b : Byte) : Bool := 48 ≤ b && b ≤ 57

/-- Behind a `%`: the number of the place marker, if it is one, and the bytes it takes (`findArgEscapes`). (Qt, behind
HttpHandler.cpp:158-161, 177-182, 196-201.) -/
def digitsMarker : Bytes → Option (Nat × Nat)
  | d :: e :: _ => if isDigitValue d then if isDigitValue e then some (10 * (d.toNat - 48) + (e.toNat - 48), 2) else some (d.toNat - 48, 1) else none
  | [d] => if isDigitValue d then some (d.toNat - 48, 1) else none
  | [] => none

/-- Likewise, with an optional `L`. (Qt, behind HttpHandler.cpp:158-161, 177-182, 196-201.) -/
def marker : Bytes → Option (Nat × Nat)
  | 76 :: s => (digitsMarker s).map fun m => (m.1, m.2 + 1)
  | s => digitsMarker s

/-- The numbers of the place markers in a text, in order. (Qt, behind HttpHandler.cpp:158-161, 177-182, 196-201.) -/
def marks : Bytes → List Nat
  | [] => []
  | c :: s => match (if c = 37 then marker s else none) with
    | some m => m.1 :: marks s
    | none => marks s

/-- `d.min_escape`. (Qt, behind HttpHandler.cpp:158-161, 177-182, 196-201.) -/
def lowest : List Nat → Option Nat
  | [] => none
  | n :: l => match lowest l with
    | none => some n
    | some m => some (min n m)

/-- `replaceArgEscapes`; the first `skip` bytes belong to a marker that has been replaced. (Qt, behind
HttpHandler.cpp:158-161, 177-182, 196-201.) -/
def replaceMarks (n : Nat) (a : Bytes) : Nat → Bytes → Bytes
  | _, [] => []
  | k + 1, _ :: s => replaceMarks n a k s
  | 0, c :: s => match (if c = 37 then marker s else none) with
    | some m => if m.1 = n then a ++ replaceMarks n a m.2 s else c :: replaceMarks n a 0 s
    | none => c :: replaceMarks n a 0 s

/-- `QString::arg(a)`; without a place marker the text stays as it is and a warning is printed. (Qt;
HttpHandler.cpp:158-161, 177-182, 196-201.) -/
def qarg (s a : Bytes) : Bytes :=
  match lowest (marks s) with
  | none => s
  | some n => replaceMarks n a 0 s

/-- `QString(const QByteArray&)`: up to the first NUL. (Qt; HttpHandler.cpp:161, 180, 199.) -/
def qtext (s : Bytes) : Bytes := s.takeWhile (· ≠ 0)

/-- `QString::number` of an integer. (Qt; HttpHandler.cpp:181, 200.) -/
def numberText (n : Int) : Bytes := if n < 0 then 45 :: decimal n.natAbs else decimal n.natAbs

/-- `arg(elapsed / 1000.0, 3, 'f', 3)` for a number of milliseconds (which has at most three decimals, so that nothing
is rounded; at least five characters, so that nothing is padded). (Qt; HttpHandler.cpp:182, 201.) -/
def secondsText (ms : Nat) : Bytes := decimal (ms / 1000) ++ b!"." ++ decimal (ms % 1000 / 100) ++ decimal (ms % 100 / 10) ++ decimal (ms % 10)

/-- The format strings (HttpHandler.cpp:157, 175, 194). -/
def logFormat : LogKind → Bytes
  | .plain => b!"%1 - - [%2] \"%3 %4 %5\" %6 %7 %8"
  | .begin => b!"[BEGIN] %1 - - [%2] \"%3 %4 %5\" - - -"
  | .end_ => b!"[ END ] %1 - - [%2] \"%3 %4 %5\" %6 %7 %8"
  | .close => b!"[CLOSE] %1 - - [%2] \"%3 %4 %5\" %6 %7 %8"

/-- The entry built in `handleRequest`, `requestCompleted` and `requestClosed` (HttpHandler.cpp:157-160, 175-183, 194-202); `addr` is the text of the remote address, `date` that of
the time, `ms` the value of the timer. -/
def logEntry (kind : LogKind) (addr date : Bytes) (l : LogLine) (ms : Nat) : Bytes :=
  let s := qarg (qarg (qarg (qarg (qarg (logFormat kind) addr) date) (qtext l.method)) (qtext l.uri)) (qtext l.version)
  match kind with
  | .begin => s
  | _ => let o := l.outcome.getD (0, 0)
    qarg (qarg (qarg s (numberText o.1)) (numberText o.2)) (secondsText ms)

/-- What `log()` writes to the device for it (HttpHandler.cpp:218-227). -/
def logWrites (kind : LogKind) (addr date : Bytes) (l : LogLine) (ms : Nat) : Bytes := logEntry kind addr date l ms ++ b!"\n"

end Pillow
