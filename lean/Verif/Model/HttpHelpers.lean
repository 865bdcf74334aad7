import Verif.Model.ByteArrayHelpers
/-!
# Model of `pillowcore/HttpHelpers.cpp`
-/
namespace Pillow

/-- `getStatusCodeAndMessage` (HttpHelpers.cpp:28-76); `none` is the `NULL` return. -/
def getStatusCodeAndMessage (statusCode : Int) : Option Bytes :=
  match statusCode with
  | 100 => some b!"100 Continue"
  | 101 => some b!"101 Switching Protocols"
  | 200 => some b!"200 OK"
  | 201 => some b!"201 Created"
  | 202 => some b!"202 Accepted"
  | 203 => some b!"203 Non-Authoritative Information"
  | 204 => some b!"204 No Content"
  | 205 => some b!"205 Reset Content"
  | 206 => some b!"206 Partial Content"
  | 300 => some b!"300 Multiple Choices"
  | 301 => some b!"301 Moved Permanently"
  | 302 => some b!"302 Found"
  | 303 => some b!"303 See Other"
  | 304 => some b!"304 Not Modified"
  | 305 => some b!"305 Use Proxy"
  | 307 => some b!"307 Temporary Redirect"
  | 400 => some b!"400 Bad Request"
  | 401 => some b!"401 Unauthorized"
  | 403 => some b!"403 Forbidden"
  | 404 => some b!"404 Not Found"
  | 405 => some b!"405 Method Not Allowed"
  | 406 => some b!"406 Not Acceptable"
  | 407 => some b!"407 Proxy Authentication Required"
  | 408 => some b!"408 Request Timeout"
  | 409 => some b!"409 Conflict"
  | 410 => some b!"410 Gone"
  | 411 => some b!"411 Length Required"
  | 412 => some b!"412 Precondition Failed"
  | 413 => some b!"413 Request Entity Too Large"
  | 414 => some b!"414 Request-URI Too Long"
  | 415 => some b!"415 Unsupported Media Type"
  | 416 => some b!"416 Requested Range Not Satisfiable"
  | 417 => some b!"417 Expectation Failed"
  | 500 => some b!"500 Internal Server Error"
  | 501 => some b!"501 Not Implemented"
  | 502 => some b!"502 Bad Gateway"
  | 503 => some b!"503 Service Unavailable"
  | 504 => some b!"504 Gateway Timeout"
  | 505 => some b!"505 HTTP Version Not Supported"
  | _ => none

/-- `getStatusMessage` (HttpHelpers.cpp:78-82): the pointer is moved past the three digits and the space. -/
def getStatusMessage (statusCode : Int) : Option Bytes :=
  match getStatusCodeAndMessage statusCode with
  | none => none
  | some m => some (m.drop 4)

/-- The fields of the UTC date-time that `getHttpDate` reads.  The conversion `toUTC()` and the calendar
computations of `QDate` are Qt's and are not modelled. (HttpHelpers.cpp:92-99.) -/
structure DateTime where
  dayOfWeek : Nat
  day : Nat
  month : Nat
  year : Int
  hour : Nat
  minute : Nat
  second : Nat
  deriving Repr, DecidableEq

/-- `dayNames` (HttpHelpers.cpp:89); index 0 is `NULL`, so it and every index past the end is undefined. -/
def dayNames : List (Option Bytes) :=
  [none, some b!"Mon", some b!"Tue", some b!"Wed", some b!"Thu", some b!"Fri", some b!"Sat", some b!"Sun"]

/-- `monthNames` (HttpHelpers.cpp:90). -/
def monthNames : List (Option Bytes) :=
  [none, some b!"Jan", some b!"Feb", some b!"Mar", some b!"Apr", some b!"May", some b!"Jun", some b!"Jul",
   some b!"Aug", some b!"Sep", some b!"Oct", some b!"Nov", some b!"Dec"]

/-- `intNames` (HttpHelpers.cpp:91): the strings "00" … "60". -/
def intNames : List (Option Bytes) :=
  [b!"00", b!"01", b!"02", b!"03", b!"04", b!"05", b!"06", b!"07", b!"08", b!"09",
   b!"10", b!"11", b!"12", b!"13", b!"14", b!"15", b!"16", b!"17", b!"18", b!"19",
   b!"20", b!"21", b!"22", b!"23", b!"24", b!"25", b!"26", b!"27", b!"28", b!"29",
   b!"30", b!"31", b!"32", b!"33", b!"34", b!"35", b!"36", b!"37", b!"38", b!"39",
   b!"40", b!"41", b!"42", b!"43", b!"44", b!"45", b!"46", b!"47", b!"48", b!"49",
   b!"50", b!"51", b!"52", b!"53", b!"54", b!"55", b!"56", b!"57", b!"58", b!"59", b!"60"].map some

/-- Array access `names[i]`; `none` is a null or out-of-range entry (undefined behaviour in C++).
(HttpHelpers.cpp:88-99.) -/
def nameAt (t : List (Option Bytes)) (i : Nat) : Option Bytes := (t[i]?).join

/-- `getHttpDate` (HttpHelpers.cpp:87-102). -/
def getHttpDate (dt : DateTime) : Option Bytes := do
  let wd ← nameAt dayNames dt.dayOfWeek
  let d ← nameAt intNames dt.day
  let m ← nameAt monthNames dt.month
  let httpDate := wd ++ b!", " ++ d ++ b!" " ++ m ++ b!" "
  let httpDate ← appendNumber 32 10 httpDate dt.year
  let h ← nameAt intNames dt.hour
  let mi ← nameAt intNames dt.minute
  let s ← nameAt intNames dt.second
  some (httpDate ++ b!" " ++ h ++ b!":" ++ mi ++ b!":" ++ s ++ b!" GMT")

/-- `QString::endsWith(suffix, Qt::CaseInsensitive)` on byte strings: Qt folds Unicode case; here only ASCII
letters are folded.  All suffixes tested by the code are ASCII, so the two agree except for the Kelvin sign and
the long s (U+212A, U+017F), which Qt folds to `k` and `s`. Used at HttpHelpers.cpp:10-17. -/
def endsWithCI (s suffix : Bytes) : Bool :=
  decide (suffix.length ≤ s.length) && asciiEqualsCI (s.drop (s.length - suffix.length)) suffix

/-- `getMimeTypeForFilename` (HttpHelpers.cpp:8-19). -/
def getMimeTypeForFilename (f : Bytes) : Bytes :=
  if endsWithCI f b!".html" then b!"text/html"
  else if endsWithCI f b!".jpg" then b!"image/jpeg"
  else if endsWithCI f b!".jpeg" then b!"image/jpeg"
  else if endsWithCI f b!".png" then b!"image/png"
  else if endsWithCI f b!".gif" then b!"image/gif"
  else if endsWithCI f b!".css" then b!"text/css"
  else if endsWithCI f b!".js" then b!"text/javascript"
  else if endsWithCI f b!".xml" then b!"text/xml"
  else b!"application/octet-stream"

end Pillow
