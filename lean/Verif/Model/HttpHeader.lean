import Verif.Model.ByteArrayHelpers
/-!
# Model of `pillowcore/HttpHeader.{h,cpp}`
-/
namespace Pillow

/-- `Pillow::HttpHeader` (HttpHeader.h:33-56): a pair of byte arrays. -/
structure Header where
  name : Bytes
  value : Bytes
  deriving Repr, DecidableEq, Inhabited

/-- `HttpHeaderCollection`, a `QVector<HttpHeader>` (HttpHeader.h:66). -/
abbrev Headers := List Header

/-- The colon search loop (HttpHeader.cpp:27-31): index of the first `:` or the length. -/
def colonPos : Bytes → Nat
  | [] => 0
  | c :: cs => if c == 58 then 0 else colonPos cs + 1

/-- The space skipping loop after the colon (HttpHeader.cpp:38-42). -/
def skipSpaces : Bytes → Bytes
  | [] => []
  | c :: cs => if c != 32 then c :: cs else skipSpaces cs

/-- `HttpHeader::setFromRawHeader(rawHeader, len)` on a non-null literal of `len` bytes
(HttpHeader.cpp:13-47).  `len <= 0` clears both parts; a header without colon leaves `second` as it was,
i.e. empty in a freshly constructed header (constructor at HttpHeader.h:42). -/
def Header.fromRaw (raw : Bytes) : Header :=
  if raw.length ≤ 0 then ⟨[], []⟩
  else
    let k := colonPos raw
    if k < raw.length then ⟨raw.take k, skipSpaces (raw.drop (k + 1))⟩
    else ⟨raw.take k, []⟩

/-- `getFieldValue(const char*, int)` (HttpHeader.cpp:67-75); the shared null byte array is `[]`. -/
def getFieldValue : Headers → Bytes → Bytes
  | [], _ => []
  | h :: hs, name => if asciiEqualsCI h.name name then h.value else getFieldValue hs name

/-- `getFieldValue(const LowerCaseToken&)` (HttpHeader.cpp:77-85). -/
def getFieldValueTok : Headers → Bytes → Bytes
  | [], _ => []
  | h :: hs, name => if asciiEqualsCILower h.name name then h.value else getFieldValueTok hs name

/-- `getFieldValues` (HttpHeader.cpp:87-96): the loop appends to `result`. -/
def getFieldValuesLoop : Headers → Bytes → List Bytes → List Bytes
  | [], _, result => result
  | h :: hs, name, result =>
    getFieldValuesLoop hs name (if asciiEqualsCI h.name name then result ++ [h.value] else result)

/-- `getFieldValues` (HttpHeader.cpp:87-96). -/
def getFieldValues (hs : Headers) (name : Bytes) : List Bytes := getFieldValuesLoop hs name []

/-- `testFieldValue` (HttpHeader.cpp:98-110). -/
def testFieldValue : Headers → Bytes → Bytes → Bool
  | [], _, _ => false
  | h :: hs, name, value =>
    if h.name.length != name.length || h.value.length != value.length then testFieldValue hs name value
    else if asciiEqualsCI h.name name && asciiEqualsCI h.value value then true
    else testFieldValue hs name value

/-- Outcome of the copy loop of `operator+=` on explicit storage. (HttpHeader.cpp:53-65.) -/
inductive CopyOutcome where
  | done (storage : Headers)
  | outOfBounds
  deriving Repr, DecidableEq

/-- The copy loop `while (src != srcE) *(dest++) = *(src++)` (HttpHeader.cpp:56-62).
`dst` is the element storage of `*this` after `resize`; the source elements are read with `rd` (from another
vector, or from `dst` itself when `l` aliases `*this`), `n` elements are copied to positions `d, d+1, …`.
A write past the storage is `outOfBounds` (undefined behaviour in C++). -/
def copyLoop (rd : Headers → Nat → Header) (dst : Headers) (s d : Nat) : Nat → CopyOutcome
  | 0 => .done dst
  | n + 1 =>
    if d < dst.length then copyLoop rd (dst.set d (rd dst s)) (s + 1) (d + 1) n else .outOfBounds

/-- `a += l` for a distinct vector `l` (HttpHeader.cpp:53-65): `resize(size() + l.size())` then copy.
`operator+` and `operator<<` (HttpHeader.h:94-97) are this function. -/
def appendHeaders (a l : Headers) : CopyOutcome :=
  copyLoop (fun _ i => l[i]!) (a ++ List.replicate l.length ⟨[], []⟩) 0 a.length l.length

/-- `a += a` (same lines, `l` is `*this`): `l.begin()`/`l.end()` are evaluated after `resize`, so the source
range is the whole resized storage. (HttpHeader.cpp:53-65.) -/
def appendSelf (a : Headers) : CopyOutcome :=
  let dst := a ++ List.replicate a.length ⟨[], []⟩
  copyLoop (fun cur i => cur[i]!) dst 0 a.length dst.length

end Pillow
