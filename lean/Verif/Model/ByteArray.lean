import Verif.Model.HttpHeader
/-!
# Model of `pillowcore/private/ByteArray.h` (the response builder)

A `Pillow::ByteArray` is its allocated storage (`capacity()` bytes) and its `size()`.  `memcpy` into the
storage is bounds-checked: `none` is a write past the capacity.
-/
namespace Pillow

/-- A `Pillow::ByteArray` (private/ByteArray.h:26-166): the bytes allocated, and how many of them are in use. -/
structure BA where
  store : Bytes
  size : Nat
  deriving Repr, DecidableEq

/-- `capacity()`. (private/ByteArray.h:68, 85; Qt.) -/
def BA.capacity (b : BA) : Nat := b.store.length
/-- The byte string the object stands for (`constData()`, `size()`). (private/ByteArray.h:71, 87; Qt.) -/
def BA.contents (b : BA) : Bytes := b.store.take b.size

/-- `memcpy(d, src, len)` / `d[0] = …` at offset `off` of the storage. (private/ByteArray.h:72-75, 87, 159.) -/
def memcpy (store : Bytes) (off : Nat) (src : Bytes) : Option Bytes :=
  if off + src.length ≤ store.length then some (store.take off ++ src ++ store.drop (off + src.length)) else none

/-- `QByteArray::append` of Qt: reallocates if needed; `slack` is the number of spare bytes Qt happens to
allocate beyond what is needed (any growth policy). (Called at private/ByteArray.h:79, 91, 103, 115, 127, 139, 151,
163.) -/
def BA.qtAppend (slack : Nat) (b : BA) (s : Bytes) : BA :=
  ⟨b.contents ++ s ++ List.replicate slack 0, b.size + s.length⟩

/-- The overloads `append(QLatin1Literal)`, `append(Token)`, `append(LowerCaseToken)`, `append(QByteArray)`,
`append(const char(&)[N])`, `append(const char*, int)`, `append(char)` (private/ByteArray.h:83-165), which have
the same body. -/
def BA.append (slack : Nat) (b : BA) (s : Bytes) : Option BA :=
  if b.capacity ≥ b.size + s.length then do
    let st ← memcpy b.store b.size s
    some ⟨st, b.size + s.length⟩
  else some (b.qtAppend slack s)

/-- `append(const HttpHeader&)` (private/ByteArray.h:65-81). -/
def BA.appendHeader (slack : Nat) (b : BA) (h : Header) : Option BA :=
  let requiredSpace := h.name.length + 2 + h.value.length + 2
  if b.capacity ≥ b.size + requiredSpace then do
    let d := b.size
    let st ← memcpy b.store d h.name
    let d := d + h.name.length
    let st ← memcpy st d b!": "
    let d := d + 2
    let st ← memcpy st d h.value
    let d := d + h.value.length
    let st ← memcpy st d b!"\r\n"
    some ⟨st, b.size + requiredSpace⟩
  else
    some ((((b.qtAppend slack h.name).qtAppend slack b!": ").qtAppend slack h.value).qtAppend slack b!"\r\n")

/-- One call on the builder. (private/ByteArray.h:65-165.) -/
inductive BAOp where
  | bytes (s : Bytes)
  | header (h : Header)
  deriving Repr, DecidableEq

/-- A sequence of append calls; `slack i` is Qt's allocation slack at the `i`-th call. The calls at
HttpConnection.cpp:454-541 are such a sequence. -/
def BA.run (slack : Nat → Nat) (b : BA) : List BAOp → Option BA
  | [] => some b
  | .bytes s :: ops => do (← b.append (slack 0) s).run (fun i => slack (i + 1)) ops
  | .header h :: ops => do (← b.appendHeader (slack 0) h).run (fun i => slack (i + 1)) ops

end Pillow
