import Verif.Model.ByteArrayHelpers
import Verif.Model.HttpHeader
/-!
# Model of `Pillow::HttpRequestWriter` (pillowcore/HttpClient.cpp:103-186)

The device is an append-only list of written blocks.  `_builder` is a plain `QByteArray`, whose contents are modelled;
its capacity (`reserve(8192)`, and the choice between `clear()` and setting the size to 0) has no other effect.
-/
namespace Pillow

/-- `_device` (set or not) and `_builder` (HttpClient.h:55-57). -/
structure Writer where
  hasDevice : Bool := false
  builder : Bytes := []
  deriving Repr, DecidableEq

/-- A request as passed to `write`. (HttpClient.h:54.) -/
structure OutRequest where
  method : Bytes
  path : Bytes
  headers : Headers
  data : Bytes
  deriving Repr, DecidableEq

/-- `setDevice` (HttpClient.cpp:182-186). -/
def Writer.setDevice (w : Writer) (set : Bool) : Writer := { w with hasDevice := set }

/-- The loop over the headers (HttpClient.cpp:147-148). -/
def writerHeaders (b : Bytes) : Headers → Bytes
  | [] => b
  | h :: hs => writerHeaders (b ++ h.name ++ b!": " ++ h.value ++ b!"\r\n") hs

/-- `write` (HttpClient.cpp:134-180): the new state and the blocks written to the device.  The sizes are `int`s: the
length of a `QByteArray` is below 2^31. -/
def Writer.write (w : Writer) (r : OutRequest) : Option (Writer × List Bytes) :=
  if !w.hasDevice then some (w, [])
  else
    let b := w.builder ++ r.method ++ [32] ++ r.path ++ b!" HTTP/1.1\r\n"
    let b := writerHeaders b r.headers
    let b := if !r.data.isEmpty then (appendNumber 32 10 (b ++ b!"Content-Length: ") r.data.length).map (· ++ b!"\r\n") else some b
    b.map fun b =>
      let b := b ++ b!"\r\n"
      let out := if r.data.isEmpty then (b, [b])
        else if r.data.length < 4096 then (b ++ r.data, [b ++ r.data])
        else (b, [b, r.data])
      let builder := if out.1.length > 16384 then [] else out.1.take 0
      ({ w with builder }, out.2)

/-- `get`, `head`, `post`, `put`, `deleteResource` (HttpClient.cpp:109-132). -/
def Writer.get (w : Writer) (path : Bytes) (headers : Headers) := w.write ⟨b!"GET", path, headers, []⟩
/-- `head` (HttpClient.cpp:113-116). -/
@[inherit_doc Writer.get] def Writer.head (w : Writer) (path : Bytes) (headers : Headers) := w.write ⟨b!"HEAD", path, headers, []⟩
/-- `post` (HttpClient.cpp:118-121). -/
@[inherit_doc Writer.get] def Writer.post (w : Writer) (path : Bytes) (headers : Headers) (data : Bytes) := w.write ⟨b!"POST", path, headers, data⟩
/-- `put` (HttpClient.cpp:123-126). -/
@[inherit_doc Writer.get] def Writer.put (w : Writer) (path : Bytes) (headers : Headers) (data : Bytes) := w.write ⟨b!"PUT", path, headers, data⟩
/-- `deleteResource` (HttpClient.cpp:128-131). -/
@[inherit_doc Writer.get] def Writer.deleteResource (w : Writer) (path : Bytes) (headers : Headers) := w.write ⟨b!"DELETE", path, headers, []⟩

/-- One call on the writer. (HttpClient.h:44-54.) -/
inductive WCall where
  | setDevice (set : Bool)
  | get (path : Bytes) (headers : Headers)
  | head (path : Bytes) (headers : Headers)
  | post (path : Bytes) (headers : Headers) (data : Bytes)
  | put (path : Bytes) (headers : Headers) (data : Bytes)
  | deleteResource (path : Bytes) (headers : Headers)
  | write (r : OutRequest)
  deriving Repr, DecidableEq

/-- The code behind a call (HttpClient.cpp:103-186). -/
def Writer.call (w : Writer) : WCall → Option (Writer × List Bytes)
  | .setDevice set => some (w.setDevice set, [])
  | .get p hs => w.get p hs
  | .head p hs => w.head p hs
  | .post p hs d => w.post p hs d
  | .put p hs d => w.put p hs d
  | .deleteResource p hs => w.deleteResource p hs
  | .write r => w.write r

/-- A sequence of calls and all that is written to the devices, in order. (HttpClient.cpp:103-186.) -/
def Writer.run (w : Writer) : List WCall → Option (Writer × List Bytes)
  | [] => some (w, [])
  | c :: cs => do
    let (w, out) ← w.call c
    let (w, out') ← w.run cs
    some (w, out ++ out')

end Pillow
