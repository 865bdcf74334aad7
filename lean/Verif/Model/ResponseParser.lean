import Verif.Model.HttpParser
import Verif.Model.HttpHeader
/-!
# Model of `Pillow::HttpResponseParser` (pillowcore/HttpClient.cpp:188-337, HttpClient.h:66-138)

The class itself, without a subclass that overrides the virtual functions (`HttpClient` is such a subclass, see
`Model/HttpClient.lean`).  `_parsing` only matters for calls made from such overrides.
-/
namespace Pillow

/-- What the virtual functions can observe: a call of `messageBegin()`, `headersComplete()` and `messageComplete()`, and what the
accessors show during it. (HttpClient.h:107-110.) -/
inductive Hook where
  | begin
  | headersComplete (status : Nat) (headers : Headers)
  | complete (status : Nat) (headers : Headers) (content : Bytes)
  deriving Repr, DecidableEq

/-- The members `_field`, `_value`, `_lastWasValue`, `_headers`, `_content` (HttpClient.h:128-137), and the record of the calls of the
virtual functions. -/
structure RespData where
  field : Bytes := []
  value : Bytes := []
  lastWasValue : Bool := false
  headers : Headers := []
  content : Bytes := []
  hooks : List Hook := []
  deriving Repr, DecidableEq, Inhabited

/-- `pushHeader` (HttpClient.cpp:328-337). -/
def RespData.push (d : RespData) : RespData :=
  if d.lastWasValue then { d with headers := d.headers ++ [⟨d.field, d.value⟩], field := [], value := [], lastWasValue := false } else d

/-- The static callbacks and the virtual functions they call (HttpClient.cpp:253-326). -/
def respCb : CB RespData
  | .messageBegin, p, d => (p, { d with headers := [], content := [], lastWasValue := false, hooks := d.hooks ++ [.begin] })
  | .field bs, p, d => let d := d.push; (p, { d with field := d.field ++ bs })
  | .value bs, p, d => (p, { d with value := d.value ++ bs, lastWasValue := true })
  | .headersComplete, p, d => let d := d.push; (p, { d with hooks := d.hooks ++ [.headersComplete p.status d.headers] })
  | .body bs, p, d => (p, { d with content := d.content ++ bs })
  | .messageComplete, p, d => (p.pause, { d with hooks := d.hooks ++ [.complete p.status d.headers d.content] })

/-- `HttpResponseParser`: the members at HttpClient.h:127-135. -/
structure RespParser where
  p : HParser := {}
  d : RespData := {}
  deriving Repr, DecidableEq, Inhabited

/-- `inject` (HttpClient.cpp:211-226): the new state and the number of consumed bytes; `injectEof` (HttpClient.cpp:228-241) is
`inject` with no data. -/
def RespParser.inject (r : RespParser) (data : Bytes) : RespParser × Nat :=
  let x := execute respCb r.p r.d data
  let p := if x.1.errno = .paused then { x.1 with errno := .ok } else x.1
  (⟨p, x.2.1⟩, x.2.2)

/-- `injectEof` (HttpClient.cpp:225-237). -/
@[inherit_doc RespParser.inject] def RespParser.injectEof (r : RespParser) : RespParser := (r.inject []).1

/-- `clear` outside of callbacks (HttpClient.cpp:243-250). -/
def RespParser.clear (r : RespParser) : RespParser := ⟨r.p.init, { r.d with headers := [], content := [] }⟩

/-- `hasError` (HttpClient.h:92). -/
def RespParser.hasError (r : RespParser) : Bool := !(r.p.errno == .ok || r.p.errno == .paused)

/-- `statusCode`, `headers`, `content`, `shouldKeepAlive`, `completesOnEof` (HttpClient.h:97-107). -/
def RespParser.statusCode (r : RespParser) : Nat := r.p.status
/-- (HttpClient.h:96.) -/
@[inherit_doc RespParser.statusCode] def RespParser.headers (r : RespParser) : Headers := r.d.headers
/-- (HttpClient.h:97.) -/
@[inherit_doc RespParser.statusCode] def RespParser.content (r : RespParser) : Bytes := r.d.content
/-- (HttpClient.h:100.) -/
@[inherit_doc RespParser.statusCode] def RespParser.shouldKeepAlive (r : RespParser) : Bool := r.p.shouldKeepAlive
/-- (HttpClient.h:103.) -/
@[inherit_doc RespParser.statusCode] def RespParser.completesOnEof (r : RespParser) : Bool := r.p.needsEof

end Pillow
