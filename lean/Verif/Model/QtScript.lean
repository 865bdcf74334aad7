import Verif.Model.HttpHandler
/-!
# Model of `pillowcore/HttpHandlerQtScript.cpp`

The script engine is foreign code: of a script function only what it returns matters here, what it does to the connection is the environment of the connection machine.
Of a script file, `eval` says what evaluating its text gives: an error, or an object whose properties may be functions.

Simplifications: the debug output and the error texts are not modelled (`text` stands for them); evaluating a script has no effect but its result. The text of a script string is
represented by its UTF-8 bytes, as in Model/ByteArrayHelpers. Of script objects only the properties set by this code are modelled, not those inherited from the prototype.
-/
namespace Pillow

/-! ### What the function is called with -/

/-- A digit in `QUrl::fromPercentEncoding` (Qt 4, `q_fromPercentEncoding`): other characters are left as they are.
(Behind HttpHandlerQtScript.cpp:15, 85-91.) -/
def qtHex (c : Byte) : Byte :=
  if 48 ≤ c && c ≤ 57 then c - 48
  else if 97 ≤ c && c ≤ 102 then (c - 97) + 10
  else if 65 ≤ c && c ≤ 70 then (c - 65) + 10
  else c

/-- `QUrl::fromPercentEncoding` (Qt): `%` with at least two characters after it is replaced together with these; what
they are is not checked. (Used at HttpHandlerQtScript.cpp:15, 85-91.) -/
def qtPercentDecode : Bytes → Bytes
  | [] => []
  | c :: s =>
    if c = 37 then
      match s with
      | a :: b :: s' => ((qtHex a <<< 4) ||| qtHex b) :: qtPercentDecode s'
      | s => c :: s
    else c :: qtPercentDecode s

/-- A script object: its properties in the order in which they came to be. (`QScriptValue`;
HttpHandlerQtScript.cpp:12, 83, 94.) -/
abbrev ScriptObject := List (Bytes × Bytes)

/-- `QScriptValue::setProperty`. (Qt; HttpHandlerQtScript.cpp:15, 84-97.) -/
def ScriptObject.setProperty : ScriptObject → Bytes → Bytes → ScriptObject
  | [], n, v => [(n, v)]
  | (k, w) :: o, n, v => if k = n then (k, v) :: o else (k, w) :: ScriptObject.setProperty o n v

/-- `obj[n]` in the script; `none`: undefined. (Script code; the properties are set at HttpHandlerQtScript.cpp:15,
84-97.) -/
def ScriptObject.property (o : ScriptObject) (n : Bytes) : Option Bytes := (o.find? (·.1 = n)).map (·.2)

/-- `toScriptValue` (lines 10-18). -/
def headersToScript (hs : Headers) : ScriptObject := hs.foldl (fun o h => o.setProperty h.name (qtPercentDecode h.value)) []

/-- `fromScriptValue` (lines 20-27): the headers of a response, when the script passes an object for them. -/
def headersFromScript (o : ScriptObject) : Headers := o.map fun p => ⟨p.1, p.2⟩

/-- The properties of `requestObject` (lines 85-98). -/
structure ScriptRequest where
  method : Bytes
  uri : Bytes
  fragment : Bytes
  path : Bytes
  queryString : Bytes
  headers : ScriptObject
  content : Bytes
  queryParams : ScriptObject
  deriving Repr, DecidableEq

/-- `HttpHandlerQtScript::handleRequest` (lines 84-98). `items`: `QUrl(uri).queryItems()`. -/
def scriptRequest (items : Bytes → List (Bytes × Bytes)) (r : ReqView) : ScriptRequest :=
  { method := qtPercentDecode r.method, uri := qtPercentDecode r.uri, fragment := qtPercentDecode r.fragment, path := qtPercentDecode r.path
    queryString := qtPercentDecode r.query, headers := headersToScript r.headers, content := qtPercentDecode r.content
    queryParams := (items r.uri).foldl (fun o p => o.setProperty p.1 p.2) [] }

/-! ### What is done with its result -/

/-- What calling a script function gives (line 100): `isError()` with its text, or the truth value of the result. -/
inductive ScriptResult where
  | error (text : Bytes)
  | value (b : Bool)
  deriving Repr, DecidableEq

/-- `HttpHandlerQtScript::handleRequest` (lines 80-121), from where the script function has returned (102-113): `st` is the state of the connection then. `none`: the script function was
not a function and was not called (line 82). -/
def scriptAfter (st : CState) : Option ScriptResult → Reply
  | none => ⟨[], false⟩
  | some (.error text) => ⟨if st = .sendingHeaders then [.writeResponse 500 [] text] else [], true⟩
  | some (.value b) => ⟨[], b⟩

/-! ### HttpHandlerQtScriptFile -/

/-- Where `handleRequest` is (lines 150-188). -/
inductive LoadStep (F : Type) where
  | idle
  /-- Before `file.open` and `readAll` (156, 168). -/
  | opening
  /-- The script is evaluated and has the function; before the second `lastModified()` (184). -/
  | stamping (f : F)
  deriving Repr, DecidableEq

/-- What becomes of a request. (HttpHandlerQtScript.cpp:78-113, 149-188.) -/
inductive ScriptOutcome (F : Type) where
  /-- 500 (lines 158, 173, 180). -/
  | failed
  /-- `HttpHandlerQtScript::handleRequest` with this function. -/
  | ran (f : F)
  deriving Repr, DecidableEq

/-- A handler for a script file and the file system around it: to each name the time of the last modification and the
text. (HttpHandlerQtScript.cpp:119-188.) -/
structure ScriptHost (F : Type) where
  files : Bytes → Option (Nat × Bytes) := fun _ => none
  fileName : Bytes
  functionName : Bytes
  autoReload : Bool := true
  /-- `_lastModified`; `none`: not valid. -/
  lastModified : Option Nat := none
  /-- `_scriptFunction`. -/
  function : Option F := none
  pc : LoadStep F := .idle
  /-- What has become of the requests so far. -/
  outcomes : List (ScriptOutcome F) := []

/-- `QFileInfo(_fileName).lastModified()`. (HttpHandlerQtScript.cpp:151, 183.) -/
def ScriptHost.modified {F : Type} (h : ScriptHost F) : Option Nat := (h.files h.fileName).map (·.1)

/-- `a > b` on `QDateTime`s, the right one valid: an invalid one (no such file) is not later.
(HttpHandlerQtScript.cpp:151.) -/
def later : Option Nat → Nat → Bool
  | some a, b => decide (a > b)
  | none, _ => false

/-- What can happen: changes to files, the setters (HttpHandlerQtScript.cpp:128-147), requests (149-188). -/
inductive ScriptLabel where
  /-- Somebody writes, replaces or removes a file. -/
  | change (name : Bytes) (v : Option (Nat × Bytes))
  /-- `handleRequest` is called. -/
  | request
  /-- It goes on. -/
  | next
  | setFileName (n : Bytes)
  | setFunctionName (n : Bytes)
  | setAutoReload (b : Bool)
  deriving Repr, DecidableEq

/-- Line 187: the function is called (line 82: if there is none, the request is left alone, which does not happen here). -/
def ScriptHost.call {F : Type} (h : ScriptHost F) : ScriptHost F :=
  match h.function with
  | some f => { h with pc := .idle, outcomes := h.outcomes ++ [.ran f] }
  | none => { h with pc := .idle }

/-- The error responses (HttpHandlerQtScript.cpp:158-159, 172-173, 179-180). -/
def ScriptHost.fail {F : Type} (h : ScriptHost F) : ScriptHost F := { h with pc := .idle, outcomes := h.outcomes ++ [.failed] }

/-- One step. `handleRequest` is not entered while it is running, and the setters are called between requests; files
may change at any time. (HttpHandlerQtScript.cpp:128-188.) -/
def ScriptHost.step {F : Type} (eval : Bytes → Except Bytes (Bytes → Option F)) (h : ScriptHost F) : ScriptLabel → Option (ScriptHost F)
  | .change name v => some { h with files := fun n => if n = name then v else h.files n }
  | .setFileName n => if h.pc matches .idle then some { h with fileName := n } else none
  | .setFunctionName n => if h.pc matches .idle then some { h with functionName := n } else none
  | .setAutoReload b => if h.pc matches .idle then some { h with autoReload := b } else none
  | .request =>
    match h.pc with
    | .idle =>
      match h.lastModified with
      | none => some { h with pc := .opening }
      | some t => if h.autoReload && later h.modified t then some { h with pc := .opening } else some h.call
    | _ => none
  | .next =>
    match h.pc with
    | .idle => none
    | .opening =>
      match h.files h.fileName with
      | none => some h.fail
      | some v =>
        match eval v.2 with
        | .error _ => some h.fail
        | .ok object =>
          match object h.functionName with
          | none => some h.fail
          | some f => some { h with pc := .stamping f }
    | .stamping f => some ({ h with lastModified := h.modified, function := some f }.call)

/-- A sequence of steps (HttpHandlerQtScript.cpp:128-188). -/
def ScriptHost.run {F : Type} (eval : Bytes → Except Bytes (Bytes → Option F)) (h : ScriptHost F) : List ScriptLabel → Option (ScriptHost F)
  | [] => some h
  | l :: ls => (h.step eval l).bind fun h' => h'.run eval ls

end Pillow
