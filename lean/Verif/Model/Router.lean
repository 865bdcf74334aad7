import Verif.Model.HttpHandler
/-!
# Model of `pillowcore/HttpHandlerSimpleRouter.{h,cpp}`

`QString` is a byte string, as in the rest of the model.  `QRegExp` is a library class: the router is a function of an
arbitrary engine `Engine`, and `greedyEngine` is one that understands the expressions the router builds.
-/
namespace Pillow

/-- What `\w` stands for.  On ASCII it is letters, digits and underscore; beyond that it is up to Qt's Unicode tables.
(Qt's regular expressions; HttpHandlerSimpleRouter.cpp:195, 209.) -/
structure Words where
  word : Byte → Bool
  ascii : ∀ b, b < 128 → word b = (decide (48 ≤ b ∧ b ≤ 57) || decide (65 ≤ b ∧ b ≤ 90) || decide (97 ≤ b ∧ b ≤ 122) || b == 95)

/-- The loop `while (pos >= 0) pos = regex.indexIn(path, pos) …` with the expression `MARK(\w+)`
(HttpHandlerSimpleRouter.cpp:195-206, 209-219): the names behind the marks, from left to right. -/
def markNames (w : Byte → Bool) (mark : Byte) : Bytes → List Bytes
  | [] => []
  | b :: bs =>
    if b = mark ∧ bs.takeWhile w ≠ [] then bs.takeWhile w :: markNames w mark (bs.dropWhile w)
    else markNames w mark bs
termination_by p => p.length
decreasing_by
  · have := (List.dropWhile_sublist w (l := bs)).length_le; simp; omega
  · simp

/-- `path.replace(regex, replacement)` with the same expression (lines 207, 220).  The replacements contain no
back-references. -/
def markReplace (w : Byte → Bool) (mark : Byte) (repl : Bytes) : Bytes → Bytes
  | [] => []
  | b :: bs =>
    if b = mark ∧ bs.takeWhile w ≠ [] then repl ++ markReplace w mark repl (bs.dropWhile w)
    else b :: markReplace w mark repl bs
termination_by p => p.length
decreasing_by
  · have := (List.dropWhile_sublist w (l := bs)).length_le; simp; omega
  · simp

/-- `paramReplacement`, line 195. -/
def paramSource : Bytes := b!"([\\w_-]+)"
/-- `splatReplacement`, line 209. -/
def splatSource : Bytes := b!"(.*)"

/-- `pathToRegExp` (HttpHandlerSimpleRouter.cpp:191-227): the text of the expression and the parameter names. -/
def pathToRegExp (w : Byte → Bool) (p : Bytes) : Bytes × List Bytes :=
  let names := markNames w 58 p
  let path := markReplace w 58 paramSource p
  let names := names ++ markNames w 42 path
  let path := markReplace w 42 splatSource path
  (b!"^" ++ path ++ b!"$", names)

/-- `regExp.indexIn(s) != -1`, and then the texts `cap(1)`, `cap(2)`, …. (Qt; HttpHandlerSimpleRouter.cpp:245, 252.)
-/
abbrev Engine := Bytes → Bytes → Option (List Bytes)

/-- A route (HttpHandlerSimpleRouter.cpp:12-22); what it does when it is invoked is foreign code. -/
structure Route where
  method : Bytes
  regExp : Bytes
  paramNames : List Bytes
  deriving Repr, DecidableEq

/-- `addRoute` (HttpHandlerSimpleRouter.cpp:116-189), the part common to all overloads. -/
def addRoute (w : Byte → Bool) (routes : List Route) (method path : Bytes) : List Route :=
  let r := pathToRegExp w path
  routes ++ [⟨method, r.1, r.2⟩]

/-- HttpHandlerSimpleRouter.h: `RoutingErrorAction`. -/
inductive RoutingErrorAction where | passthrough | return4xx
  deriving Repr, DecidableEq

/-- `HttpHandlerSimpleRouterPrivate` (HttpHandlerSimpleRouter.cpp:89-96). -/
structure Router where
  routes : List Route := []
  methodMismatch : RoutingErrorAction := .passthrough
  unmatched : RoutingErrorAction := .passthrough
  acceptMethodParam : Bool := false
  deriving Repr, DecidableEq

/-- `QUnicodeTables::lower` on a `uchar`, as used by `qstricmp`. Behind HttpHandlerSimpleRouter.cpp:249. -/
def latinLower (b : Byte) : Byte :=
  if (65 ≤ b ∧ b ≤ 90) ∨ (192 ≤ b ∧ b ≤ 222 ∧ b ≠ 215) then b + 32 else b

/-- `qstricmp(a, b) == 0` on the data of two byte arrays, which end in a NUL. (Qt; HttpHandlerSimpleRouter.cpp:249.)
-/
def qstricmpEq : Bytes → Bytes → Bool
  | [], [] => true
  | [], b :: _ => b == 0
  | a :: _, [] => a == 0
  | a :: as, b :: bs =>
    if latinLower a == latinLower b then if latinLower a == 0 then true else qstricmpEq as bs else false

/-- The condition in line 248-249. -/
def methodFits (route : Route) (requestMethod : Bytes) : Bool :=
  route.method == [] || (route.method.length == requestMethod.length && qstricmpEq route.method requestMethod)

/-- What `handleRequest` does. (HttpHandlerSimpleRouter.cpp:229-283.) -/
inductive RouteAction where
  /-- `setRequestParam` for each pair, then the route with this index is invoked; the router reports the request handled,
  whatever the invocation returns (line 253-254). -/
  | invoke (index : Nat) (params : List (Bytes × Bytes))
  /-- One call that answers the request. -/
  | answer (a : Call)
  /-- `return false`. -/
  | pass
  deriving Repr, DecidableEq

/-- `for (i …) setRequestParam(paramNames.at(i), regExp.cap(i + 1))` (line 251-252); `cap` of a group that does not exist is
the empty string. -/
def bindNames (names caps : List Bytes) : List (Bytes × Bytes) :=
  (names.zipIdx).map fun p => (p.1, caps.getD p.2 [])

/-- The loop over the routes (lines 241-257): the route to invoke, or the routes whose expression matched. -/
def routeLoop (m : Engine) (requestMethod requestPath : Bytes) : List Route → Nat → List Route →
    (Nat × List (Bytes × Bytes)) ⊕ List Route
  | [], _, matched => .inr matched
  | r :: rs, i, matched =>
    match m r.regExp requestPath with
    | some caps =>
      if methodFits r requestMethod then .inl (i, bindNames r.paramNames caps)
      else routeLoop m requestMethod requestPath rs (i + 1) (matched ++ [r])
    | none => routeLoop m requestMethod requestPath rs (i + 1) matched

/-- The loop that builds `allowedMethods` (lines 271-276). -/
def allowedMethods : List Route → Nat → Bytes
  | [], _ => []
  | r :: rs, i => (if i > 0 then b!", " else []) ++ r.method ++ allowedMethods rs (i + 1)

/-- The request method the router goes by (lines 233-239); `methodParam` is the value of `_method` (`requestParamValue`). -/
def effectiveMethod (rt : Router) (method methodParam : Bytes) : Bytes :=
  if rt.acceptMethodParam then if methodParam ≠ [] then methodParam else method else method

/-- `HttpHandlerSimpleRouter::handleRequest` (HttpHandlerSimpleRouter.cpp:229-283).  `dec` is
`QUrl::fromPercentEncoding`. -/
def Router.handle (m : Engine) (dec : Bytes → Bytes) (rt : Router) (method methodParam path : Bytes) : RouteAction :=
  match routeLoop m (effectiveMethod rt method methodParam) (dec path) rt.routes 0 [] with
  | .inl (i, ps) => .invoke i ps
  | .inr [] => match rt.unmatched with
    | .return4xx => .answer (.writeResponse 404 [] [])
    | .passthrough => .pass
  | .inr (r :: rs) => match rt.methodMismatch with
    | .return4xx => .answer (.writeResponse 405 [⟨b!"Allow", allowedMethods (r :: rs) 0⟩] [])
    | .passthrough => .pass

/-- The value returned by `handleRequest`. (HttpHandlerSimpleRouter.cpp:254, 264, 278, 282.) -/
def RouteAction.handled : RouteAction → Bool
  | .pass => false
  | _ => true

/-! ### An engine for the expressions the router builds -/

/-- The pieces of an expression: a character that stands for itself, `.`, and the two groups. (Qt's regular
expressions, as far as HttpHandlerSimpleRouter.cpp:191-227 builds them; an example of an engine.) -/
inductive Item where | lit (b : Byte) | any | param | splat
  deriving Repr, DecidableEq

/-- Characters with a meaning of their own in a `QRegExp`. (Qt's regular expressions, as far as
HttpHandlerSimpleRouter.cpp:191-227 builds them; an example of an engine.) -/
def special : Bytes := b!"\\^$.|?*+()[]{}"

/-- The text of an expression. (Qt's regular expressions, as far as HttpHandlerSimpleRouter.cpp:191-227 builds them;
an example of an engine.) -/
def Item.source : Item → Bytes
  | .lit b => [b]
  | .any => b!"."
  | .param => b!"([\\w_-]+)"
  | .splat => b!"(.*)"

/-- Reads the text of an expression between `^` and `$`. (Qt's regular expressions, as far as
HttpHandlerSimpleRouter.cpp:191-227 builds them; an example of an engine.) -/
def parseItems : Nat → Bytes → Option (List Item)
  | 0, _ => none
  | _ + 1, [] => some []
  | n + 1, b :: bs =>
    if (Item.source .param).isPrefixOf (b :: bs) then (parseItems n ((b :: bs).drop (Item.source .param).length)).map (.param :: ·)
    else if (Item.source .splat).isPrefixOf (b :: bs) then (parseItems n ((b :: bs).drop (Item.source .splat).length)).map (.splat :: ·)
    else if b = 46 then (parseItems n bs).map (.any :: ·)
    else if b ∈ special then none
    else (parseItems n bs).map (.lit b :: ·)

/-- Membership in `[\w_-]`. (Qt's regular expressions, as far as HttpHandlerSimpleRouter.cpp:191-227 builds them; an
example of an engine.) -/
def paramByte (w : Byte → Bool) (b : Byte) : Bool := w b || b == 95 || b == 45

/-- Greedy matching with backtracking: `k` is the number of bytes a group takes, tried from the longest down. (Qt's
regular expressions, as far as HttpHandlerSimpleRouter.cpp:191-227 builds them; an example of an engine.) -/
def tryLengths (f : Nat → Option (List Bytes)) : Nat → Option (List Bytes)
  | 0 => f 0
  | k + 1 => match f (k + 1) with
    | some r => some r
    | none => tryLengths f k

/-- (Qt's regular expressions, as far as HttpHandlerSimpleRouter.cpp:191-227 builds them; an example of an engine.) -/
def greedy (w : Byte → Bool) : List Item → Bytes → Option (List Bytes)
  | [], [] => some []
  | [], _ :: _ => none
  | .lit b :: is, s => match s with
    | c :: cs => if c = b then greedy w is cs else none
    | [] => none
  | .any :: is, s => match s with
    | _ :: cs => greedy w is cs
    | [] => none
  | .param :: is, s => tryLengths (fun k =>
      if 0 < k ∧ (s.take k).all (paramByte w) then (greedy w is (s.drop k)).map (s.take k :: ·) else none) s.length
  | .splat :: is, s => tryLengths (fun k => (greedy w is (s.drop k)).map (s.take k :: ·)) s.length

/-- (Qt's regular expressions, as far as HttpHandlerSimpleRouter.cpp:191-227 builds them; an example of an engine.) -/
def greedyEngine (w : Byte → Bool) : Engine := fun re s =>
  match re with
  | 94 :: rest => match rest.getLast? with
    | some 36 => (parseItems (rest.length + 1) rest.dropLast).bind fun is => greedy w is s
    | _ => none
  | _ => none

/-- `\w` on ASCII, and every other byte a letter. (Qt's regular expressions, as far as
HttpHandlerSimpleRouter.cpp:191-227 builds them; an example of an engine.) -/
def plainWords : Words where
  word := fun b => decide (48 ≤ b ∧ b ≤ 57) || decide (65 ≤ b ∧ b ≤ 90) || decide (97 ≤ b ∧ b ≤ 122) || b == 95 || decide (128 ≤ b)
  ascii := by
    intro b hb
    have : ¬ (128 : Byte) ≤ b := by simpa [UInt8.not_le] using hb
    simp [this]

end Pillow
