import Verif.Model.NetworkMeta
import Verif.Spec.NetworkReply
import Verif.Spec.Forward
/-!
# What a request through the manager stands for (C68) and what a reply tells (C69)
-/
namespace Pillow.Spec
open Pillow

/-- The method an operation stands for. -/
def methodOf (r : NRequest) : NOp → Bytes
  | .head => b!"HEAD"
  | .get => b!"GET"
  | .put => b!"PUT"
  | .post => b!"POST"
  | .delete => b!"DELETE"
  | .custom => r.verb.getD []
  | .unknown => []

/-- Operations with which data is sent. -/
def Uploads : NOp → Prop
  | .put | .post | .custom => True
  | _ => False

/-- `a; b; c`. -/
def joined : List Bytes → Bytes
  | [] => []
  | [k] => k
  | k :: ks => k ++ b!"; " ++ joined ks

/-- The `Cookie` header for these cookies. -/
def cookieLine (cookies : List Bytes) : Headers := if cookies = [] then [] else [⟨b!"Cookie", joined cookies⟩]

/-- What the request the application has made means: the url as it is; the method of the operation; of the headers that were set the last of each name, in order, and the cookies of the jar
in one header after them; the data, if it is an operation with data. -/
structure AsksFor (op : NOp) (r : NRequest) (cookies : List Bytes) (data : Option Bytes) (out : ClientRequest) : Prop where
  method : out.method.getD [] = methodOf r op
  url : out.url = r.url
  headers : ∃ own, LastOfEach r.set own ∧ out.headers = own ++ cookieLine cookies
  data : (Uploads op → out.data = data.getD []) ∧ (¬ Uploads op → out.data = [])

/-- The headers a reply shows for the headers `hs` of a response without cookies: of each name the last one, unless its value is empty. -/
def Kept (hs raw : Headers) : Prop := ∃ last, LastOfEach hs last ∧ raw = last.filter fun h => h.value ≠ []

/-- The cookies a response sets: those of all its `Set-Cookie` headers, in order. -/
def cookiesOf (env : CookieEnv) (hs : Headers) : List Bytes := ((hs.filter fun h => decide (SameCI h.name b!"set-cookie")).map fun h => env.parse h.value).flatten

/-- The `Location` of a response: the last one. -/
def locationOf (hs : Headers) : Option Bytes := ((hs.filter fun h => decide (SameCI h.name b!"location")).getLast?).map (·.value)

/-- The headers of a reply: those of the response (`Kept`); the cookies are shown in one header, at the end. -/
def ShownHeaders (env : CookieEnv) (hs raw : Headers) : Prop :=
  if cookiesOf env hs = [] ∨ env.render (cookiesOf env hs) = [] then Kept hs raw
  else ∃ kept, Kept hs kept ∧ raw = (kept.filter fun h => ¬ SameCI h.name b!"set-cookie") ++ [⟨b!"Set-Cookie", env.render (cookiesOf env hs)⟩]

/-- What a reply tells of a response with this status and these headers. -/
structure Tells (env : CookieEnv) (status : Nat) (hs : Headers) (m : NMeta) : Prop where
  status : m.status = some status
  headers : ShownHeaders env hs m.rawHeaders
  redirection : m.redirection = locationOf hs
  jar : m.jar = cookiesOf env hs

/-- The error of Qt for an error of the client. -/
def errorFor : CError → NError
  | .noError => .noError
  | .network => .unknownNetwork
  | .responseInvalid => .protocolUnknown
  | .remoteHostClosed => .remoteHostClosed
  | .aborted => .operationCanceled

/-- The signals besides `readyRead()`. -/
def turns (l : List NSignal) : List NSignal := l.filter (· ≠ .readyRead)

end Pillow.Spec
