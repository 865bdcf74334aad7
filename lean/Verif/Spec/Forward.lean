import Verif.Model.ProxyForward
import Verif.Spec.Connection
import Verif.Spec.Proxy
/-!
# What a proxy has to ask upstream (C64) and how it spreads requests over managers (C65)
-/
namespace Pillow.Spec
open Pillow

/-- A url written out. -/
def urlText (u : TargetUrl) : Bytes :=
  u.base ++ u.path ++ (match u.query with | none => [] | some q => b!"?" ++ q) ++ (match u.fragment with | none => [] | some f => b!"#" ++ f)

/-- Of several headers of the same name the last one. -/
inductive LastOfEach : Headers → Headers → Prop where
  | nil : LastOfEach [] []
  | keep (h : Header) (hs ks : Headers) : (∀ x ∈ hs, ¬ SameCI x.name h.name) → LastOfEach hs ks → LastOfEach (h :: hs) (h :: ks)
  | drop (h : Header) (hs ks : Headers) : (∃ x ∈ hs, SameCI x.name h.name) → LastOfEach hs ks → LastOfEach (h :: hs) ks

/-- No two headers have the same name. -/
def DistinctNames (hs : List HeaderLine) : Prop := hs.Pairwise fun x y => ¬ SameCI x.name y.name

/-- The headers of a request as pairs. -/
def pairs (hs : List HeaderLine) : Headers := hs.map fun l => ⟨l.name, l.value⟩

/-- What the proxy asks for when its client has sent the head `hd` and then `content`: the same method and content; the path, and if there is one the query and the fragment, in
the place of those of the configured url; of the headers of each name the last one. -/
structure Forwards (proxied : TargetUrl) (hd : ReqHead) (content : Bytes) (out : ProxiedRequest) : Prop where
  verb : out.verb = hd.method
  body : out.body.getD [] = content
  base : out.url.base = proxied.base
  path : out.url.path = hd.target.path
  query : out.url.query = if hd.target.query = [] then proxied.query else some hd.target.query
  fragment : out.url.fragment = if hd.fragment.getD [] = [] then proxied.fragment else hd.fragment
  headers : LastOfEach (pairs hd.headers) out.headers

/-- The last request among the bytes of the client that was handed out is the head `hd` followed by `content`. -/
def LastSent (log : List Ev) (hd : ReqHead) (content : Bytes) : Prop :=
  ∃ reqs rest, Requests (received (epoch log)) (reqs ++ [(hd, content)]) rest ∧ (readys (epoch log)).length = reqs.length + 1

/-- The replies that were made and are not deleted. A number is used for one reply only. -/
inductive Alive : List ElasticOp → List Nat → Prop where
  | nil : Alive [] []
  | create (ops : List ElasticOp) (live : List Nat) (id : Nat) : Alive ops live → .create id ∉ ops → Alive (ops ++ [.create id]) (live ++ [id])
  | delete (ops : List ElasticOp) (live : List Nat) (id : Nat) : Alive ops live → Alive (ops ++ [.delete id]) (live.filter (· ≠ id))

/-- At no time more than `n` replies are alive. -/
def AtMost (ops : List ElasticOp) (n : Nat) : Prop := ∀ before after live, ops = before ++ after → Alive before live → live.length ≤ n

end Pillow.Spec
