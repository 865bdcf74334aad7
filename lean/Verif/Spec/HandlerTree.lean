import Verif.Spec.Settings
import Verif.Model.HandlerTree
/-!
# What must become of a request that is given to handlers inside handlers (C79, C80)
-/
namespace Pillow.Spec
open Pillow

/-- Nothing is answered and nobody takes over. -/
def NoDeed (ms : List Doing) : Prop := ∀ m ∈ ms, ∀ d, m ≠ .act d

/-- What becomes of the request: the deeds, in order. -/
def deeds (ms : List Doing) : List Deed := ms.filterMap fun m => match m with | .act d => some d | _ => none

/-- All these handlers, asked one after the other, refuse; `c` is the connection before and `c'` after. -/
inductive Refuse (e : TreeEnv) : List Tree → Conn → Conn → Prop where
  | nil (c : Conn) : Refuse e [] c c
  | cons (t : Tree) (ts : List Tree) (c c' : Conn) : (t.handle e c).taken = false → Refuse e ts (t.handle e c).conn c' → Refuse e (t :: ts) c c'

/-- What a router finds for a request: the route to be invoked, an answer, or nothing. -/
def finds (e : TreeEnv) (rt : Router) (table : List (Bytes × Bytes)) (c : Conn) : RouteAction :=
  ({ rt with routes := routesOf e.words table } : Router).handle e.engine e.dec c.req.method (paramLookup (rt.reads c).conn.params b!"_method") c.req.path

/-- The request ends with a route whose target refuses it, so that nobody deals with it although it is reported handled. -/
inductive Lost (e : TreeEnv) : Tree → Conn → Prop where
  | refused (rt : Router) (table : List (Bytes × Bytes)) (targets : List Tree) (c : Conn) (i : Nat) (ps : List (Bytes × Bytes)) : finds e rt table c = .invoke i ps →
      (∀ t, targets[i]? = some t → (t.handle e ((rt.reads c).conn.setParams ps)).taken = false) → Lost e (.router rt table targets) c
  | deeper (rt : Router) (table : List (Bytes × Bytes)) (targets : List Tree) (c : Conn) (i : Nat) (ps : List (Bytes × Bytes)) (t : Tree) : finds e rt table c = .invoke i ps →
      targets[i]? = some t → Lost e t ((rt.reads c).conn.setParams ps) → Lost e (.router rt table targets) c
  | child (before : List Tree) (t : Tree) (after : List Tree) (c c' : Conn) : Refuse e before c c' → Lost e t c' → Lost e (.stack (before ++ t :: after)) c

/-- The calls on the connection. -/
def Doing.labels : Doing → List Label
  | .read => [.readParams]
  | .set n v => [.setParam n v]
  | .act (.call a) | .act (.transfer a _ _) => [.call a]
  | .note | .act (.own _) => []

/-- The routes of a router are as its user expects: the paths are plain, have their `:names` before their `*names` (see C31) and no two names alike; the methods are ASCII. -/
structure GoodTable (w : Words) (table : List (Bytes × Bytes)) : Prop where
  plain : ∀ r ∈ table, ∀ ts, Reads w.word r.2 ts → Plain ts
  first : ∀ r ∈ table, ∀ ts, Reads w.word r.2 ts → ParamsFirst ts
  names : ∀ r ∈ table, ∀ ts, Reads w.word r.2 ts → (ts.filterMap fun | .param n | .splat n => some n | _ => none).Pairwise (· ≠ ·)
  ascii : ∀ r ∈ table, ∀ x ∈ r.1, x < 128 ∧ x ≠ 0

end Pillow.Spec
