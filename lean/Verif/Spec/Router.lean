import Verif.Spec.Bytes
import Verif.Model.Router
/-!
# Specification of the router (C30, C31)
-/
namespace Pillow.Spec
open Pillow

/-- The parts of a route path: a character, `:name` and `*name`. -/
inductive Tok where | lit (b : Byte) | param (name : Bytes) | splat (name : Bytes)
  deriving Repr, DecidableEq

/-- The text does not start with a word character. -/
def NoWordAhead (w : Byte → Bool) (s : Bytes) : Prop := ∀ c, s.head? = some c → w c = false

/-- `Reads w p ts`: the route path `p`, read from left to right, consists of `ts`.  A name extends as far as there are word
characters. -/
inductive Reads (w : Byte → Bool) : Bytes → List Tok → Prop where
  | nil : Reads w [] []
  | param (name rest : Bytes) (ts : List Tok) : name ≠ [] → (∀ c ∈ name, w c = true) → NoWordAhead w rest → Reads w rest ts →
      Reads w (58 :: name ++ rest) (.param name :: ts)
  | splat (name rest : Bytes) (ts : List Tok) : name ≠ [] → (∀ c ∈ name, w c = true) → NoWordAhead w rest → Reads w rest ts →
      Reads w (42 :: name ++ rest) (.splat name :: ts)
  | lit (b : Byte) (rest : Bytes) (ts : List Tok) : (b = 58 ∨ b = 42 → NoWordAhead w rest) → Reads w rest ts →
      Reads w (b :: rest) (.lit b :: ts)

/-- `Fits w ts path bind`: the path consists of the parts `ts`, and `bind` tells, from left to right, which piece stands for
which name.  A `:name` stands for one or more letters, digits, underscores or hyphens, a `*name` for anything. -/
inductive Fits (w : Byte → Bool) : List Tok → Bytes → List (Bytes × Bytes) → Prop where
  | nil : Fits w [] [] []
  | lit (b : Byte) (ts : List Tok) (s : Bytes) (bind : List (Bytes × Bytes)) : Fits w ts s bind → Fits w (.lit b :: ts) (b :: s) bind
  | param (n v : Bytes) (ts : List Tok) (s : Bytes) (bind : List (Bytes × Bytes)) : v ≠ [] →
      (∀ c ∈ v, w c = true ∨ c = 95 ∨ c = 45) → Fits w ts s bind → Fits w (.param n :: ts) (v ++ s) ((n, v) :: bind)
  | splat (n v : Bytes) (ts : List Tok) (s : Bytes) (bind : List (Bytes × Bytes)) : Fits w ts s bind →
      Fits w (.splat n :: ts) (v ++ s) ((n, v) :: bind)

/-- No character of the path (outside the placeholders) has a meaning of its own in a regular expression. -/
def Plain (ts : List Tok) : Prop := ∀ b, Tok.lit b ∈ ts → b ∉ b!"\\^$.|?*+()[]{}"

/-- All `:names` come before all `*names`. -/
def ParamsFirst (ts : List Tok) : Prop := ts.Pairwise fun a b => ∀ n m, a = .splat n → b ≠ .param m

/-- The route path `p` matches the path `path` (`bind` as in `Fits`). -/
def PathMatches (w : Byte → Bool) (p path : Bytes) (bind : List (Bytes × Bytes)) : Prop :=
  ∃ ts, Reads w p ts ∧ Fits w ts path bind

/-- What a regular expression made of these items matches, with the texts of its groups. -/
inductive ReMatches (w : Byte → Bool) : List Item → Bytes → List Bytes → Prop where
  | nil : ReMatches w [] [] []
  | lit (b : Byte) (is : List Item) (s : Bytes) (caps : List Bytes) : ReMatches w is s caps → ReMatches w (.lit b :: is) (b :: s) caps
  | any (b : Byte) (is : List Item) (s : Bytes) (caps : List Bytes) : ReMatches w is s caps → ReMatches w (.any :: is) (b :: s) caps
  | param (v : Bytes) (is : List Item) (s : Bytes) (caps : List Bytes) : v ≠ [] → (∀ c ∈ v, w c = true ∨ c = 95 ∨ c = 45) →
      ReMatches w is s caps → ReMatches w (.param :: is) (v ++ s) (v :: caps)
  | splat (v : Bytes) (is : List Item) (s : Bytes) (caps : List Bytes) : ReMatches w is s caps →
      ReMatches w (.splat :: is) (v ++ s) (v :: caps)

/-- The text of an anchored regular expression. -/
def reText (is : List Item) : Bytes := b!"^" ++ is.flatMap Item.source ++ b!"$"

/-- What is assumed of `QRegExp`, and only for anchored expressions made of literal characters, `.`, `([\w_-]+)` and `(.*)`:
it finds a match iff there is one, and the groups are those of a match. -/
structure GoodEngine (w : Byte → Bool) (m : Engine) : Prop where
  sound : ∀ is s caps, (∀ b, Item.lit b ∈ is → b ∉ special) → m (reText is) s = some caps → ReMatches w is s caps
  complete : ∀ is s caps, (∀ b, Item.lit b ∈ is → b ∉ special) → ReMatches w is s caps → ∃ caps', m (reText is) s = some caps'

/-- A route registered for `method` accepts requests with the method `meth`: it is registered for any method, or the two are equal up
to the case of letters. -/
def MethodOk (method meth : Bytes) : Prop := method = [] ∨ SameCI method meth

/-- The route path matches the path of the request. -/
def PathOk (w : Byte → Bool) (r : Bytes × Bytes) (path : Bytes) : Prop := ∃ bind, PathMatches w r.2 path bind

open Classical in
/-- The methods of the routes (method, path) whose path matches, in the order they were registered. -/
noncomputable def allowed (ok : Bytes × Bytes → Prop) (table : List (Bytes × Bytes)) : List Bytes :=
  (table.filter fun r => decide (ok r)).map (·.1)

/-- What the router must do with a request with this method, `ok` telling for which routes (method, path) the path matches. -/
def Dispatches (rt : Router) (table : List (Bytes × Bytes)) (ok : Bytes × Bytes → Prop) (meth : Bytes) (act : RouteAction) : Prop :=
  (∃ i r params, table[i]? = some r ∧ ok r ∧ MethodOk r.1 meth ∧
    (∀ j r', j < i → table[j]? = some r' → ¬ (ok r' ∧ MethodOk r'.1 meth)) ∧ act = .invoke i params) ∨
  ((∀ r ∈ table, ¬ (ok r ∧ MethodOk r.1 meth)) ∧
    ((∀ r ∈ table, ¬ ok r) ∧ act = (if rt.unmatched = .return4xx then .answer (.writeResponse 404 [] []) else .pass) ∨
     (∃ r ∈ table, ok r) ∧ act = (if rt.methodMismatch = .return4xx then
        .answer (.writeResponse 405 [⟨b!"Allow", List.intercalate b!", " (allowed ok table)⟩] []) else .pass)))

/-- The router with these routes (method, path), registered in this order. -/
def routesOf (w : Byte → Bool) (table : List (Bytes × Bytes)) : List Route :=
  table.foldl (fun t r => addRoute w t r.1 r.2) []

end Pillow.Spec
