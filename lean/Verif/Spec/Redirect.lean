import Verif.Spec.ClientRun
/-!
# What the client shows between responses, and following redirections (C61)
-/
namespace Pillow.Spec
open Pillow

/-- What `statusCode()`, `headers()` and `content()` return. -/
structure View where
  status : Nat
  headers : Headers
  content : Bytes

/-- What a record says about the present: the last accepted request, and what is to be seen of the response to it after its `finished()`:
the status, headers and content shown then, less the content consumed since. -/
inductive Current : List CEv → Option (ClientRequest × Option View) → Prop where
  | nil : Current [] none
  | accepted {l : List CEv} {x : Option (ClientRequest × Option View)} (r : ClientRequest) : Current l x → Current (l ++ [.accepted r]) (some (r, none))
  | finished {l : List CEv} {r : ClientRequest} {v : Option View} (e : CError) (st : Nat) (hs : Headers) (ct : Bytes) : Current l (some (r, v)) →
      Current (l ++ [.finished e st hs ct]) (some (r, some ⟨st, hs, ct⟩))
  | consumed {l : List CEv} {r : ClientRequest} {st : Nat} {hs : Headers} {ct : Bytes} : Current l (some (r, some ⟨st, hs, ct⟩)) →
      Current (l ++ [.consumed ct]) (some (r, some ⟨st, hs, []⟩))
  | early {l : List CEv} {r : ClientRequest} (ct : Bytes) : Current l (some (r, none)) → Current (l ++ [.consumed ct]) (some (r, none))
  | never {l : List CEv} : Current l none → Current (l ++ [.consumed []]) none
  | other {l : List CEv} {x : Option (ClientRequest × Option View)} (e : CEv) : (∀ r, e ≠ .accepted r) → (∀ x st hs ct, e ≠ .finished x st hs ct) →
      (∀ bs, e ≠ .consumed bs) → Current l x → Current (l ++ [e]) x

/-- The status codes of redirections. -/
def Redirects (status : Nat) : Prop := status = 300 ∨ status = 301 ∨ status = 302 ∨ status = 303 ∨ status = 307

/-- The value of the first header named `Location`; empty if there is none. -/
def Location (hs : Headers) (v : Bytes) : Prop :=
  (∃ a h b, hs = a ++ h :: b ∧ (∀ x ∈ a, ¬ SameCI x.name b!"location") ∧ SameCI h.name b!"location" ∧ v = h.value) ∨
  ((∀ x ∈ hs, ¬ SameCI x.name b!"location") ∧ v = [])

/-- `r'` is the request that follows the redirection `v` of the request `r`: the same method, headers and data, another url. -/
def Follows (env : ClientEnv) (r : ClientRequest) (v : View) (r' : ClientRequest) : Prop :=
  Redirects v.status ∧ ∃ loc, Location v.headers loc ∧ r' = ⟨r.method, env.parseUrl loc, r.headers, r.data⟩

/-- The requests an application may make: those in its reactions to signals, and those made from outside. -/
def Asked (scripts : List (List UserCall)) (inputs : List CInput) (r : ClientRequest) : Prop :=
  (∃ calls ∈ scripts, .request r ∈ calls) ∨ .call (.request r) ∈ inputs

end Pillow.Spec
