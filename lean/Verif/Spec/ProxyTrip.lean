import Verif.Spec.Exchange
import Verif.Spec.Proxy
import Verif.Spec.Cut
import Verif.Spec.Http
/-!
# A client behind the proxy (C94)
-/
namespace Pillow.Spec
open Pillow

/-- The reply of upstream to the request `r` has been relayed to its end by the pipe `x`, which was made when the history of the connection was `a`: upstream has finished without a failure, with a status below 400, and has announced
everything that arrived, and no more than it declared; nobody else has closed the connection or destroyed the objects. -/
structure RelayedToTheEnd (u : Upstream) (a : List Ev) (r : ReqView) (x : Piped) : Prop where
  piping : Piping u a r x
  alive : x.s.c.fault = none
  finished : x.outcome = some false
  status : u.status < 400
  idle : x.task = none
  kept : x.left = false
  read : x.unread = []
  honest : Upstream.Honest u x.arrived

/-- … or it is a reply of declared length with content, and all of it has arrived and was read (whether or not upstream has finished); control is back at the application. -/
structure RelayedInFull (u : Upstream) (a : List Ev) (r : ReqView) (x : Piped) : Prop where
  piping : Piping u a r x
  alive : x.s.c.fault = none
  back : x.s.inEnv = true
  kept : x.left = false
  read : x.unread = []
  content : x.arrived ≠ []
  whole : (x.arrived.length : Int) = declaredLength (-1) u.headers
  good : ∀ f, x.outcome = some f → f = false ∧ u.status < 400

/-- A reply of declared length (below 2 GiB) has been relayed as a whole; if the request is HEAD, or the length is 0, when upstream finishes, otherwise when the content has arrived. -/
structure WholeReply (u : Upstream) (a : List Ev) (r : ReqView) (x : Piped) : Prop where
  declared : 0 ≤ declaredLength (-1) u.headers ∧ declaredLength (-1) u.headers < 2147483648
  relayed : (RelayedToTheEnd u a r x ∧ (r.method = b!"HEAD" ∨ (x.arrived.length : Int) = declaredLength (-1) u.headers)) ∨ RelayedInFull u a r x

/-- The reply of upstream is one a client of the library can read: the status is one of those with a reason phrase, and not `100 Continue`, and the headers are ordinary ones and fit. -/
structure Presentable (u : Upstream) (r : ReqView) : Prop where
  status : u.status ∈ rfcCodes
  final : u.status ≠ 100
  plain : ∀ x ∈ u.headers, PlainHeader x
  size : ∀ h, HeadSpec r (-1) u.status u.headers h → h.bytes.length ≤ 80 * 1024 - 2

/-- The client `c` waits for the answer to the request that the server shows as `r`. -/
structure Inquires (env : ClientEnv) (fuel : Nat) (c : Client) (r : ReqView) : Prop where
  served : WellServed env fuel c
  askable : Askable c.request
  delivered : Delivered c.request r

end Pillow.Spec
