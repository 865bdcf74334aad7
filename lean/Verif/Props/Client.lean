import Verif.Lemmas.ClientLog
/-!
# C37, C38, C40, C57: the client's requests, connections and ends

`Client.new onHeaders onContent onFinished onConnect` is a new client in an application that makes the calls `onHeaders[i]`, … when it handles the `i`-th
`headersCompleted()`, …; `run env fuel inputs` is what becomes of it when the `inputs` (calls of the application, events of the socket, passing time)
happen in this order, for every `inputs`, every application, every depth `fuel` of nested signals and every zlib (`env`).
-/
namespace Pillow.Props
open Pillow Pillow.Spec

/-! ## C37 -/

/-- **C37** (partial: the application does not abort while it handles `headersCompleted()`, or makes no HEAD request; the other case is `C37_violation`).
In every run, accepted requests and `finished()` signals alternate, beginning with a request; a request waits for its `finished()` exactly if
`responsePending()` says so; the error of a `finished()` other than "no error" tells what happened; and while a request is pending, `error()` is "no error". -/
theorem C37_finished_once_partial (env : ClientEnv) (fuel : Nat) (onH onC onF : List (List UserCall)) (onK : List SockReply) (inputs : List CInput)
    (h : AbortFree onH ∨ ((∀ l ∈ onH ++ onC ++ onF, HeadFree l) ∧ ∀ u, .call u ∈ inputs → HeadFree [u])) :
    let c := (Client.new onH onC onF onK).run env fuel inputs
    Paired c.log c.responsePending ∧ Reasons c.log ∧ (c.responsePending = true → c.error = .noError) := by
  intro c
  rcases h with h | ⟨h, h'⟩
  · have hi : CInv (some true) c := CInv.run env fuel inputs (new_inv _ onH onC onF onK h) (by rintro ⟨⟩)
    exact ⟨hi.paired (by simp), hi.reasons (by simp), hi.noError⟩
  · have hg : Gentle (some false) (Client.new onH onC onF onK) :=
      ⟨fun l hl => h l (by simp [show l ∈ onH from hl]), fun l hl => h l (by simp [show l ∈ onC from hl]), fun l hl => h l (by simp [show l ∈ onF from hl]),
        show ¬ IsHead {} by unfold IsHead; decide, show ¬ IsHead {} by unfold IsHead; decide⟩
    have hi : CInv (some false) c := CInv.run env fuel inputs (new_inv _ onH onC onF onK hg) fun _ => h'
    exact ⟨hi.paired (by simp), hi.reasons (by simp), hi.noError⟩

/-- **C37**: abort() and errors of the socket end a pending request at once, with the error that belongs to them. -/
theorem C37_ends_at_once (env : ClientEnv) (fuel : Nat) (c : Client) (hp : c.responsePending = true) :
    (∃ st hs ct, c.log ++ [.abort, .finished .aborted st hs ct] <+: (c.step env fuel (.call .abort)).log) ∧
    (∀ rc, ∃ st hs ct, c.log ++ [.close, .finished (if rc then .remoteHostClosed else .network) st hs ct] <+: (c.step env fuel (.error rc)).log) := by
  constructor
  · refine ⟨c.p.pause.status, c.d.headers, c.d.content, ?_⟩
    show _ <+: (c.abort (Client.emit env fuel)).log
    unfold Client.abort
    dsimp only
    rw [if_pos (by exact hp)]
    have h := emit_log env fuel .finished { { (c.add .abort) with sock := c.sock.abort } with p := c.p.pause, error := .aborted, responsePending := false }
    rw [show c.log ++ [CEv.abort, .finished .aborted c.p.pause.status c.d.headers c.d.content] = (c.log ++ [.abort]) ++ [.finished .aborted c.p.pause.status c.d.headers c.d.content] by simp]
    exact h
  · intro rc
    refine ⟨c.p.status, c.d.headers, c.d.content, ?_⟩
    show _ <+: (c.deviceError (Client.emit env fuel) rc).log
    have hn : ¬ (!c.responsePending) = true := by simp [hp]
    unfold Client.deviceError
    rw [if_neg hn]
    have h := emit_log env fuel .finished { { ({ c with error := if rc then .remoteHostClosed else .network }.add .close) with sock := c.sock.close } with responsePending := false }
    rw [show c.log ++ [CEv.close, .finished (if rc then .remoteHostClosed else .network) c.p.status c.d.headers c.d.content] = (c.log ++ [.close]) ++ [.finished (if rc then .remoteHostClosed else .network) c.p.status c.d.headers c.d.content] by simp]
    exact h

/-- **C37**: no request stays pending with an invalid response. -/
theorem C37_invalid_ends (env : ClientEnv) (fuel : Nat) (onH onC onF : List (List UserCall)) (onK : List SockReply) (inputs : List CInput) :
    let c := (Client.new onH onC onF onK).run env fuel inputs
    c.responsePending = true → c.hasError = false := by
  intro c hp
  have := (Top.run env fuel inputs (new_top onH onC onF onK)).pending hp
  unfold Client.hasError
  rw [this]
  rfl

/-- The state of a log that is `Paired`. -/
def scanPairs (l : List CEv) : Option Bool :=
  l.foldl (fun s e => match s, e with
    | some false, .accepted _ => some true
    | some true, .finished .. => some false
    | _, .accepted _ => none
    | _, .finished .. => none
    | s, _ => s) (some false)

theorem scanPairs_of {l : List CEv} {w : Bool} (h : Paired l w) : scanPairs l = some w := by
  induction h with
  | nil => rfl
  | accepted r _ ih => unfold scanPairs at ih ⊢; rw [List.foldl_append, ih]; rfl
  | finished e st hs ct _ ih => unfold scanPairs at ih ⊢; rw [List.foldl_append, ih]; rfl
  | other e h1 h2 _ ih =>
    unfold scanPairs at ih ⊢
    rw [List.foldl_append, ih]
    cases e with
    | accepted r => exact absurd rfl (h1 r)
    | finished x st hs ct => exact absurd rfl (h2 x st hs ct)
    | _ => cases ‹Bool› <;> rfl

def demoEnv : ClientEnv := ⟨none, fun _ => {}⟩
def demoReq (m : Bytes) : ClientRequest := { method := some m, url := { host := b!"h", path := b!"/" } }
/-- An application that aborts when the headers arrive. -/
def demoAborting : Client := Client.new [[.abort]] [] [] []
def demoHeadRun (m : Bytes) : List CInput := [.call (.request (demoReq m)), .connected, .arrive b!"HTTP/1.1 200 OK\r\nContent-Length: 5\r\n\r\n", .readyRead]

/-- **C37 is false of the code**: a HEAD request aborted while `headersCompleted()` is handled is reported as finished twice. -/
theorem C37_violation :
    let c := demoAborting.run demoEnv 1 (demoHeadRun b!"HEAD")
    (c.log.filter fun | .accepted _ => true | _ => false).length = 1 ∧ (c.log.filter fun | .finished .. => true | _ => false).length = 2 ∧ ∀ w, ¬ Paired c.log w := by
  refine ⟨by decide +kernel, by decide +kernel, fun w h => ?_⟩
  have := scanPairs_of h
  have h2 : scanPairs (demoAborting.run demoEnv 1 (demoHeadRun b!"HEAD")).log = none := by decide +kernel
  rw [h2] at this
  cases this

example : let c := demoAborting.run demoEnv 1 (demoHeadRun b!"GET")
    ((∀ l ∈ [[UserCall.abort]] ++ [] ++ [], HeadFree l) ∧ ∀ u, .call u ∈ demoHeadRun b!"GET" → HeadFree [u]) ∧ c.responsePending = false ∧
      (c.log.filter fun | .finished .. => true | _ => false) = [.finished .aborted 200 [⟨b!"Content-Length", b!"5"⟩] []] := by
  refine ⟨⟨?_, ?_⟩, by decide +kernel⟩
  · intro l hl r hr
    simp at hl
    subst hl
    simp at hr
  · intro u hu r hr
    simp [demoHeadRun] at hu
    subst hu
    simp at hr
    subst hr
    unfold IsHead
    decide

/-! ## C38 -/

/-- **C38**: a request made while a response is pending is refused, and changes nothing. -/
theorem C38_refused (env : ClientEnv) (fuel : Nat) (c : Client) (r : ClientRequest) (hp : c.responsePending = true) :
    c.step env fuel (.call (.request r)) = c.add (.refused r) := by
  show c.makeRequest (Client.emit env fuel) r = _
  unfold Client.makeRequest
  rw [if_pos hp]

/-- **C38** (partial: of several requests put off, only the last one; the others are `C38_violation`).  In every run, whenever the event loop runs, no request
is waiting: a request that was put off because the parser was running has been made, unless a later one took its place or its method was null. -/
theorem C38_deferred_partial (env : ClientEnv) (fuel : Nat) (onH onC onF : List (List UserCall)) (onK : List SockReply) (inputs : List CInput) :
    Deferrals ((Client.new onH onC onF onK).run env fuel inputs).log none := by
  have h := DInv.run env fuel inputs (new_d onH onC onF onK) (new_top onH onC onF onK) (new_inv none onH onC onF onK trivial)
  have ht := Top.run env fuel inputs (new_top onH onC onF onK)
  have hd := h.defs
  unfold Client.waiting at hd
  rwa [if_pos (h.idle (Or.inr ht.parsing))] at hd

/-- Requests are put off only while the parser runs and nothing is pending; when the parser does not run they are accepted at once. -/
theorem C38_accepted (env : ClientEnv) (fuel : Nat) (onH onC onF : List (List UserCall)) (onK : List SockReply) (inputs : List CInput) (r : ClientRequest) :
    let c := (Client.new onH onC onF onK).run env fuel inputs
    c.responsePending = false → c.log ++ [.accepted r] <+: (c.step env fuel (.call (.request r))).log := by
  intro c hp
  show _ <+: (c.makeRequest _ r).log
  rw [makeRequest_accept hp (Top.run env fuel inputs (new_top onH onC onF onK)).parsing]
  exact accept_log (emit_log env fuel) c r

def demoOk : Bytes := b!"HTTP/1.1 200 OK\r\nContent-Length: 0\r\n\r\n"

/-- **C38 is false of the code**: of two requests made while `finished()` is handled, the first is lost; and a request with a null method is accepted when it is
made outside a callback, and lost when it is made in one. -/
theorem C38_violation :
    (let c := (Client.new [] [] [[.request (demoReq b!"PUT"), .request (demoReq b!"POST")]] []).run demoEnv 1 [.call (.request (demoReq b!"GET")), .connected, .arrive demoOk, .readyRead];
      c.responsePending = true ∧
      c.log.filterMap (fun | .accepted r => some (true, r.method) | .deferred r => some (false, r.method) | _ => none) =
        [(true, some b!"GET"), (false, some b!"PUT"), (false, some b!"POST"), (true, some b!"POST")]) ∧
    (let c := (Client.new [] [] [[.request {}]] []).run demoEnv 1 [.call (.request {}), .connected, .arrive demoOk, .readyRead];
      c.responsePending = false ∧
      c.log.filterMap (fun | .accepted r => some (true, r.method) | .deferred r => some (false, r.method) | _ => none) = [(true, none), (false, none)]) := by
  decide +kernel

/-! ## C40 -/

/-- **C40**: in every run, requests are written at most once, after they have been accepted and before the next one is, as a whole, to the server their url names, with
a `Host` header that names it. -/
theorem C40_routing (env : ClientEnv) (fuel : Nat) (onH onC onF : List (List UserCall)) (onK : List SockReply) (inputs : List CInput) :
    ∃ x, Sends ((Client.new onH onC onF onK).run env fuel inputs).log x := by
  have h : CInv none ((Client.new onH onC onF onK).run env fuel inputs) := CInv.run env fuel inputs (new_inv none onH onC onF onK trivial) (by rintro ⟨⟩)
  obtain ⟨x, hx, -⟩ := h.sends
  exact ⟨x, hx⟩

/-- **C40**: the connection is used again exactly under the conditions of `Reuses`: then the request is written at once; otherwise the connection is ended,
if there is one, and one to the url's server is asked for before anything else. -/
theorem C40_reuse (env : ClientEnv) (fuel : Nat) (onH onC onF : List (List UserCall)) (onK : List SockReply) (inputs : List CInput) (r : ClientRequest) :
    let c := (Client.new onH onC onF onK).run env fuel inputs
    c.responsePending = false →
    (Reuses c r → ∃ data, (c.step env fuel (.call (.request r))).log = c.log ++ [.accepted r, .write (r.url.host, portOf r.url) data] ∧ Wire r data) ∧
    (¬ Reuses c r → c.log ++ [.accepted r] ++ (if c.sock.state = .unconnected then [] else [.disconnectFromHost]) ++ [.connectToHost r.url.host (portOf r.url)] <+:
      (c.step env fuel (.call (.request r))).log) := by
  intro c hp
  have hi : CInv none c := CInv.run env fuel inputs (new_inv none onH onC onF onK trivial) (by rintro ⟨⟩)
  have htop := Top.run env fuel inputs (new_top onH onC onF onK)
  have hstep : c.step env fuel (.call (.request r)) = c.accept (Client.emit env fuel) r := makeRequest_accept hp htop.parsing r
  rw [hstep, accept_eq]
  obtain ⟨h1, h2, h3, h4, h5, h6, -⟩ := accepting_facts c r
  constructor
  · intro hr
    rw [if_pos ((reuses_iff c r).2 hr)]
    obtain ⟨data, hd, hw⟩ := sendRequest_writes h4 (h5.trans hi.writer) (by rw [h6, h1, hostValue_congr hr.2.1 hr.2.2.1]; exact hi.host)
    rw [h1] at hw
    refine ⟨data, ?_, hw⟩
    rw [hd, h3, h2, hi.net (Or.inr hr.1), ← portOr80_eq]
    unfold Url.portOr80
    rw [hr.2.1, hr.2.2.1]
    simp
  · intro hr
    rw [if_neg (fun h => hr ((reuses_iff c r).1 h))]
    refine List.IsPrefix.trans ?_ (connectReply_log (emit_log env fuel) _)
    rw [reconnecting_log, h1, h2, h3, ← portOr80_eq]
    exact List.prefix_refl _

example : let c := (Client.new [] [] [] []).run demoEnv 1 [.call (.request (demoReq b!"GET")), .connected, .arrive demoOk, .readyRead];
    c.responsePending = false ∧ Reuses c (demoReq b!"PUT") ∧ ¬ Reuses c { (demoReq b!"PUT") with url := { host := b!"i" } } := by
  refine ⟨by decide +kernel, ⟨by decide +kernel, by decide +kernel, by decide +kernel, ?_⟩, ?_⟩
  · intro t _ h
    have : ((Client.new [] [] [] []).run demoEnv 1 [.call (.request (demoReq b!"GET")), .connected, .arrive demoOk, .readyRead]).keepAliveTimeout = -1 := by decide +kernel
    rw [this] at h
    omega
  · rintro ⟨-, h, -⟩
    revert h
    decide +kernel

/-- **C40**: the time of the last response is the time at which its last byte was handled. -/
theorem C40_timer (em : Signal → Client → Client) (c : Client) (hs : c.p.status ≠ 100) (hk : c.keepAliveTimeout ≠ 0) :
    ∃ c', c.messageComplete em = em .finished c' ∧ c'.timer = some c.now ∧ c'.responsePending = false := by
  refine ⟨c.completing, by rw [messageComplete_eq, if_neg hs], ?_, (completing_facts c).2.2.1⟩
  unfold Client.completing
  dsimp only
  rw [if_neg hk]
  split <;> rfl

/-! ## C57 -/

/-- **C57**: whatever the application does and whatever is received, no assertion in the parser used by the client fails. -/
theorem C57_no_assertion (env : ClientEnv) (fuel : Nat) (onH onC onF : List (List UserCall)) (onK : List SockReply) (inputs : List CInput) :
    ((Client.new onH onC onF onK).run env fuel inputs).p.bad = false :=
  (Top.run env fuel inputs (new_top onH onC onF onK)).safe.1

end Pillow.Props
