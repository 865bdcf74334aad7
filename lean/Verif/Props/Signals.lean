import Verif.Props.Client
import Verif.Lemmas.Signals
/-!
# C76: the signals of a request come in order, and agree with each other
-/
namespace Pillow.Props
open Pillow Spec

/-- **C76** (partial: the specification allows for what should not be, an additional `finished()` for HEAD requests aborted after `headersCompleted()`, see `C37_violation`, and the content of an interim response before
`headersCompleted()`, see `C76_violation`).
Whatever the application does, in slots or not, and whatever the server sends, in whatever pieces: after a request has been accepted, `headersCompleted()` comes at most once, `contentReadyRead()` only after it, each time
with content to which some has been added since the last time or since it was consumed, then `finished()`, which shows the status and the headers `headersCompleted()` showed (and trailers) and the content `contentReadyRead()` showed;
`finished()` without an error comes only after `headersCompleted()`.  The accessors agree with the signals meanwhile. -/
theorem C76_in_order_partial (env : ClientEnv) (fuel : Nat) (onH onC onF : List (List UserCall)) (onK : List SockReply) (inputs : List CInput) :
    let c := (Client.new onH onC onF onK).run env fuel inputs
    ∃ stage, Signals c.log stage ∧ (c.responsePending = false ∧ stage = .idle ∨ c.responsePending = true ∧ stage = .waiting c.request ∨
      c.responsePending = true ∧ ∃ hs, stage = .shown c.request c.p.status hs c.d.content ∧ hs <+: c.d.headers ∧ ¬ IsHead c.request) := by
  intro c
  obtain ⟨-, -, hb⟩ := Sig.run env fuel inputs (new_sig onH onC onF onK)
  cases hp : c.responsePending with
  | false => exact ⟨.idle, hb.idle hp, Or.inl ⟨rfl, rfl⟩⟩
  | true =>
    obtain ⟨-, hl, hu⟩ := hb.live hp
    cases hs : c.p.seen with
    | none =>
      rw [hs] at hl
      exact ⟨_, hl.1, Or.inr (Or.inl ⟨rfl, rfl⟩)⟩
    | some st =>
      rw [hs] at hl hu
      unfold AtStage at hl
      dsimp only at hl
      have hst : c.p.status = st := by
        unfold HParser.seen at hs
        split at hs
        · exact Option.some.inj hs
        · cases hs
      split at hl
      · exact ⟨_, hl, Or.inr (Or.inl ⟨rfl, rfl⟩)⟩
      · rename_i h100
        obtain ⟨hs, h1, h2⟩ := hl
        exact ⟨_, h2, Or.inr (Or.inr ⟨rfl, hs, by rw [hst], h1, fun hh => h100 (hu hh _ rfl)⟩)⟩

/-- **C37, exactly**: in every run, accepted requests and `finished()` signals alternate, beginning with a request, a request waiting for its `finished()` iff `responsePending()` says so, unless the application has
aborted a HEAD request between its `headersCompleted()` and its `finished()`; then they do not.  And except in this case the error of every `finished()` other than "no error" tells what happened. -/
theorem C37_exactly (env : ClientEnv) (fuel : Nat) (onH onC onF : List (List UserCall)) (onK : List SockReply) (inputs : List CInput) :
    let c := (Client.new onH onC onF onK).run env fuel inputs
    (¬ HeadAborted c.log → Paired c.log c.responsePending ∧ Reasons c.log) ∧ (HeadAborted c.log → ∀ w, ¬ Paired c.log w) := by
  intro c
  obtain ⟨stage, h1, h2⟩ := C76_in_order_partial env fuel onH onC onF onK inputs
  have h := pairForm_of h1
  rcases h2 with ⟨hp, rfl⟩ | ⟨hp, rfl⟩ | ⟨hp, hs, rfl, -, -⟩
  all_goals
    show (_ → Paired _ (Client.responsePending ((Client.new onH onC onF onK).run env fuel inputs)) ∧ _) ∧ _
    rw [hp]
    exact h

/-- Both cases occur: a GET request is aborted in a slot of `headersCompleted()`, and a HEAD request. -/
example : ¬ HeadAborted (demoAborting.run demoEnv 1 (demoHeadRun b!"GET")).log ∧ HeadAborted (demoAborting.run demoEnv 1 (demoHeadRun b!"HEAD")).log := by
  have hg := C37_exactly demoEnv 1 [[.abort]] [] [] [] (demoHeadRun b!"GET")
  have hh := C37_exactly demoEnv 1 [[.abort]] [] [] [] (demoHeadRun b!"HEAD")
  refine ⟨fun h => ?_, Classical.byContradiction fun h => ?_⟩
  · have hl : (demoAborting.run demoEnv 1 (demoHeadRun b!"GET")).log = [.accepted (demoReq b!"GET"), .connectToHost b!"h" 80, .write (b!"h", 80) b!"GET / HTTP/1.1\r\nHost: h\r\n\r\n",
      .headersCompleted 200 [⟨b!"Content-Length", b!"5"⟩], .abort, .finished .aborted 200 [⟨b!"Content-Length", b!"5"⟩] []] := by decide +kernel
    refine hg.2 h false ?_
    show Paired (demoAborting.run demoEnv 1 (demoHeadRun b!"GET")).log false
    rw [hl]
    refine .finished (l := [.accepted (demoReq b!"GET"), .connectToHost b!"h" 80, .write (b!"h", 80) b!"GET / HTTP/1.1\r\nHost: h\r\n\r\n", .headersCompleted 200 [⟨b!"Content-Length", b!"5"⟩], .abort]) _ _ _ _ ?_
    refine .other (l := [.accepted (demoReq b!"GET"), .connectToHost b!"h" 80, .write (b!"h", 80) b!"GET / HTTP/1.1\r\nHost: h\r\n\r\n", .headersCompleted 200 [⟨b!"Content-Length", b!"5"⟩]]) _ (by simp) (by simp) ?_
    refine .other (l := [.accepted (demoReq b!"GET"), .connectToHost b!"h" 80, .write (b!"h", 80) b!"GET / HTTP/1.1\r\nHost: h\r\n\r\n"]) _ (by simp) (by simp) ?_
    refine .other (l := [.accepted (demoReq b!"GET"), .connectToHost b!"h" 80]) _ (by simp) (by simp) ?_
    refine .other (l := [.accepted (demoReq b!"GET")]) _ (by simp) (by simp) ?_
    exact .accepted (l := []) _ .nil
  · exact C37_violation.2.2 _ (hh.1 h).1

/-- The signals of a log, with what they show. -/
def signalsOf (l : List CEv) : List CEv := l.filter fun | .accepted _ | .headersCompleted .. | .contentReadyRead _ | .finished .. | .consumed _ => true | _ => false

/-- A run with an interim response, content that comes in pieces and is consumed in between, and trailers. -/
theorem C76_example :
    let inputs : List CInput := [.call (.request (demoReq b!"GET")), .connected, .arrive b!"HTTP/1.1 100 Continue\r\n\r\nHTTP/1.1 200 OK\r\nTransfer-Encoding: chunked\r\n\r\n2\r\nab\r\n", .readyRead,
      .arrive b!"1\r\nc\r\n", .readyRead, .call .consumeContent, .arrive b!"1\r\nd\r\n0\r\nX: 1\r\nY: 2\r\n\r\n", .readyRead]
    let c := (Client.new [] [] [] []).run demoEnv 1 inputs
    signalsOf c.log = [.accepted (demoReq b!"GET"), .headersCompleted 200 [⟨b!"Transfer-Encoding", b!"chunked"⟩], .contentReadyRead b!"ab", .contentReadyRead b!"abc", .consumed b!"abc",
      .contentReadyRead b!"d", .finished .noError 200 [⟨b!"Transfer-Encoding", b!"chunked"⟩, ⟨b!"X", b!"1"⟩] b!"d"] := by
  decide +kernel

/-- **What should not be**: content a server adds to an interim response is reported, before `headersCompleted()`; as the example above shows, all trailers but the last become headers. -/
theorem C76_violation :
    let c := (Client.new [] [] [] []).run demoEnv 1 [.call (.request (demoReq b!"GET")), .connected,
      .arrive b!"HTTP/1.1 100 Continue\r\nContent-Length: 3\r\n\r\nabcHTTP/1.1 200 OK\r\nContent-Length: 0\r\n\r\n", .readyRead]
    signalsOf c.log = [.accepted (demoReq b!"GET"), .contentReadyRead b!"abc", .headersCompleted 200 [⟨b!"Content-Length", b!"0"⟩], .finished .noError 200 [⟨b!"Content-Length", b!"0"⟩] []] := by
  decide +kernel

/-- **What should not be**: `abort()` does not withdraw a request that has been put off.  In a slot of `finished()` the application makes a request and takes it back; it is sent nevertheless. -/
theorem C76_abort_deferred :
    let c := (Client.new [] [] [[.request (demoReq b!"PUT"), .abort]] []).run demoEnv 1 [.call (.request (demoReq b!"GET")), .connected, .arrive demoOk, .readyRead, .connected]
    c.log.filterMap (fun | .accepted r => some (0, r.method) | .deferred r => some (1, r.method) | .abort => some (2, none) | .write _ _ => some (3, none) | .finished .. => some (4, none) | _ => none) =
      [(0, some b!"GET"), (3, none), (4, none), (1, some b!"PUT"), (2, none), (0, some b!"PUT"), (3, none)] := by
  decide +kernel

end Pillow.Props
