import Verif.Spec.ClientRun
/-!
# The order of the client's signals, and what they show (C76)
-/
namespace Pillow.Spec
open Pillow

/-- How far a request has come: there is none, its response has not been announced, or it has been announced, with its status, its headers and
the content that has been reported and not consumed.  And what should not be: a HEAD request whose response has been announced has been aborted, and will be reported as finished once more. -/
inductive Stage where
  | idle
  | waiting (r : ClientRequest)
  | shown (r : ClientRequest) (status : Nat) (headers : Headers) (content : Bytes)
  | again (status : Nat) (headers : Headers) (content : Bytes)

/-- What `finished()` may show: once a response has been announced, its status, its headers (and trailers), and the content that has been reported. -/
def Stage.Ends : Stage → Nat → Headers → Bytes → Prop
  | .waiting _, _, _, _ => True
  | .shown _ st hs ct, st', hs', ct' => st' = st ∧ hs <+: hs' ∧ ct' = ct
  | _, _, _, _ => False

/-- The response to a HEAD request has been announced. -/
def Stage.HeadShown : Stage → Prop
  | .shown r _ _ _ => IsHead r
  | _ => False

/-- The content that has been reported and not consumed, if the response has been announced. -/
def Stage.content : Stage → Option Bytes
  | .shown _ _ _ ct => some ct
  | .again _ _ ct => some ct
  | _ => none

/-- Events that do not belong to the order. -/
def CEv.Aside : CEv → Prop
  | .accepted _ | .headersCompleted .. | .contentReadyRead _ | .finished .. => False
  | _ => True

/-- The error tells what has happened: `AbortedError` that the connection has just been aborted, the others that it has just been closed. -/
def Because (l : List CEv) (e : CError) : Prop := if e = .aborted then ∃ k, l = k ++ [.abort] else ∃ k, l = k ++ [.close]

/-- The signals of a request come in order: `headersCompleted()` at most once, then `contentReadyRead()` any number of times, each time with content to which some has been added, then
`finished()`; without error only if `headersCompleted()` has been emitted. -/
inductive Signals : List CEv → Stage → Prop where
  | nil : Signals [] .idle
  | accepted {l : List CEv} (r : ClientRequest) : Signals l .idle → Signals (l ++ [.accepted r]) (.waiting r)
  /-- The content of an interim response: should not be reported, but see `C76_violation`. -/
  | interim {l : List CEv} {r : ClientRequest} (ct : Bytes) : Signals l (.waiting r) → Signals (l ++ [.contentReadyRead ct]) (.waiting r)
  | headers {l : List CEv} {r : ClientRequest} (st : Nat) (hs : Headers) : Signals l (.waiting r) → st ≠ 100 → Signals (l ++ [.headersCompleted st hs]) (.shown r st hs [])
  | content {l : List CEv} {r : ClientRequest} {st : Nat} {hs : Headers} {ct : Bytes} (more : Bytes) : Signals l (.shown r st hs ct) →
      Signals (l ++ [.contentReadyRead (ct ++ more)]) (.shown r st hs (ct ++ more))
  | consumed {l : List CEv} {r : ClientRequest} {st : Nat} {hs : Headers} {ct : Bytes} : Signals l (.shown r st hs ct) → Signals (l ++ [.consumed ct]) (.shown r st hs [])
  | complete {l : List CEv} {r : ClientRequest} {st : Nat} {hs : Headers} {ct : Bytes} (hs' : Headers) : Signals l (.shown r st hs ct) → hs <+: hs' →
      Signals (l ++ [.finished .noError st hs' ct]) .idle
  | failed {l : List CEv} {s : Stage} (e : CError) (st : Nat) (hs : Headers) (ct : Bytes) : Signals l s → s.Ends st hs ct → e ≠ .noError → Because l e → ¬ (s.HeadShown ∧ e = .aborted) →
      Signals (l ++ [.finished e st hs ct]) .idle
  /-- A HEAD request is aborted after `headersCompleted()`: `finished()` comes, … -/
  | abortedHead {l : List CEv} {s : Stage} (st : Nat) (hs : Headers) (ct : Bytes) : Signals l s → s.HeadShown → s.Ends st hs ct → Because l .aborted →
      Signals (l ++ [.finished .aborted st hs ct]) (.again st hs ct)
  | consumedAgain {l : List CEv} {st : Nat} {hs : Headers} {ct : Bytes} : Signals l (.again st hs ct) → Signals (l ++ [.consumed ct]) (.again st hs [])
  /-- … and once more: it should not, see `C37_violation`. -/
  | again {l : List CEv} {st : Nat} {hs : Headers} {ct : Bytes} : Signals l (.again st hs ct) → Signals (l ++ [.finished .aborted st hs ct]) .idle
  | other {l : List CEv} {s : Stage} (e : CEv) : CEv.Aside e → (∀ ct, e = .consumed ct → s.content = none) → Signals l s → Signals (l ++ [e]) s

/-- At the end of `l` there is a HEAD request that is not finished and whose response has been announced. -/
def HeadAnnounced (l : List CEv) : Prop :=
  ∃ l₁ r l₂ st hs l₃, l = l₁ ++ .accepted r :: l₂ ++ .headersCompleted st hs :: l₃ ∧ IsHead r ∧
    ∀ e ∈ l₂ ++ l₃, (∀ r, e ≠ .accepted r) ∧ ∀ x st hs ct, e ≠ .finished x st hs ct

/-- A HEAD request has been aborted between its `headersCompleted()` and its `finished()`. -/
def HeadAborted (log : List CEv) : Prop := ∃ l st hs ct rest, HeadAnnounced l ∧ log = l ++ .abort :: .finished .aborted st hs ct :: rest

end Pillow.Spec
