import Verif.Spec.Connection
import Verif.Model.HttpConnection
/-!
# Specification of what an observer of one connection can see

`Runs log phase`: the sequence of events `log` follows the protocol and leads to `phase`.  The properties
C15, C18–C21, C25 are read off this in `Props/Protocol.lean`.
-/
namespace Pillow.Spec
open Pillow

/-- The events since the last `initialize`. -/
def epoch (log : List Ev) : List Ev := log.foldl (fun acc e => if e = .init then [] else acc ++ [e]) []

/-- The bytes an event delivers to the device. -/
def Ev.bytesIn : Ev → Bytes
  | .recv bs => bs
  | _ => []

/-- All bytes received. -/
def received (log : List Ev) : Bytes := (log.map Ev.bytesIn).flatten

def Ev.request : Ev → Option ReqView
  | .ready r => some r
  | _ => none

/-- The requests passed to the handler. -/
def readys (log : List Ev) : List ReqView := log.filterMap Ev.request

/-- The value of the first header with this name (up to letter case); empty if there is none. -/
def firstValue (hs : Headers) (name : Bytes) : Bytes :=
  ((hs.find? fun h => decide (SameCI h.name name)).map (·.value)).getD []

/-- The request asks for an interim response: it has content and its first `Expect` header is `100-continue`. -/
def WantsContinue (r : ReqView) : Prop :=
  r.content ≠ [] ∧ SameCI (firstValue r.headers b!"expect") b!"100-continue"

/-- `h` is a response head `writeHeaders` / `writeResponse` can produce for the request `r`. -/
def HeadOf (r : ReqView) (h : RespHead) : Prop :=
  ∃ (lenIn status : Int) (hs : Headers), -1 ≤ lenIn ∧
    buildHead [] (r.version == b!"HTTP/1.1") r lenIn false status hs = some h

inductive Phase where
  /-- Never initialized. -/
  | off
  /-- Receiving a request; the interim response has been written or not. -/
  | recv (interim : Bool)
  /-- The handler has the request and has not sent the head. -/
  | busy (r : ReqView)
  /-- Head sent, and this many content bytes. -/
  | sending (r : ReqView) (h : RespHead) (n : Nat)
  /-- The response is complete. -/
  | ended (r : ReqView) (h : RespHead)
  /-- Waiting for the written bytes to leave. -/
  | flushing
  | closed
  deriving DecidableEq

/-- After the response. -/
def Phase.after (h : RespHead) : Phase := if h.keepAlive then .recv false else .flushing

/-- The allowed events.  With `loose` a connection that is already closed may emit `closed` again: this happens
when `close()` was called while `requestCompleted` was being handled (a defect, see C15). -/
inductive Next (loose : Bool) : Phase → Ev → Phase → Prop where
  | init (p : Phase) : p = .off ∨ p = .closed → Next loose p .init (.recv false)
  | recv (p : Phase) (bs : Bytes) : Next loose p (.recv bs) p
  | interim : Next loose (.recv false) .interim (.recv true)
  | ready (i : Bool) (r : ReqView) : (i = true ↔ WantsContinue r) → Next loose (.recv i) (.ready r) (.busy r)
  | error (code : Int) : Next loose (.recv false) (.errorReply code) .flushing
  | head (r : ReqView) (h : RespHead) : HeadOf r h →
      Next loose (.busy r) (.head h) (if h.len = 0 ∨ r.method = b!"HEAD" then .ended r h else .sending r h 0)
  | body (r : ReqView) (h : RespHead) (n : Nat) (bs : Bytes) : bs ≠ [] → h.chunked = false → r.method ≠ b!"HEAD" →
      h.len ≠ 0 → (0 < h.len → (n + bs.length : Int) ≤ h.len) →
      Next loose (.sending r h n) (.body bs)
        (if (n + bs.length : Int) = h.len then .ended r h else .sending r h (n + bs.length))
  | chunk (r : ReqView) (h : RespHead) (n : Nat) (bs : Bytes) : bs ≠ [] → h.chunked = true → r.method ≠ b!"HEAD" →
      h.len = -1 → Next loose (.sending r h n) (.chunk bs) (.sending r h (n + bs.length))
  | lastChunk (r : ReqView) (h : RespHead) (n : Nat) : h.chunked = true → r.method ≠ b!"HEAD" →
      Next loose (.sending r h n) .lastChunk (.ended r h)
  | completed (r : ReqView) (h : RespHead) : Next loose (.ended r h) .completed (.after h)
  | completedOpen (r : ReqView) (h : RespHead) (n : Nat) : h.len < 0 → h.chunked = false → r.method ≠ b!"HEAD" →
      Next loose (.sending r h n) .completed (.after h)
  | forced (p : Phase) (u : Nat) : p ≠ .closed → (∀ r h, p ≠ .ended r h) → Next loose p (.closed true u) .closed
  | drained : Next loose .flushing (.closed false 0) .closed
  | again : loose = true → Next loose .closed (.closed true 0) .closed

inductive Runs (loose : Bool) : List Ev → Phase → Prop where
  | start : Runs loose [] .off
  | step (log : List Ev) (p p' : Phase) (e : Ev) : Runs loose log p → Next loose p e p' → Runs loose (log ++ [e]) p'

/-- Bytes that have arrived and that the connection has not read yet. -/
def unread (c : Conn) : Bytes :=
  match c.dev with
  | some d => d.inp
  | none => []

/-- The connection has done all it can with what has arrived: control is in the event loop, everything received has
been read, and the state is one of the two receiving states. -/
structure Waiting (s : Conf) : Prop where
  idle : s.stack = []
  alive : s.c.fault = none
  allRead : unread s.c = []
  state : s.c.st = .receivingHeaders ∨ s.c.st = .receivingContent

/-- What the accessors show of a list of requests. -/
def shownAll (reqs : List (ReqHead × Bytes)) : List ReqView := reqs.map fun q => q.1.shown q.2

/-- `initialize()` is only called, from the event loop, on a connection that is not in use. -/
def Proper (s : Conf) (l : Label) : Prop := l = .init → s.stack = [] ∧ (s.c.st = .uninitialized ∨ s.c.st = .closed)

/-- Moreover `close()` is not called while `requestCompleted` is being handled (the state is `Completed`). -/
def Gentle (s : Conf) (l : Label) : Prop := Proper s l ∧ (l = .call .close → s.c.st ≠ .completed)

/-- `h` is the last response head that was written. -/
def LastHead (log : List Ev) (h : RespHead) : Prop := ∃ a b, log = a ++ .head h :: b ∧ ∀ e ∈ b, ∀ x, e ≠ .head x

/-- `close()` may also be called while `requestCompleted` is being handled, if the response just completed announced that the connection is closed after it. -/
def Parting (s : Conf) (l : Label) : Prop :=
  Proper s l ∧ (l = .call .close → s.c.st = .completed → ∀ h, LastHead s.c.log h → h.keepAlive = false)

end Pillow.Spec
