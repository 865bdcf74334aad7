import Verif.Spec.Response
import Verif.Spec.Handler
/-!
# Specification of the file handler (C32, C33)
-/
namespace Pillow.Spec
open Pillow

/-- The file with this path is in the directory `dir` or below it. -/
def Inside (dir path : Bytes) : Prop := ∃ rest, path = dir ++ b!"/" ++ rest

/-- The call does not write, and no call on the way does. -/
def NoWrites (stack : List Instr) : Prop :=
  ∀ i ∈ stack, (∀ ct, i ≠ .writeContent ct) ∧ (∀ ct, i ≠ .writeResponseRest ct) ∧ (∀ st hs ct, i ≠ .writeResponse st hs ct)

/-- A connection, a file transfer on it, and the number of calls of `writeNextPayload` waiting in the event queue. -/
structure Xfer where
  s : Conf
  t : Transfer
  queued : Nat

/-- Nothing after the head has ended the response: the events since are `b`. -/
def Unfinished (a : List Ev) (h : RespHead) (log : List Ev) : Prop :=
  ∃ b, log = a ++ .head h :: b ∧ ∀ e ∈ b, e ≠ .completed ∧ ∀ f u, e ≠ .closed f u

/-- Bytes left the device (it then emits `bytesWritten`). -/
def Sent (s s' : Conf) : Prop := ∃ d d', s.c.dev = some d ∧ s'.c.dev = some d' ∧ d'.pending < d.pending

/-- A transfer on a connection, from the moment the head `h` has been written (the events before it are `a`): the
connection does anything it can do, except that nobody else writes content while the response is unfinished; each time bytes leave
the device a call of `writeNextPayload` is queued; the transfer is deleted when the connection closes.

* `start`: `writeNextPayload` is called directly (HttpHandler.cpp:335), hence one call.
* `payload`: `writeNextPayload` (HttpHandler.cpp:361-377) is entered by the event loop or by the handler. -/
inductive Transfers (content : Bytes) (bufferSize : Nat) (a : List Ev) (h : RespHead) : Xfer → Prop where
  | start (s : Conf) : Reach Proper s → s.inEnv = true → s.c.fault = none → s.c.log = a ++ [.head h] → NoWrites s.stack →
      Transfers content bufferSize a h ⟨s, Transfer.create content bufferSize, 1⟩
  | other (x : Xfer) (l : Label) (s' : Conf) (q : Nat) : Transfers content bufferSize a h x → Proper x.s l →
      (Unfinished a h x.s.c.log → ∀ c, l = .call c → ¬ Writes c) → x.s.step l = some s' →
      (Sent x.s s' → q = x.queued + 1) → (¬ Sent x.s s' → q = x.queued ∨ q = x.queued + 1) →
      Transfers content bufferSize a h ⟨s', x.t, q⟩
  | skip (x : Xfer) (q : Nat) : Transfers content bufferSize a h x → x.s.inEnv = true → x.queued = q + 1 →
      (∀ d, x.s.c.dev = some d → x.t.next d.pending = none) → Transfers content bufferSize a h ⟨x.s, x.t, q⟩
  | payload (x : Xfer) (q : Nat) (d : Dev) (chunk : Bytes) (t' : Transfer) (s' : Conf) (k : Nat) :
      Transfers content bufferSize a h x → x.s.inEnv = true → x.s.c.fault = none → x.queued = q + 1 →
      (∀ b, x.s.c.log = a ++ .head h :: b → ∀ f u, .closed f u ∉ b) →
      x.s.c.dev = some d → x.t.next d.pending = some (chunk, t') →
      x.s.run [.call (.writeContent chunk), .tau k] = some s' → Transfers content bufferSize a h ⟨s', t', q⟩

end Pillow.Spec
