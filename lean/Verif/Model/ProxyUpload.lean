import Verif.Model.HttpHandlerProxy
/-!
# Model of the content a proxy sends upstream (pillowcore/HttpHandlerProxy.cpp:50-66)

`createProxiedReply` makes a `QBuffer` directly over the byte array the connection returns from `requestContent()`: nothing is copied. The upstream reply owns the buffer, and reads from
it whenever it can send more. Such a reading takes the bytes the connection holds at that time, from the position the buffer is at.

`teardown()` disconnects the pipe from the reply, and asks for the reply to be deleted; that happens when control is back in the event loop (`deleteLater`, lines 99-104). Until then the reply exists, and with
it the buffer.

Simplifications:
* When and how much the reply reads is decided by Qt: at any time when foreign code (and so possibly an event loop) is in control, any number of bytes.
* After `initialize` the connection's byte array keeps pointing to the buffer that is used for the next client; reading through it is recorded as `stale`, with the bytes unspecified (the old ones here).
-/
namespace Pillow

/-- A pipe and the content that is sent upstream. (HttpHandlerProxy.cpp:50-66.) -/
structure Uploading where
  p : Piped
  /-- What was sent upstream as content; its length is `QBuffer::pos()`. -/
  sent : Bytes := []
  /-- A byte was read through a dead view. -/
  stale : Bool := false
  /-- The reply (and with it the buffer) is deleted (lines 62, 102). -/
  gone : Bool := false
  deriving Repr, DecidableEq

/-- What the buffer returns when `n` bytes are asked for: it is opened over the connection's byte array itself. (HttpHandlerProxy.cpp:55-56.) -/
def Uploading.next (x : Uploading) (n : Nat) : Bytes := (x.p.s.c.req.content.drop x.sent.length).take n

/-- What can happen: to the connection and the pipe, or to the upstream reply (HttpHandlerProxy.cpp:50-66, 89-107). -/
inductive ULabel where
  | pipe (l : PLabel)
  /-- The reply reads up to `n` bytes of the content and sends them. -/
  | upload (n : Nat)
  /-- The event loop deletes the reply that was passed to `deleteLater`. -/
  | reap
  deriving Repr, DecidableEq

/-- One step. (HttpHandlerProxy.cpp:50-66, 89-107.) -/
def Uploading.step (u : Upstream) (x : Uploading) : ULabel → Option Uploading
  | .pipe l => (x.p.step u l).map fun p' => { x with p := p' }
  | .upload n => if x.gone = false ∧ x.p.s.inEnv = true then some { x with sent := x.sent ++ x.next n, stale := x.stale || (!x.p.s.c.viewsValid && x.next n != []) } else none
  | .reap => if x.p.broken = true ∧ x.p.s.stack = [] then some { x with gone := true } else none

/-- A sequence of steps (HttpHandlerProxy.cpp:50-66, 89-107). -/
def Uploading.run (u : Upstream) (x : Uploading) : List ULabel → Option Uploading
  | [] => some x
  | l :: ls => (x.step u l).bind fun x' => x'.run u ls

end Pillow
