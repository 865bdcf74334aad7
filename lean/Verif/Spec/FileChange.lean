import Verif.Spec.File
/-!
# Specification of transfers of files that other programs change meanwhile (C88)

As `Transfers` (Spec/File), but the content of the file may be replaced by anything, at any moment.  `size()` and `read()` of an open `QFile` show the
present content (the buffer of `QFile` is not modelled).
-/
namespace Pillow.Spec
open Pillow

/-- A transfer of a file whose contents so far have been `vs` (the last is the present one). -/
inductive Alters (first : Bytes) (bufferSize : Nat) (a : List Ev) (h : RespHead) : List Bytes → Xfer → Prop where
  | start (s : Conf) : Reach Proper s → s.inEnv = true → s.c.fault = none → s.c.log = a ++ [.head h] → NoWrites s.stack →
      Alters first bufferSize a h [first] ⟨s, Transfer.create first bufferSize, 1⟩
  | change (vs : List Bytes) (x : Xfer) (v : Bytes) : Alters first bufferSize a h vs x →
      Alters first bufferSize a h (vs ++ [v]) ⟨x.s, { x.t with content := v }, x.queued⟩
  | other (vs : List Bytes) (x : Xfer) (l : Label) (s' : Conf) (q : Nat) : Alters first bufferSize a h vs x → Proper x.s l →
      (Unfinished a h x.s.c.log → ∀ c, l = .call c → ¬ Writes c) → x.s.step l = some s' →
      (Sent x.s s' → q = x.queued + 1) → (¬ Sent x.s s' → q = x.queued ∨ q = x.queued + 1) →
      Alters first bufferSize a h vs ⟨s', x.t, q⟩
  | skip (vs : List Bytes) (x : Xfer) (q : Nat) : Alters first bufferSize a h vs x → x.s.inEnv = true → x.queued = q + 1 →
      (∀ d, x.s.c.dev = some d → x.t.next d.pending = none) → Alters first bufferSize a h vs ⟨x.s, x.t, q⟩
  | payload (vs : List Bytes) (x : Xfer) (q : Nat) (d : Dev) (chunk : Bytes) (t' : Transfer) (s' : Conf) (k : Nat) :
      Alters first bufferSize a h vs x → x.s.inEnv = true → x.s.c.fault = none → x.queued = q + 1 →
      (∀ b, x.s.c.log = a ++ .head h :: b → ∀ f u, .closed f u ∉ b) →
      x.s.c.dev = some d → x.t.next d.pending = some (chunk, t') →
      x.s.run [.call (.writeContent chunk), .tau k] = some s' → Alters first bufferSize a h vs ⟨s', t', q⟩

/-- Nothing will happen any more unless the client or the application does something: the library is not running, all bytes have been sent, and no call of
`writeNextPayload` is queued; yet the response is neither completed nor the connection closed. -/
def Stuck (a : List Ev) (h : RespHead) (x : Xfer) : Prop :=
  x.s.stack = [] ∧ (∃ d, x.s.c.dev = some d ∧ d.pending = 0) ∧ x.queued = 0 ∧ Unfinished a h x.s.c.log

end Pillow.Spec
