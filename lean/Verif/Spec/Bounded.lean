import Verif.Spec.Protocol
/-!
# What a connection may hold of its client's input (C83)
-/
namespace Pillow.Spec
open Pillow

/-- Control is in the event loop and the connection expects input. -/
structure ExpectsInput (s : Conf) : Prop where
  idle : s.stack = []
  alive : s.c.fault = none
  state : s.c.st = .receivingHeaders ∨ s.c.st = .receivingContent

/-- The beginning of one request: of its head, or its head and not yet all the content it announces. -/
inductive PartOfRequest : Bytes → Prop where
  | head (held : Bytes) : held.length ≤ headLimit + 1 → (∀ h : ReqHead, h.Wf → ¬ h.render <+: held) → PartOfRequest held
  | content (h : ReqHead) (n : Nat) (part : Bytes) : Acceptable h n → part.length < n → PartOfRequest (h.render ++ part)

/-- The bytes that arrive with a label. -/
def Label.arriving : Label → Bytes
  | .recv bs => bs
  | _ => []

end Pillow.Spec
