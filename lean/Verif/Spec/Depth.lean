import Verif.Spec.Protocol
/-!
# How long the connection keeps control, and how deep its calls nest (C85)
-/
namespace Pillow.Spec
open Pillow

/-- How many signals of the connection are being handled at this moment, one inside the other: each of them holds on to
a part of the call stack until its slots return. -/
def depth (s : Conf) : Nat := s.stack.count .env

/-- A step of the connection, or the return of a slot. -/
def Onward (l : Label) : Prop := (∃ k, l = .tau k) ∨ l = .ret

/-- The methods that answer a request. -/
def Answering : Call → Prop
  | .writeResponse .. | .writeHeaders .. | .writeContent .. | .endContent => True
  | _ => False

/-- Slots only answer requests: the other methods are called from the event loop, and the socket reports written bytes
from the event loop only. -/
def SlotsAnswer (s : Conf) (l : Label) : Prop :=
  Gentle s l ∧ (s.stack ≠ [] → (∀ a, l = .call a → Answering a) ∧ ∀ k, l ≠ .bytesWritten k)

/-- The simplest server: whoever is told of a request answers it at once with an empty response, and all other slots do nothing.
From the event loop the connection is initialized, receives bytes, and is told to read them. -/
def AtOnce (s : Conf) (l : Label) : Prop :=
  Gentle s l ∧ match l with
  | .call a => (s.stack = [] ∧ a = .processInput) ∨ (s.stack ≠ [] ∧ s.c.st = .sendingHeaders ∧ a = .writeResponse 200 [] [])
  | .tau _ | .ret => True
  | .recv _ | .init => s.stack = []
  | _ => False

/-- From one configuration to a later one. -/
inductive Later (allowed : Conf → Label → Prop) : Conf → Conf → Prop where
  | refl (s : Conf) : Later allowed s s
  | step (s t u : Conf) (l : Label) : Later allowed s t → allowed t l → t.step l = some u → Later allowed s u

/-- How many calls lead from one configuration to a later one: calls of methods, and reports of written bytes (which call
`drain`). -/
inductive Calls : Conf → Nat → Conf → Prop where
  | refl (s : Conf) : Calls s 0 s
  | call (s t u : Conf) (n : Nat) (l : Label) : Calls s n t → ((∃ a, l = .call a) ∨ ∃ k, l = .bytesWritten k) → t.step l = some u → Calls s (n + 1) u
  | other (s t u : Conf) (n : Nat) (l : Label) : Calls s n t → (∀ a, l ≠ .call a) → (∀ k, l ≠ .bytesWritten k) → t.step l = some u → Calls s n u

end Pillow.Spec
