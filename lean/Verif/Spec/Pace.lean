import Verif.Spec.ClientReply
/-!
# Reading at the pace of the application (C59)
-/
namespace Pillow.Spec
open Pillow

/-- The content of the response that an event shows. -/
def content : CEv → Bytes
  | .contentReadyRead ct | .finished _ _ _ ct | .consumed ct => ct
  | _ => []

/-- The size of the read buffer is not set. -/
def NoResize (calls : List UserCall) : Prop := ∀ n, .setReadBufferSize n ∉ calls

/-- The application takes the content that is there, and returns to the event loop, `k` times. -/
def takings (k : Nat) : List CInput := (List.replicate k [.call .consumeContent, .timeout]).flatten

end Pillow.Spec
