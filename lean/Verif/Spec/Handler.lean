import Verif.Spec.Serve
import Verif.Lemmas.Head
import Verif.Model.HttpHandler
/-!
# Specification of the handlers (C29, C48, C52)
-/
namespace Pillow.Spec
open Pillow

/-- The handlers are asked one after the other, each in the world the previous one left, and all return false. -/
inductive AllRefuse {W : Type} : List (HandlerFn W) → W → W → Prop where
  | nil (w : W) : AllRefuse [] w w
  | cons (h : HandlerFn W) (hs : List (HandlerFn W)) (w w' w'' : W) : h w = (false, w') → AllRefuse hs w' w'' →
      AllRefuse (h :: hs) w w''

/-- A handler that writes its number into a list before it does what it does. -/
def noting {W : Type} (i : Nat) (h : HandlerFn W) : HandlerFn (W × List Nat) := fun w =>
  let r := h w.1
  (r.1, r.2, w.2 ++ [i])

/-- The call writes to the client. -/
def Writes : Call → Prop
  | .writeResponse _ _ _ | .writeHeaders _ _ | .writeContent _ | .endContent => True
  | _ => False

instance (a : Call) : Decidable (Writes a) := by cases a <;> unfold Writes <;> infer_instance

/-- The connection is served by this handler alone: whatever is called to write to the client is what the handler calls for the
request the connection shows. -/
def ServedBy (h : ReqView → Reply) (s : Conf) (l : Label) : Prop :=
  Gentle s l ∧ ∀ a, l = .call a → Writes a → a ∈ (h s.c.req).calls

/-- The responses to a list of requests: interim response if asked for, head, content unless the request is a HEAD. -/
inductive Answered (status : Int) (content : ReqView → Bytes) : List ReqView → Bytes → Prop where
  | nil : Answered status content [] []
  | cons (r : ReqView) (rs : List ReqView) (h : RespHead) (w : Bytes) :
      HeadSpec r (content r).length status [] h → Answered status content rs w →
      Answered status content (r :: rs)
        (interimFor r ++ (h.bytes ++ (if r.method = b!"HEAD" then [] else content r)) ++ w)

/-- The connection has been handed to the log handler and not been destroyed since. -/
def Seen (evs : List LogEv) (i : Nat) : Prop := ∃ a l b, evs = a ++ LogEv.handle i l :: b ∧ LogEv.destroyed i ∉ b

/-- The mode after these events. -/
def modeAfter (m : LogMode) (evs : List LogEv) : LogMode :=
  evs.foldl (fun m e => match e with | .setMode m' => m' | _ => m) m

open Classical in
/-- The lines an event must add after the events `pre`. -/
noncomputable def linesFor (m : LogMode) (pre : List LogEv) : LogEv → List (LogKind × Nat × LogLine)
  | .handle i l => if modeAfter m pre = .traceRequests then [(.begin, i, { l with outcome := none })] else []
  | .completed i l =>
    if Seen pre i then [(if modeAfter m pre = .traceRequests then .end_ else .plain, i, l)] else []
  | .closed i l => if Seen pre i ∧ modeAfter m pre = .traceRequests then [(.close, i, l)] else []
  | _ => []

/-- All lines for a history. -/
inductive LogOf (m : LogMode) : List LogEv → List (LogKind × Nat × LogLine) → Prop where
  | nil : LogOf m [] []
  | snoc (pre : List LogEv) (out : List (LogKind × Nat × LogLine)) (e : LogEv) :
      LogOf m pre out → LogOf m (pre ++ [e]) (out ++ linesFor m pre e)

/-- The events concerning one connection. -/
def completedOf (i : Nat) : LogEv → Bool
  | .completed j _ => i == j
  | _ => false

end Pillow.Spec
