import Verif.Spec.Protocol
import Verif.Spec.Router
/-!
# The parameters of a request, and what handlers set among them (C79)
-/
namespace Pillow.Spec
open Pillow

/-- `requestParams()` and `setRequestParam()` are called only while a request is being handled; `close()` not while `requestCompleted` is being handled. -/
def UsesInTime (s : Conf) (l : Label) : Prop :=
  Gentle s l ∧ ((l = .readParams ∨ ∃ n v, l = .setParam n v) → s.c.st = .sendingHeaders ∨ s.c.st = .sendingContent)

/-- What has been set since the last request was handed out, after the step from `s` to `s'`: a request that is handed out begins with nothing. -/
def nowSet (s s' : Conf) (l : Label) (sets : List (Bytes × Bytes)) : List (Bytes × Bytes) :=
  if (readys s'.c.log).length ≠ (readys s.c.log).length then []
  else match l with
    | .setParam n v => sets ++ [(n, v)]
    | _ => sets

/-- A history of a connection that leads to `s`, in which the parameters `sets` were set since the last request was handed out. -/
inductive History : Conf → List (Bytes × Bytes) → Prop where
  | start : History {} []
  | step (s s' : Conf) (l : Label) (sets : List (Bytes × Bytes)) : History s sets → UsesInTime s l → s.step l = some s' → History s' (nowSet s s' l sets)

/-- The value of a parameter: the last one set under this name (whatever the case of letters), else that of the first parameter of the query with this name, else nothing. -/
def valueOf (query sets : List (Bytes × Bytes)) (name : Bytes) : Bytes :=
  match (sets.filter fun p => decide (SameCI p.1 name)).getLast? with
  | some p => p.2
  | none => ((query.find? fun p => decide (SameCI p.1 name)).map (·.2)).getD []

end Pillow.Spec
