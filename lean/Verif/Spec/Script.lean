import Verif.Model.QtScript
import Verif.Spec.Forward
/-!
# What a handler for script files has to do (C67) and what a script has to be shown (C72)
-/
namespace Pillow.Spec
open Pillow

/-- What a text defines under a name. -/
def Defines {F : Type} (eval : Bytes → Except Bytes (Bytes → Option F)) (text name : Bytes) (f : F) : Prop := ∃ object, eval text = .ok object ∧ object name = some f

/-- What should become of a request when the file holds `text`: its function is run, or there is none and the answer is 500. -/
def RightOutcome {F : Type} (eval : Bytes → Except Bytes (Bytes → Option F)) (text name : Bytes) : ScriptOutcome F → Prop
  | .ran f => Defines eval text name f
  | .failed => ∀ f, ¬ Defines eval text name f

/-- Histories of a handler for one file and one function: whenever the file is written the time of its modification is later than that of all the versions
before (`seen`: the latest time so far), and it is not written while the handler is loading it. -/
inductive WrittenInOrder {F : Type} (eval : Bytes → Except Bytes (Bytes → Option F)) : Nat → ScriptHost F → Prop where
  | start (files : Bytes → Option (Nat × Bytes)) (fileName functionName : Bytes) (autoReload : Bool) (seen : Nat) : (∀ v, files fileName = some v → v.1 ≤ seen) →
      WrittenInOrder eval seen { files := files, fileName := fileName, functionName := functionName, autoReload := autoReload }
  | written {seen : Nat} {h h' : ScriptHost F} (name : Bytes) (v : Nat × Bytes) : WrittenInOrder eval seen h → seen < v.1 → (name = h.fileName → h.pc matches .idle) →
      h.step eval (.change name (some v)) = some h' → WrittenInOrder eval (if name = h.fileName then v.1 else seen) h'
  | removed {seen : Nat} {h h' : ScriptHost F} (name : Bytes) : WrittenInOrder eval seen h → (name = h.fileName → h.pc matches .idle) →
      h.step eval (.change name none) = some h' → WrittenInOrder eval seen h'
  | request {seen : Nat} {h h' : ScriptHost F} : WrittenInOrder eval seen h → h.step eval .request = some h' → WrittenInOrder eval seen h'
  | next {seen : Nat} {h h' : ScriptHost F} : WrittenInOrder eval seen h → h.step eval .next = some h' → WrittenInOrder eval seen h'

/-- The function run last. -/
def LastRan {F : Type} (outcomes : List (ScriptOutcome F)) (f : F) : Prop := ∃ a b, outcomes = a ++ .ran f :: b ∧ ∀ o ∈ b, o = .failed

/-- A request handled from beginning to end: `o` becomes of it. -/
def Handles {F : Type} (eval : Bytes → Except Bytes (Bytes → Option F)) (h h' : ScriptHost F) (o : ScriptOutcome F) : Prop :=
  ∃ k, h.run eval (.request :: List.replicate k .next) = some h' ∧ (h'.pc matches .idle) ∧ h'.outcomes = h.outcomes ++ [o]

/-! ### C72 -/

/-- `v` is what the client means by `sent`: what it is a percent-encoding of (malformed encodings mean nothing in particular). -/
def Means (sent v : Bytes) : Prop := ∀ raw, PctEncodes sent raw → v = raw

/-- The value of the last of the pairs with this very name. -/
def LastNamed (ps : List (Bytes × Bytes)) (n v : Bytes) : Prop := ∃ a b, ps = a ++ (n, v) :: b ∧ ∀ p ∈ b, p.1 ≠ n

/-- The script object has exactly the names of the pairs as properties, each with a value related to the last one of that name. -/
def HasLast (value : Bytes → Bytes → Prop) (ps : List (Bytes × Bytes)) (o : ScriptObject) : Prop :=
  (∀ n v, LastNamed ps n v → ∃ w, o.property n = some w ∧ value v w) ∧ ∀ n, (∀ p ∈ ps, p.1 ≠ n) → o.property n = none

/-- The name and the value of every header of a head. -/
def named (hs : List HeaderLine) : List (Bytes × Bytes) := hs.map fun l => (l.name, l.value)

/-- What a script is to be shown of a request; `items`: the items of the query of a url. (The uri: if it does not end in `?`, see C14.) -/
structure ShowsRequest (items : Bytes → List (Bytes × Bytes)) (hd : ReqHead) (content : Bytes) (o : ScriptRequest) : Prop where
  method : Means hd.method o.method
  uri : (∀ p, hd.target ≠ .origin p (some [])) → Means hd.target.uri o.uri
  fragment : Means (hd.fragment.getD []) o.fragment
  path : Means hd.target.path o.path
  query : Means hd.target.query o.queryString
  content : Means content o.content
  headers : HasLast Means (named hd.headers) o.headers
  params : (∀ p, hd.target ≠ .origin p (some [])) → HasLast (fun v w => w = v) (items hd.target.uri) o.queryParams

end Pillow.Spec
