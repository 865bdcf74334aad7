import Verif.Model.MethodRoute
/-!
# Methods of objects that routes lead to (C81)
-/
namespace Pillow.Spec
open Pillow

/-- A name in C++: letters, digits and underscores, no digit in front. -/
def Identifier (s : Bytes) : Prop := s ≠ [] ∧ (∀ b ∈ s, (97 ≤ b ∧ b ≤ 122) ∨ (65 ≤ b ∧ b ≤ 90) ∨ (48 ≤ b ∧ b ≤ 57) ∨ b = 95) ∧ ∀ b, s.head? = some b → ¬ (48 ≤ b ∧ b ≤ 57)

/-- The methods of the class have names. -/
def Named (o : MetaObject) : Prop := ∀ m ∈ o.methods, Identifier m.name

/-- The method of the object with this name that is to be called with a request: the first one in the order of Qt's lookup. -/
def IsMethod (o : MetaObject) (name : Bytes) (m : MetaMethod) : Prop :=
  ∃ before after, o.methods = before ++ m :: after ∧ m.name = name ∧ m.params = [b!"Pillow::HttpConnection*"] ∧ ∀ x ∈ before, ¬ (x.name = name ∧ x.params = [b!"Pillow::HttpConnection*"])

end Pillow.Spec
