/-!
# Bytes and byte-string literals

A `QByteArray` / `char*`+length is a list of bytes.  `b!"GET"` is notation for the list of the UTF-8 bytes of
the literal; it is expanded at elaboration time to a plain list of numerals.
-/

namespace Pillow

abbrev Byte := UInt8
abbrev Bytes := List UInt8

open Lean in
/-- `b!"text"` is the list of bytes of the literal. -/
macro:max "b!" s:str : term => do
  let bs := s.getString.toUTF8.toList
  let xs : Array (TSyntax `term) :=
    (bs.map fun b => (Syntax.mkNumLit (toString b.toNat) : TSyntax `term)).toArray
  `(([ $xs,* ] : List UInt8))

/-- A property of all 256 bytes, lifted from bit vectors (which have a decidable `∀`). -/
theorem byte_forall {P : UInt8 → Prop} (h : ∀ b : BitVec 8, P ⟨b⟩) : ∀ b, P b := fun b => h b.toBitVec

theorem byte_forall₂ {P : UInt8 → UInt8 → Prop} (h : ∀ a b : BitVec 8, P ⟨a⟩ ⟨b⟩) : ∀ a b, P a b :=
  fun a b => h a.toBitVec b.toBitVec

end Pillow
