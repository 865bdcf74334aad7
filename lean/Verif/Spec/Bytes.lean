import Verif.Basic
/-!
# Specifications for the byte helpers, written from the English properties (C01–C06)
-/
namespace Pillow.Spec
open Pillow

/-- ASCII lower-casing: `A`–`Z` to `a`–`z`, every other byte unchanged. -/
def lower (b : Byte) : Byte := if 65 ≤ b ∧ b ≤ 90 then b + 32 else b

/-- Two byte strings are equal up to ASCII letter case. -/
def SameCI (a b : Bytes) : Prop := a.map lower = b.map lower

instance (a b : Bytes) : Decidable (SameCI a b) := inferInstanceAs (Decidable (_ = _))

/-- Value of one hex digit, `none` for any other byte. -/
def hexVal (c : Byte) : Option Nat :=
  if 48 ≤ c ∧ c ≤ 57 then some (c.toNat - 48)
  else if 97 ≤ c ∧ c ≤ 102 then some (c.toNat - 97 + 10)
  else if 65 ≤ c ∧ c ≤ 70 then some (c.toNat - 65 + 10)
  else none

/-- `PctEncodes enc raw`: `enc` is a percent-encoding of `raw` (RFC 3986 §2.1): every raw byte is written
either literally (not possible for `%`) or as `%` and two hex digits of either case. -/
inductive PctEncodes : Bytes → Bytes → Prop where
  | nil : PctEncodes [] []
  | plain (b : Byte) (enc raw : Bytes) : b ≠ 37 → PctEncodes enc raw → PctEncodes (b :: enc) (b :: raw)
  | escaped (h l b : Byte) (hv lv : Nat) (enc raw : Bytes) :
      hexVal h = some hv → hexVal l = some lv → b.toNat = 16 * hv + lv →
      PctEncodes enc raw → PctEncodes (37 :: h :: l :: enc) (b :: raw)

/-- What decoding makes of any text, percent-encoded or not: three bytes starting with `%` become one, in which a byte that is
not a hex digit counts as 0; a `%` with fewer than two bytes after it, and every other byte, stays. -/
inductive PctRead : Bytes → Bytes → Prop where
  | nil : PctRead [] []
  | plain (b : Byte) (s out : Bytes) : b ≠ 37 → PctRead s out → PctRead (b :: s) (b :: out)
  | last (s : Bytes) : s.length ≤ 1 → PctRead (37 :: s) (37 :: s)
  | triple (h l b : Byte) (s out : Bytes) : b.toNat = 16 * (hexVal h).getD 0 + (hexVal l).getD 0 → PctRead s out →
      PctRead (37 :: h :: l :: s) (b :: out)

/-- Reading a digit string in the given base (most significant first); `none` on an empty string or a byte
that is not a digit of the base. -/
def readNat (base : Nat) (s : Bytes) : Option Nat :=
  if s = [] then none
  else s.foldl (fun acc c => do
    let a ← acc
    let d ← hexVal c
    if d < base then some (base * a + d) else none) (some 0)

/-- Reading an optionally signed number. -/
def readInt (base : Nat) : Bytes → Option Int
  | 45 :: s => (readNat base s).map fun n => -(n : Int)
  | s => (readNat base s).map fun n => (n : Int)

/-- No superfluous leading zero. -/
def Canonical : Bytes → Prop
  | [48] => True
  | 45 :: 48 :: _ => False
  | 48 :: _ => False
  | _ => True

end Pillow.Spec
