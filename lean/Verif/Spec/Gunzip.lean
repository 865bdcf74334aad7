import Verif.Model.Gunzip
import Verif.Spec.ClientReply
/-!
# Compressed content (C77): what is assumed of zlib
-/
namespace Pillow.Spec
open Pillow

/-- A format of compressed data: the complete streams, and what can be decoded from the beginning of one. -/
structure Format where
  Whole : Bytes → Prop
  plain : Bytes → Bytes

/-- `Z` decodes the format `F` as zlib does. `At i o s` tells that the stream `s` has taken `i` and delivered `o`. -/
structure Decodes (F : Format) (Z : Zlib) (At : Bytes → Bytes → Z.State → Prop) : Prop where
  nothing : F.plain [] = []
  /-- What comes later does not change what has been decoded. -/
  mono : ∀ {i j w : Bytes}, F.Whole w → i <+: j → j <+: w → F.plain i <+: F.plain j
  init : At [] [] Z.init
  /-- Nothing is delivered that is not in the input. -/
  within : ∀ {i o w : Bytes} {s : Z.State}, At i o s → F.Whole w → i <+: w → o <+: F.plain i
  /-- The end of the input (the checksum) is taken only when everything has been delivered. -/
  last : ∀ {o w : Bytes} {s : Z.State}, At w o s → F.Whole w → o = F.plain w
  /-- In the middle of a stream, some input and some space: there is no error, and unless the space is used up, all of the input is taken, up to the end of the
  stream, and all that can be decoded is delivered. -/
  step : ∀ {i o w data : Bytes} {s : Z.State} {cap : Nat}, At i o s → F.Whole w → i <+: w → i ≠ w → data ≠ [] → 0 < cap → (i ++ data <+: w ∨ w <+: i ++ data) →
    (Z.inflate s data cap).bad = false ∧ (Z.inflate s data cap).taken ≤ data.length ∧ (Z.inflate s data cap).out.length ≤ cap ∧
    i ++ data.take (Z.inflate s data cap).taken <+: w ∧ At (i ++ data.take (Z.inflate s data cap).taken) (o ++ (Z.inflate s data cap).out) (Z.inflate s data cap).state ∧
    ((Z.inflate s data cap).out.length < cap → (Z.inflate s data cap).taken = data.length ∨ i ++ data.take (Z.inflate s data cap).taken = w) ∧
    ((Z.inflate s data cap).out.length < cap → o ++ (Z.inflate s data cap).out = F.plain (i ++ data.take (Z.inflate s data cap).taken))
  /-- After the end of the stream, nothing is taken or delivered, and this is not an error. -/
  idle : ∀ {o w data : Bytes} {s : Z.State} {cap : Nat}, At w o s → F.Whole w → data ≠ [] → 0 < cap →
    (Z.inflate s data cap).bad = false ∧ (Z.inflate s data cap).taken = 0 ∧ (Z.inflate s data cap).out = [] ∧ At w o (Z.inflate s data cap).state

end Pillow.Spec
