import Verif.Model.RequestMemory
/-!
# Specification for C95: which uses of the memory of the request buffer are allowed
-/
namespace Pillow.MemorySpec
open Pillow

/-- The content of the buffer after a use. (Specification of the stores of HttpConnection.cpp:164-170 and ByteArrayHelpers.h:72, 90.) -/
def apply (buf : Bytes) : Access → Bytes
  | .fill bs => buf ++ bs
  | .nul i => buf.set i 0
  | _ => buf

/-- A use of a buffer that contains `size` bytes, for which `cap + 1` bytes are allocated, stays inside: what is stored behind the content lies, with the NUL behind it, in what is
allocated; everything else that is read or changed is content. (Specification for HttpConnection.cpp:157-298, 420-430.) -/
def Legal (cap size : Nat) : Access → Prop
  | .fill bs => size + bs.length < cap + 1
  | .scan off => off ≤ size
  | .nul i => i < size
  | .view s => s.start + s.len ≤ size

/-- All uses, one after another, stay inside. (Specification for HttpConnection.cpp:157-298, 420-430.) -/
def Within (cap : Nat) : Bytes → List Access → Prop
  | _, [] => True
  | buf, a :: l => Legal cap buf.length a ∧ Within cap (apply buf a) l

/-- A connection with the capacity of its buffer, after any sequence of moves of foreign code, the device and itself. (Specification for HttpConnection.cpp:139-353, 632-656.) -/
inductive Tracked : Conf → Nat → Prop where
  | start : Tracked {} 0
  | step (s s' : Conf) (l : Label) (cap : Nat) : Tracked s cap → s.step l = some s' → Tracked s' (s.capacityAfter l cap)

end Pillow.MemorySpec
