import Verif.Basic
/-!
# Model of `pillowcore/ByteArrayHelpers.h`
-/
namespace Pillow

/-- One comparison of the loop body of `asciiEqualsCaseInsensitive`
(ByteArrayHelpers.h:139-140, repeated verbatim at 152-153, 164-165, 176-177):
`(f == s) || ((f - s) == 32 && f >= 'a' && f <= 'z') || ((f - s) == -32 && f >= 'A' && f <= 'Z')`.
The C++ operands are `char`s promoted to `int`, so the difference is an integer difference; the range
tests confine `f` to ASCII letters, hence the signedness of `char` is irrelevant. -/
def charEqCI (f s : Byte) : Bool :=
  f == s
  || ((f.toNat : Int) - s.toNat == 32 && 97 ≤ f && f ≤ 122)
  || ((f.toNat : Int) - s.toNat == -32 && 65 ≤ f && f ≤ 90)

/-- The comparison loop over two equally long strings (ByteArrayHelpers.h:137-143). -/
def eqCILoop (cmp : Byte → Byte → Bool) : Bytes → Bytes → Bool
  | f :: fs, s :: ss => if !cmp f s then false else eqCILoop cmp fs ss
  | _, _ => true

/-- `asciiEqualsCaseInsensitive` (QByteArray / QLatin1Literal / pointer+size / Token overloads),
ByteArrayHelpers.h:134-181. -/
def asciiEqualsCI (a b : Bytes) : Bool :=
  if a.length != b.length then false else eqCILoop charEqCI a b

/-- Loop body of the `LowerCaseToken` overload (ByteArrayHelpers.h:188-189). -/
def charEqCILower (f s : Byte) : Bool :=
  f == s || ((f.toNat : Int) - s.toNat == -32 && 65 ≤ f && f ≤ 90)

/-- `asciiEqualsCaseInsensitive(const QByteArray&, const LowerCaseToken&)`, ByteArrayHelpers.h:183-193. -/
def asciiEqualsCILower (a tok : Bytes) : Bool :=
  if a.length != tok.length then false else eqCILoop charEqCILower a tok

/-- `unhex` (ByteArrayHelpers.h:195-201). -/
def unhex (c : Byte) : Byte :=
  if 48 ≤ c && c ≤ 57 then c - 48
  else if 97 ≤ c && c ≤ 102 then (c - 97) + 10
  else if 65 ≤ c && c ≤ 70 then (c - 65) + 10
  else 0

/-- `static_cast<char>(unhex(inData[1]) << 4 | unhex(inData[2]))`, ByteArrayHelpers.h:212.
The shift happens in `int` and the result is truncated to a byte; `unhex` is at most 15, so nothing is lost. -/
def unhexPair (a b : Byte) : Byte := (unhex a <<< 4) ||| unhex b

/-- State of the `while` loop of `percentDecodeInPlace`: the buffer, the read cursor `inData`, the write
cursor `data` (both as offsets) and the running `size`. (ByteArrayHelpers.h:203-223.) -/
structure PctState where
  buf : Bytes
  rd : Nat
  wr : Nat
  size : Nat
  deriving Repr, DecidableEq

/-- One iteration of the loop (ByteArrayHelpers.h:207-221); `n` is the original `size`, so the end pointer
`inDataE` is offset `n`.  Reads are `buf[i]!`; that every read and write is inside the `n` bytes is proved
(`Props/C04`). -/
def pctStep (n : Nat) (s : PctState) : PctState :=
  if s.buf[s.rd]! == 37 && decide (s.rd + 2 < n) then
    { buf := s.buf.set s.wr (unhexPair s.buf[s.rd + 1]! s.buf[s.rd + 2]!)
      rd := s.rd + 3, wr := s.wr + 1, size := s.size - 2 }
  else
    { buf := s.buf.set s.wr s.buf[s.rd]!
      rd := s.rd + 1, wr := s.wr + 1, size := s.size }

/-- The loop `while (inData < inDataE)` (ByteArrayHelpers.h:207). -/
def pctLoop (n : Nat) (s : PctState) : PctState :=
  if _h : s.rd < n then pctLoop n (pctStep n s) else s
termination_by n - s.rd
decreasing_by unfold pctStep; split <;> simp_all <;> omega

/-- `percentDecodeInPlace(char* data, int size)` (ByteArrayHelpers.h:203-223): the final buffer and the
returned size. -/
def percentDecodeInPlace (data : Bytes) : Bytes × Nat :=
  let s := pctLoop data.length ⟨data, 0, 0, data.length⟩
  (s.buf, s.size)

/-- The bytes handed to `QString::fromUtf8` by `percentDecode` (ByteArrayHelpers.h:225-256): the copy of the
input decoded in place, cut to the returned size.  The UTF-8 to UTF-16 conversion done by Qt is not modelled:
a decoded `QString` is represented by these bytes. -/
def percentDecode (data : Bytes) : Bytes :=
  let r := percentDecodeInPlace data
  r.1.take r.2

/-- `intToChar[n % Base]` / `char(n % Base) + '0'` for a digit below 16 (ByteArrayHelpers.h:116,119). -/
def digitChar (d : Nat) : Byte := if d < 10 then UInt8.ofNat (48 + d) else UInt8.ofNat (97 + (d - 10))

/-- The `do … while ((n /= Base) > 0)` loop (ByteArrayHelpers.h:119): digits, least significant first. -/
def digitsRev (base n : Nat) : Bytes :=
  if _h : base ≤ 1 ∨ n < base then [digitChar (n % base)]
  else digitChar (n % base) :: digitsRev base (n / base)
termination_by n
decreasing_by
  have : 0 < n := by omega
  exact Nat.div_lt_self this (by omega)

/-- The in-place reversal of the freshly appended part (ByteArrayHelpers.h:123-131): swap `data[start]` and
`data[end]` while `start < end`. -/
def reverseLoop (data : Bytes) (start fin : Nat) : Bytes :=
  if start < fin then
    reverseLoop ((data.set start data[fin]!).set fin data[start]!) (start + 1) (fin - 1)
  else data
termination_by fin - start

/-- `appendNumber<Integer, Base>` (ByteArrayHelpers.h:113-132) for a signed `bits`-bit `Integer`.
`none` is undefined behaviour: `n = -n` overflows when `number` is the most negative value. -/
def appendNumber (bits base : Nat) (target : Bytes) (number : Int) : Option Bytes :=
  if number = -(2 ^ (bits - 1) : Int) then none
  else
    let t := target ++ digitsRev base number.natAbs
    let t := if number < 0 then t ++ [45] else t
    some (reverseLoop t target.length (t.length - 1))

end Pillow
