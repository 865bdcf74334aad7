import Verif.Basic
/-!
# Specification of the request head grammar (C09), written from `parser/common.rl`

A head is an abstract syntax tree `ReqHead`; `render` is its concrete syntax and `Wf` says which trees are
allowed.  Nothing here refers to the parser.
-/
namespace Pillow.Spec
open Pillow

/-- Membership in an explicit alphabet. -/
def oneOf (alphabet : List UInt8) (b : Byte) : Prop := b ∈ alphabet

instance (a : List UInt8) (b : Byte) : Decidable (oneOf a b) := inferInstanceAs (Decidable (_ ∈ _))

def upperA : Bytes := b!"ABCDEFGHIJKLMNOPQRSTUVWXYZ"
def lowerA : Bytes := b!"abcdefghijklmnopqrstuvwxyz"
def digitA : Bytes := b!"0123456789"
def hexA : Bytes := b!"0123456789abcdefABCDEF"

/-- `( upper | digit | safe )`. -/
def MethodChar (b : Byte) : Prop := oneOf (upperA ++ digitA ++ b!"$-_.") b
/-- `( alpha | digit | "+" | "-" | "." )`. -/
def SchemeChar (b : Byte) : Prop := oneOf (upperA ++ lowerA ++ digitA ++ b!"+-.") b
/-- A header name character: ASCII without controls and `tspecials`. -/
def TokenChar (b : Byte) : Prop :=
  32 < b ∧ b < 127 ∧ ¬ oneOf b!"()<>@,;:\\\"/[]?={} \t" b
def Digit (b : Byte) : Prop := oneOf digitA b
def HexDigit (b : Byte) : Prop := oneOf hexA b

/-- A byte that stands for itself in a uri: not a control, space, `#` or `%`. -/
def UriChar (b : Byte) : Prop := 32 < b ∧ b ≠ 127 ∧ b ≠ 35 ∧ b ≠ 37
/-- … and in a path additionally not `?`. -/
def PathChar (b : Byte) : Prop := UriChar b ∧ b ≠ 63

/-- Text made of plain characters and escapes `%hh` / `%uhh`. -/
inductive EscText (plain : Byte → Prop) : Bytes → Prop where
  | nil : EscText plain []
  | plain (b : Byte) (t : Bytes) : plain b → EscText plain t → EscText plain (b :: t)
  | esc (x y : Byte) (t : Bytes) : HexDigit x → HexDigit y → EscText plain t → EscText plain (37 :: x :: y :: t)
  | uesc (x y : Byte) (t : Bytes) : HexDigit x → HexDigit y → EscText plain t →
      EscText plain (37 :: 117 :: x :: y :: t)

inductive Target where
  | star
  | absolute (scheme rest : Bytes)
  | origin (path : Bytes) (query : Option Bytes)
  deriving Repr, DecidableEq

structure HeaderLine where
  name : Bytes
  spaces : Nat
  value : Bytes
  deriving Repr, DecidableEq

structure ReqHead where
  method : Bytes
  target : Target
  fragment : Option Bytes
  major : Bytes
  minor : Bytes
  headers : List HeaderLine
  deriving Repr, DecidableEq

def Target.uri : Target → Bytes
  | .star => b!"*"
  | .absolute scheme rest => scheme ++ b!":" ++ rest
  | .origin path none => path
  | .origin path (some q) => path ++ b!"?" ++ q

def Target.path : Target → Bytes
  | .origin path _ => path
  | _ => []

def Target.query : Target → Bytes
  | .origin _ (some q) => q
  | _ => []

def Target.Wf : Target → Prop
  | .star => True
  | .absolute scheme rest => (∀ b ∈ scheme, SchemeChar b) ∧ EscText UriChar rest
  | .origin path query =>
    (∃ p, path = 47 :: p ∧ EscText PathChar p) ∧ (∀ q, query = some q → EscText UriChar q)

def HeaderLine.render (h : HeaderLine) : Bytes :=
  h.name ++ b!":" ++ List.replicate h.spaces 32 ++ h.value ++ b!"\r\n"

def HeaderLine.Wf (h : HeaderLine) : Prop :=
  h.name ≠ [] ∧ (∀ b ∈ h.name, TokenChar b) ∧ 13 ∉ h.value ∧ h.value.head? ≠ some 32

def ReqHead.version (r : ReqHead) : Bytes := b!"HTTP/" ++ r.major ++ b!"." ++ r.minor

def fragText : Option Bytes → Bytes
  | none => []
  | some f => 35 :: f

def ReqHead.render (r : ReqHead) : Bytes :=
  r.method ++ b!" " ++ r.target.uri ++ fragText r.fragment ++ b!" " ++ r.version ++ b!"\r\n"
    ++ (r.headers.map HeaderLine.render).flatten ++ b!"\r\n"

structure ReqHead.Wf (r : ReqHead) : Prop where
  method_len : 1 ≤ r.method.length ∧ r.method.length ≤ 20
  method_chars : ∀ b ∈ r.method, MethodChar b
  target : r.target.Wf
  fragment : ∀ f, r.fragment = some f → EscText UriChar f
  major : r.major ≠ [] ∧ ∀ b ∈ r.major, Digit b
  minor : r.minor ≠ [] ∧ ∀ b ∈ r.minor, Digit b
  headers : ∀ h ∈ r.headers, h.Wf

end Pillow.Spec
