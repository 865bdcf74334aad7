import Verif.Basic
/-!
# Model of the request head parser `pillowcore/parser/parser.c` (generated from `parser.rl`, `common.rl`)

`tr cs b` is the `switch (cs)` dispatch on byte `b`: `none` is `goto st0` (error), `some (acts, cs')` runs the
actions of the transition label and goes to `st cs'`.  States and actions are numbered and named as in parser.c.
All comparisons in the C code are against values 0..127 or are defaults, so the signedness of `char` does not
matter.
-/
namespace Pillow

/-- The embedded actions (parser.rl:22-71). -/
inductive Act where
  | mark        -- parser.rl:22 and :30 (`mark`, `start_value`)
  | fieldStart  -- parser.rl:25
  | fieldLen    -- parser.rl:26
  | writeValue  -- parser.rl:31
  | method      -- parser.rl:36
  | uri         -- parser.rl:40
  | fragment    -- parser.rl:44
  | queryStart  -- parser.rl:49
  | query       -- parser.rl:50
  | version     -- parser.rl:55
  | path        -- parser.rl:60
  | done        -- parser.rl:65
  deriving Repr, DecidableEq

/-- `$ - . _ 0-9 A-Z` (parser.c:95-104, 119-133, …). -/
def isMethodChar (b : Byte) : Bool :=
  b == 36 || b == 95 || (45 ≤ b && b ≤ 46) || (48 ≤ b && b ≤ 57) || (65 ≤ b && b ≤ 90)

/-- `+ - . 0-9 A-Z a-z` (parser.c:589-605). -/
def isSchemeChar (b : Byte) : Bool :=
  b == 43 || (45 ≤ b && b ≤ 46) || (48 ≤ b && b ≤ 57) || (65 ≤ b && b ≤ 90) || (97 ≤ b && b ≤ 122)

/-- `[0-9A-Fa-f]` (parser.c:546-554 and the other escape states). -/
def isHex (b : Byte) : Bool := (48 ≤ b && b ≤ 57) || (65 ≤ b && b ≤ 70) || (97 ≤ b && b ≤ 102)

/-- `0-9` (parser.c:280, 289, 296, 305). -/
def isDigit (b : Byte) : Bool := 48 ≤ b && b ≤ 57

/-- Header name characters (parser.c:346-369, 401-424). -/
def isTokenChar (b : Byte) : Bool :=
  b == 33 || b == 124 || b == 126 || (35 ≤ b && b ≤ 39) || (42 ≤ b && b ≤ 43) || (45 ≤ b && b ≤ 46)
  || (48 ≤ b && b ≤ 57) || (65 ≤ b && b ≤ 90) || (94 ≤ b && b ≤ 122)

/-- Control characters: `127` and `0..31` (e.g. parser.c:620-623). -/
def isCtl (b : Byte) : Bool := b == 127 || b ≤ 31

/-- First escape state (22, 27, 31, 36), parser.c:543-555 etc. -/
def trEsc1 (hex u : Nat) (b : Byte) : Option (List Act × Nat) :=
  if b == 117 then some ([], u) else if isHex b then some ([], hex) else none

/-- Other escape states (23, 24, 28, 29, 32, 33, 37, 38). (parser.c:543-806.) -/
def trHex (next : Nat) (b : Byte) : Option (List Act × Nat) := if isHex b then some ([], next) else none

/-- Exactly one byte value continues. (parser.c:92-1140.) -/
def trOnly (c : Byte) (acts : List Act) (next : Nat) (b : Byte) : Option (List Act × Nat) :=
  if b == c then some (acts, next) else none

/-- The dispatch of parser.c:92-1140.  States 39..56 are twenty identical copies of "one more method
character" (parser.c:809-1132), each going to its successor; 57 accepts only the space (parser.c:1133-1139).
State 58 has the single transition to the error state (parser.c:390-392). -/
def tr (cs : Nat) (b : Byte) : Option (List Act × Nat) :=
  match cs with
  | 1 => if isMethodChar b then some ([.mark], 2) else none
  | 2 => if b == 32 then some ([.method], 3) else if isMethodChar b then some ([], 39) else none
  | 3 =>
    if b == 42 then some ([.mark], 4)
    else if b == 43 then some ([.mark], 25)
    else if b == 47 then some ([.mark], 30)
    else if b == 58 then some ([.mark], 26)
    else if 45 ≤ b && b ≤ 57 then some ([.mark], 25)
    else if 65 ≤ b && b ≤ 90 then some ([.mark], 25)
    else if 97 ≤ b && b ≤ 122 then some ([.mark], 25)
    else none
  | 4 => if b == 32 then some ([.uri], 5) else if b == 35 then some ([.uri], 20) else none
  | 5 => trOnly 72 [.mark] 6 b
  | 6 => trOnly 84 [] 7 b
  | 7 => trOnly 84 [] 8 b
  | 8 => trOnly 80 [] 9 b
  | 9 => trOnly 47 [] 10 b
  | 10 => if isDigit b then some ([], 11) else none
  | 11 => if b == 46 then some ([], 12) else if isDigit b then some ([], 11) else none
  | 12 => if isDigit b then some ([], 13) else none
  | 13 => if b == 13 then some ([.version], 14) else if isDigit b then some ([], 13) else none
  | 14 => trOnly 10 [] 15 b
  | 15 => if b == 13 then some ([], 16) else if isTokenChar b then some ([.fieldStart], 17) else none
  | 16 => trOnly 10 [.done] 58 b
  | 17 => if b == 58 then some ([.fieldLen], 18) else if isTokenChar b then some ([], 17) else none
  | 18 =>
    if b == 13 then some ([.mark, .writeValue], 14)
    else if b == 32 then some ([.mark], 18)
    else some ([.mark], 19)
  | 19 => if b == 13 then some ([.writeValue], 14) else some ([], 19)
  | 20 =>
    if b == 32 then some ([.mark, .fragment], 5) else if b == 35 then none
    else if b == 37 then some ([.mark], 22) else if isCtl b then none else some ([.mark], 21)
  | 21 =>
    if b == 32 then some ([.fragment], 5) else if b == 35 then none
    else if b == 37 then some ([], 22) else if isCtl b then none else some ([], 21)
  | 22 => trEsc1 23 24 b
  | 23 => trHex 21 b
  | 24 => trHex 23 b
  | 25 => if b == 58 then some ([], 26) else if isSchemeChar b then some ([], 25) else none
  | 26 =>
    if b == 32 then some ([.uri], 5) else if b == 35 then some ([.uri], 20)
    else if b == 37 then some ([], 27) else if isCtl b then none else some ([], 26)
  | 27 => trEsc1 28 29 b
  | 28 => trHex 26 b
  | 29 => trHex 28 b
  | 30 =>
    if b == 32 then some ([.path, .uri], 5) else if b == 35 then some ([.path, .uri], 20)
    else if b == 37 then some ([], 31) else if b == 63 then some ([.path], 34)
    else if isCtl b then none else some ([], 30)
  | 31 => trEsc1 32 33 b
  | 32 => trHex 30 b
  | 33 => trHex 32 b
  | 34 =>
    if b == 32 then some ([.queryStart, .query, .uri], 5)
    else if b == 35 then some ([.queryStart, .query, .uri], 20)
    else if b == 37 then some ([.queryStart], 36)
    else if isCtl b then none else some ([.queryStart], 35)
  | 35 =>
    if b == 32 then some ([.query, .uri], 5) else if b == 35 then some ([.query, .uri], 20)
    else if b == 37 then some ([], 36) else if isCtl b then none else some ([], 35)
  | 36 => trEsc1 37 38 b
  | 37 => trHex 35 b
  | 38 => trHex 37 b
  | 57 => trOnly 32 [.method] 3 b
  | n =>
    if 39 ≤ n ∧ n ≤ 56 then
      if b == 32 then some ([.method], 3) else if isMethodChar b then some ([], n + 1) else none
    else none

/-- A slice of the buffer: `(start, length)`.  Lengths are computed as `p - buffer - start` where `start` was
marked earlier, so they are never negative. (The pairs of members at parser.h:35-40.) -/
structure Slice where
  start : Nat
  len : Nat
  deriving Repr, DecidableEq, Inhabited

/-- One invocation of the `http_field` callback: name and value slices. (`field_cb`, parser.h:20.) -/
structure FieldRef where
  name : Slice
  value : Slice
  deriving Repr, DecidableEq, Inhabited

/-- The parser structure (parser.h:22-44) without the user pointers.  `fields` records the callback
invocations made so far (they have no effect on the parser). -/
structure Parser where
  cs : Nat := 0
  bodyStart : Nat := 0
  nread : Nat := 0
  mark : Nat := 0
  fieldStart : Nat := 0
  fieldLen : Nat := 0
  queryStart : Nat := 0
  method : Slice := ⟨0, 0⟩
  uri : Slice := ⟨0, 0⟩
  fragment : Slice := ⟨0, 0⟩
  path : Slice := ⟨0, 0⟩
  query : Slice := ⟨0, 0⟩
  version : Slice := ⟨0, 0⟩
  fields : List FieldRef := []
  deriving Repr, DecidableEq, Inhabited

/-- `thin_http_parser_init` (parser.c:36-69).  `query_start` is not reset there. -/
def Parser.init (s : Parser) : Parser := { cs := 1, queryStart := s.queryStart }

/-- One action at position `p` (`fpc - buffer`); `LEN(M, p)` is `p - M` (parser.c:14-16). -/
def Parser.act (p : Nat) (s : Parser) : Act → Parser
  | .mark => { s with mark := p }
  | .fieldStart => { s with fieldStart := p }
  | .fieldLen => { s with fieldLen := p - s.fieldStart }
  | .writeValue => { s with fields := s.fields ++ [⟨⟨s.fieldStart, s.fieldLen⟩, ⟨s.mark, p - s.mark⟩⟩] }
  | .method => { s with method := ⟨s.mark, p - s.mark⟩ }
  | .uri => { s with uri := ⟨s.mark, p - s.mark⟩ }
  | .fragment => { s with fragment := ⟨s.mark, p - s.mark⟩ }
  | .queryStart => { s with queryStart := p }
  | .query => { s with query := ⟨s.queryStart, p - s.queryStart⟩ }
  | .version => { s with version := ⟨s.mark, p - s.mark⟩ }
  | .path => { s with path := ⟨s.mark, p - s.mark⟩ }
  | .done => { s with bodyStart := p + 1 }

/-- The goto program started in state `s.cs` at position `p` on the bytes up to `pe`; returns the parser and the
final `p`.  `goto st0` leaves `p` on the offending byte; the `done` action leaves `p` one past the final LF with
`cs = 58` (`p++; cs = 58; goto _out`, parser.c:371-379). -/
def Parser.run (s : Parser) (p : Nat) : Bytes → Parser × Nat
  | [] => (s, p)
  | b :: bs =>
    match tr s.cs b with
    | none => ({ s with cs := 0 }, p)
    | some (acts, cs') =>
      let s' := { acts.foldl (Parser.act p) s with cs := cs' }
      if .done ∈ acts then (s', p + 1) else s'.run (p + 1) bs

/-- States that have a `case` label in the `switch`. (parser.c:90-1140.) -/
def hasCase (cs : Nat) : Bool := 1 ≤ cs && cs ≤ 58

/-- `thin_http_parser_execute(parser, buffer, len, off)` (parser.c:73-1221).  A `cs` without a `case` label
(that is, the error state 0) falls out of the `switch` onto the label `_test_eof2`, i.e. becomes state 2 without
consuming anything (parser.c:1140-1141).  The `assert`s are not modelled. -/
def Parser.execute (s : Parser) (buffer : Bytes) (off : Nat) : Parser :=
  let rest := buffer.drop off
  let (s', p) :=
    if rest = [] then (s, off)
    else if hasCase s.cs then s.run off rest
    else ({ s with cs := 2 }, off)
  let s' := { s' with nread := s'.nread + (p - off) }
  if s'.bodyStart ≠ 0 then { s' with nread := s'.nread + 1 } else s'

/-- `thin_http_parser_has_error` (parser.c:1239-1241). -/
def Parser.hasError (s : Parser) : Bool := s.cs == 0
/-- `thin_http_parser_is_finished` (parser.c:1243-1245). -/
def Parser.isFinished (s : Parser) : Bool := s.cs == 58

end Pillow
