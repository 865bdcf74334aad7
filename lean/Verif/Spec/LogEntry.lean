import Verif.Model.LogEntry
import Verif.Spec.Bytes
import Verif.Spec.Protocol
/-!
# What a log entry says (C70)
-/
namespace Pillow.Spec
open Pillow

/-- The word an entry begins with. -/
def tagOf : LogKind → Bytes
  | .plain => []
  | .begin => b!"[BEGIN] "
  | .end_ => b!"[ END ] "
  | .close => b!"[CLOSE] "

/-- The decimal text of a number. -/
def NumberText (n : Int) (t : Bytes) : Prop := readInt 10 t = some n ∧ Canonical t

/-- Milliseconds as seconds with three decimals. -/
def SecondsText (ms : Nat) (t : Bytes) : Prop :=
  ∃ secs d₁ d₂ d₃, t = secs ++ b!"." ++ [d₁, d₂, d₃] ∧ readNat 10 secs = some (ms / 1000) ∧ readNat 10 [d₁, d₂, d₃] = some (ms % 1000)

/-- The layout: `ADDRESS - - [DATE] "METHOD URI VERSION" STATUS LENGTH SECONDS`, behind the tag; for the beginning of a request the last three are absent. -/
def Entry (kind : LogKind) (addr date method uri version : Bytes) (outcome : Option (Int × Int)) (ms : Nat) (out : Bytes) : Prop :=
  ∃ tail, out = tagOf kind ++ addr ++ b!" - - [" ++ date ++ b!"] \"" ++ method ++ b!" " ++ uri ++ b!" " ++ version ++ b!"\" " ++ tail ∧
    match outcome with
    | none => tail = b!"- - -"
    | some (status, length) => ∃ a b c, NumberText status a ∧ NumberText length b ∧ SecondsText ms c ∧ tail = a ++ b!" " ++ b ++ b!" " ++ c

/-- A text that begins with an optional `L` and one or two digits (two, if there are two) of the number `n`. -/
def MarkerAt (s : Bytes) (n : Nat) : Prop :=
  ∃ l d rest, (l = [] ∨ l = b!"L") ∧ s = l ++ d ++ rest ∧ readNat 10 d = some n ∧ (d.length = 2 ∨ (d.length = 1 ∧ ∀ e, rest.head? = some e → ¬ (48 ≤ e ∧ e ≤ 57)))

/-- No `%` of the text stands before a number up to 8. -/
def Unmarked (s : Bytes) : Prop := ∀ pre suf n, s = pre ++ 37 :: suf → MarkerAt suf n → 8 < n

def headSent : Ev → Option RespHead
  | .head h => some h
  | _ => none

/-- The response heads that were sent. -/
def heads (log : List Ev) : List RespHead := log.filterMap headSent

end Pillow.Spec
