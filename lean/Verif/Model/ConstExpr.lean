import Verif.Model.Parser

/-!
# Model of the values of constant expressions (dronecan/dsdl/parser.py:745-756)

`evaluate_expression` hands the text to Python's `eval`. Modelled is what `eval` makes of a literal: integers and decimal numbers with an optional
sign, `true` and `false`, which are names of the environment (parser.py:751-752), and strings of at most one character. Any other expression is a
parameter. So are decimal numbers other than zero below `2 ^ -1022`, where `fl` is not the rounding of Python.
-/

namespace Dronecan
namespace Parser

open Text

/-- The text before and after the first character that satisfies `p`. -/
def cut (p : Char → Bool) : Str → Str × Option Str
  | [] => ([], none)
  | c :: cs => if p c then ([], some cs) else ((c :: (cut p cs).1), (cut p cs).2)

/-- The number of digits, not counting underscores. -/
def digitCount (s : Str) : Nat := (s.filter (· ≠ '_')).length

/-- Digits that may be missing. -/
def part (s : Str) : Option Nat := if s = [] then some 0 else digits 10 s

/-- The digits of a decimal number as an integer, and how many of them are behind the point. -/
def mantissa (s : Str) : Option (Nat × Nat) :=
  match cut (· == '.') s with
  | (a, none) => (digits 10 a).map fun n => (n, 0)
  | (a, some b) =>
    if a = [] ∧ b = [] then none
    else match part a, part b with
      | some n, some m => some (n * 10 ^ digitCount b + m, digitCount b)
      | _, _ => none

/-- A decimal number without sign, with a point or an exponent. -/
def decimalLit (s : Str) : Option Rat :=
  match cut (fun c => c == 'e' || c == 'E') s with
  | (a, none) => if '.' ∈ a then (mantissa a).map fun p => (p.1 : Rat) / 10 ^ p.2 else none
  | (a, some t) => match mantissa a, signed (digits 10) t with
    | some p, some x => some ((p.1 : Rat) / 10 ^ p.2 * (10 : Rat) ^ x)
    | _, _ => none

/-- Optional sign. -/
def floatLit : Str → Option Rat
  | '-' :: cs => (decimalLit cs).map fun q => -q
  | '+' :: cs => decimalLit cs
  | cs => decimalLit cs

/-- The escape sequences of two characters. -/
def escape (e : Char) : Option Char :=
  if e = 'n' then some '\n' else if e = 't' then some '\t' else if e = 'r' then some '\r' else if e = '0' then some (Char.ofNat 0)
  else if e = 'a' then some (Char.ofNat 7) else if e = 'b' then some (Char.ofNat 8) else if e = 'f' then some (Char.ofNat 12)
  else if e = 'v' then some (Char.ofNat 11) else if e = '\\' ∨ e = '\'' ∨ e = '"' then some e
  else none

/-- A string of at most one character. A quotation mark alone is a syntax error (`some none`); so is a zero character in the text. -/
def strLit : Str → Option (Option Str)
  | [q] => if q = '\'' ∨ q = '"' then some none else none
  | [q, q'] => if (q = '\'' ∨ q = '"') ∧ q' = q then some (some []) else none
  | [q, c, q'] => if (q = '\'' ∨ q = '"') ∧ q' = q ∧ c ≠ q ∧ c ≠ '\\' ∧ c.toNat ≠ 0 then some (some [c]) else none
  | [q, b, e, q'] =>
    if (q = '\'' ∨ q = '"') ∧ q' = q ∧ b = '\\' then
      match escape e with
      | some c => some (some [c])
      | none => none
    else none
  | _ => none

/-- `eval` of a number with a point or an exponent. -/
def evalFloat (other : Option PyVal) (q : Rat) : Option PyVal :=
  if q ≠ 0 ∧ q.abs < (2 : Rat) ^ (-1022 : Int) then other
  else if floatMax 64 < (fl q).abs then some .nonFinite
  else some (.flt (fl q))

/-- `evaluate_expression` (parser.py:745-756); `none` is an exception. The text has no white space (parser.py:587). -/
def evalLit (other : Str → Option PyVal) (s : Str) : Option PyVal :=
  if s = lit "true" then some (.int 1)
  else if s = lit "false" then some (.int 0)
  else match int0 s with
    | some n => some (.int n)
    | none => match floatLit s with
      | some q => evalFloat (other s) q
      | none => match strLit s with
        | some (some c) => some (.str c)
        | some none => none
        | none => other s

end Parser
end Dronecan
