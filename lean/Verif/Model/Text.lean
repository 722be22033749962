import Verif.Model.Bits

/-!
# Python's string functions used by the DSDL parser, and the tokenizer

Strings are lists of characters (Unicode scalar values). These are parts of Python's standard library (`str.splitlines`,
`str.strip`, `str.split`, `int`), not of the repository, except for `tokenize`.
-/

namespace Dronecan
namespace Text

abbrev Str := List Char

/-- `str.isspace` of one character. -/
def isSpace (c : Char) : Bool :=
  let n := c.toNat
  (9 ≤ n && n ≤ 13) || (28 ≤ n && n ≤ 32) || n == 0x85 || n == 0xA0 || n == 0x1680 || (0x2000 ≤ n && n ≤ 0x200A) ||
    n == 0x2028 || n == 0x2029 || n == 0x202F || n == 0x205F || n == 0x3000

/-- The line boundaries of `str.splitlines`. -/
def isBreak (c : Char) : Bool :=
  let n := c.toNat
  (10 ≤ n && n ≤ 13) || (28 ≤ n && n ≤ 30) || n == 0x85 || n == 0x2028 || n == 0x2029

/-- `str.splitlines()`; the first argument is the line so far, reversed. -/
def splitlinesAux : Str → Str → List Str
  | [], [] => []
  | cur, [] => [cur.reverse]
  | cur, '\r' :: '\n' :: cs => cur.reverse :: splitlinesAux [] cs
  | cur, c :: cs => if isBreak c then cur.reverse :: splitlinesAux [] cs else splitlinesAux (c :: cur) cs

def splitlines (s : Str) : List Str := splitlinesAux [] s

/-- `str.strip()`. -/
def strip (s : Str) : Str := ((s.dropWhile isSpace).reverse.dropWhile isSpace).reverse

/-- `str.split()`; the first argument is the word so far, reversed. -/
def splitAux : Str → Str → List Str
  | [], [] => []
  | cur, [] => [cur.reverse]
  | cur, c :: cs =>
    if isSpace c then (if cur = [] then splitAux [] cs else cur.reverse :: splitAux [] cs)
    else splitAux (c :: cur) cs

def split (s : Str) : List Str := splitAux [] s

/-- `re.sub('#.*', '', line)` on a string without newline characters. -/
def dropComment (line : Str) : Str := line.takeWhile (· ≠ '#')

/-- The loop of `_tokenize` (parser.py:632-636); the first argument is `idx`. -/
def tokenizeLines : Nat → List Str → List (Nat × List Str)
  | _, [] => []
  | idx, line :: lines =>
    let line := strip (dropComment line)
    if line ≠ [] then (idx + 1, (split line).filter (· ≠ [])) :: tokenizeLines (idx + 1) lines
    else tokenizeLines (idx + 1) lines

/-- `Parser._tokenize` (parser.py:630-636). -/
def tokenize (text : Str) : List (Nat × List Str) := tokenizeLines 0 (splitlines text)

/-! ## `int(s, base)`

Only ASCII digits are accepted here; Python also accepts the decimal digits of other scripts. Python does not skip the separators
28..31 before a number, `strip` here does. -/

def digitVal (c : Char) : Option Nat :=
  if '0' ≤ c ∧ c ≤ '9' then some (c.toNat - 48)
  else if 'a' ≤ c ∧ c ≤ 'z' then some (c.toNat - 87)
  else if 'A' ≤ c ∧ c ≤ 'Z' then some (c.toNat - 55)
  else none

/-- The value of a digit in a base. -/
def digit (base : Nat) (c : Char) : Option Nat :=
  match digitVal c with
  | some d => if d < base then some d else none
  | none => none

/-- Digits after the first, with single underscores allowed between digits. -/
def digitsTail (base : Nat) : Nat → Str → Option Nat
  | acc, [] => some acc
  | acc, '_' :: c :: cs =>
    match digit base c with
    | some d => digitsTail base (acc * base + d) cs
    | none => none
  | acc, c :: cs =>
    match digit base c with
    | some d => digitsTail base (acc * base + d) cs
    | none => none

/-- A non-empty sequence of digits. -/
def digits (base : Nat) : Str → Option Nat
  | [] => none
  | c :: cs =>
    match digit base c with
    | some d => digitsTail base d cs
    | none => none

/-- One underscore is allowed after a prefix such as `0x`. -/
def skipUnderscore : Str → Str
  | '_' :: cs => cs
  | cs => cs

/-- A literal without sign, base 0: the base is taken from the prefix; decimal literals must not begin with `0`, except zero. -/
def unsigned0 : Str → Option Nat
  | '0' :: x :: cs =>
    if x = 'x' ∨ x = 'X' then digits 16 (skipUnderscore cs)
    else if x = 'o' ∨ x = 'O' then digits 8 (skipUnderscore cs)
    else if x = 'b' ∨ x = 'B' then digits 2 (skipUnderscore cs)
    else match digits 10 ('0' :: x :: cs) with
      | some n => if n = 0 then some 0 else none
      | none => none
  | cs => digits 10 cs

/-- A literal without sign in base 16. -/
def unsigned16 : Str → Option Nat
  | '0' :: x :: cs => if x = 'x' ∨ x = 'X' then digits 16 (skipUnderscore cs) else digits 16 ('0' :: x :: cs)
  | cs => digits 16 cs

/-- Optional sign. -/
def signed (f : Str → Option Nat) : Str → Option Int
  | '-' :: cs => (f cs).map (fun (n : Nat) => -(n : Int))
  | '+' :: cs => (f cs).map (fun (n : Nat) => (n : Int))
  | cs => (f cs).map (fun (n : Nat) => (n : Int))

/-- `int(s, 0)`; `none` is `ValueError`. -/
def int0 (s : Str) : Option Int := signed unsigned0 (strip s)

/-- `int(s, 16)`. -/
def int16 (s : Str) : Option Int := signed unsigned16 (strip s)

/-- `int(s)`. -/
def int10 (s : Str) : Option Int := signed (digits 10) (strip s)

end Text
end Dronecan
