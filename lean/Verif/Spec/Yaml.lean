import Verif.Model.Display

/-!
# Reading YAML

A reader for a part of YAML 1.2: block mappings and sequences, flow sequences of plain scalars, quoted and plain scalars on one line,
comments. Plain scalars are resolved by the core schema. Keys are taken as text. What is outside of this part is refused (`none`).
Nothing here depends on how the text was made.
-/

namespace Dronecan
namespace YamlSpec

open Text

/-- What a YAML document represents; `dec neg n k` is the number `n / 10^k` with its sign. -/
inductive Tree where
  | null
  | bool (b : Bool)
  | int (i : Int)
  | dec (neg : Bool) (n k : Nat)
  | inf (neg : Bool)
  | nan
  | str (s : Str)
  | list (xs : List Tree)
  | map (kvs : List (Str × Tree))
deriving Repr

/-! ## Scalars -/

/-- A non-empty sequence of decimal digits, after the number so far. -/
def number (acc : Nat) : Str → Option Nat
  | [] => some acc
  | c :: cs => if c.isDigit then number (10 * acc + (c.toNat - 48)) cs else none

def natural (s : Str) : Option Nat := if s = [] then none else number 0 s

/-- Digits, or digits with a point between them. -/
def unsignedNumber (neg : Bool) (s : Str) : Option Tree :=
  let a := s.takeWhile (· ≠ '.')
  match s.dropWhile (· ≠ '.') with
  | [] => (natural a).map fun n => .int (if neg then -(n : Int) else n)
  | _ :: b => if a = [] ∨ b = [] then none else (natural (a ++ b)).map fun n => .dec neg n b.length

/-- The core schema. -/
def resolve (s : Str) : Tree :=
  if s = [] ∨ s = "null".toList ∨ s = "~".toList then .null
  else if s = "true".toList then .bool true
  else if s = "false".toList then .bool false
  else if s = ".inf".toList then .inf false
  else if s = "-.inf".toList then .inf true
  else if s = ".nan".toList then .nan
  else
    match (match s with | '-' :: cs => unsignedNumber true cs | cs => unsignedNumber false cs) with
    | some t => t
    | none => .str s

def dropSpaces (s : Str) : Str := s.dropWhile (· = ' ')

/-- Without blanks at the end. -/
def trimEnd (s : Str) : Str := (dropSpaces s.reverse).reverse

/-- The part before a comment: `#` after a blank. -/
def beforeComment : Str → Str
  | [] => []
  | ' ' :: '#' :: _ => []
  | c :: cs => c :: beforeComment cs

/-- Only blanks, and perhaps a comment. -/
def onlyComment (s : Str) : Bool := trimEnd (beforeComment s) = []

/-- The rest of a single-quoted scalar and what comes after it: two quotes are a quote, nothing else is special. -/
def singleQuoted : Str → Option (Str × Str)
  | [] => none
  | '\'' :: '\'' :: cs => (singleQuoted cs).map fun (a, b) => ('\'' :: a, b)
  | '\'' :: cs => some ([], cs)
  | c :: cs => (singleQuoted cs).map fun (a, b) => (c :: a, b)

/-- The rest of a double-quoted scalar and what comes after it: the backslash is special. -/
def doubleQuoted : Str → Option (Str × Str)
  | [] => none
  | '"' :: cs => some ([], cs)
  | ['\\'] => none
  | '\\' :: c :: cs =>
    match (if c = 'n' then some '\n' else if c = 'r' then some '\r' else if c = 't' then some '\t'
      else if c = '\\' ∨ c = '"' ∨ c = '/' ∨ c = ' ' then some c else none) with
    | some d => (doubleQuoted cs).map fun (a, b) => (d :: a, b)
    | none => none
  | c :: cs => (doubleQuoted cs).map fun (a, b) => (c :: a, b)

/-- Separated by commas. -/
def commas : Str → List Str
  | [] => [[]]
  | ',' :: cs => [] :: commas cs
  | c :: cs =>
    match commas cs with
    | [] => [[c]]
    | h :: t => (c :: h) :: t

/-- Characters with a meaning of their own in YAML. -/
def indicator (c : Char) : Bool := c ∈ "[]{}#&*!|>'\"%@`,?:".toList

/-- A flow sequence after its opening bracket: items without indicators. -/
def flow (s : Str) : Option Tree :=
  let a := s.takeWhile (· ≠ ']')
  match s.dropWhile (· ≠ ']') with
  | [] => none
  | _ :: rest =>
    if onlyComment rest = false then none
    else if dropSpaces a = [] then some (.list [])
    else
      let items := (commas a).map fun x => trimEnd (dropSpaces x)
      if items.any (fun x => x = [] || x.any indicator) then none else some (.list (items.map resolve))

/-- A scalar or a flow collection that fills the rest of a line. -/
def inline (s : Str) : Option Tree :=
  match s with
  | [] => none
  | '\'' :: cs =>
    match singleQuoted cs with
    | some (t, rest) => if onlyComment rest then some (.str t) else none
    | none => none
  | '"' :: cs =>
    match doubleQuoted cs with
    | some (t, rest) => if onlyComment rest then some (.str t) else none
    | none => none
  | '[' :: cs => flow cs
  | '{' :: '}' :: cs => if onlyComment cs then some (.map []) else none
  | cs =>
    let t := trimEnd (beforeComment cs)
    if t = [] ∨ t.any indicator = true then none else some (resolve t)

/-! ## Blocks -/

/-- A line: its indentation and the rest. -/
structure Line where
  indent : Nat
  text : Str
deriving DecidableEq, Repr

def toLine (s : Str) : Line := ⟨(s.takeWhile (· = ' ')).length, dropSpaces s⟩

/-- The lines of a text. -/
def breakLines : Str → List Str
  | [] => [[]]
  | '\n' :: cs => [] :: breakLines cs
  | c :: cs =>
    match breakLines cs with
    | [] => [[c]]
    | h :: t => (c :: h) :: t

/-- Blank lines and lines of comment are left out. -/
def docLines (s : Str) : List Line :=
  ((breakLines s).map toLine).filter fun l => match l.text with | [] => false | '#' :: _ => false | _ => true

def keyChar (c : Char) : Bool := c.isAlphanum || c = '_'

/-- A key, a colon, and the rest of the line after a blank. -/
def keyOf (s : Str) : Option (Str × Str) :=
  let k := s.takeWhile keyChar
  match s.dropWhile keyChar with
  | [':'] => if k = [] then none else some (k, [])
  | ':' :: ' ' :: r => if k = [] then none else some (k, dropSpaces r)
  | _ => none

/-- The mark of an item, and the rest of the line after a blank. -/
def itemOf : Str → Option Str
  | ['-'] => some []
  | '-' :: ' ' :: r => some (dropSpaces r)
  | _ => none

/-- The first of the lines is indented by `n` or more. -/
def within (n : Nat) : List Line → Bool
  | [] => false
  | l :: _ => n ≤ l.indent

mutual
/-- The block that begins with the first line, and the lines after it. The first argument bounds the number of steps, the second is
the least indentation of the block. -/
def block : Nat → Nat → List Line → Option (Tree × List Line)
  | _, _, [] => none
  | 0, _, _ => none
  | fuel + 1, n, l :: ls =>
    if (itemOf l.text).isSome then (items fuel l.indent (l :: ls)).map fun (xs, rest) => (.list xs, rest)
    else if (keyOf l.text).isSome then (pairs fuel l.indent (l :: ls)).map fun (kvs, rest) => (.map kvs, rest)
    else if within n ls then none
    else (inline l.text).map fun t => (t, ls)
/-- What follows `-` or a key in a collection indented by `n`: the rest of the line, or a block that is indented more. -/
def value : Nat → Nat → Str → List Line → Option (Tree × List Line)
  | 0, _, _, _ => none
  | fuel + 1, n, r, ls =>
    if onlyComment r || r.head? = some '#' then
      if within (n + 1) ls then block fuel (n + 1) ls else some (.null, ls)
    else if within (n + 1) ls then none
    else (inline r).map fun t => (t, ls)
/-- The items indented by `n`. -/
def items : Nat → Nat → List Line → Option (List Tree × List Line)
  | _, _, [] => some ([], [])
  | 0, _, _ => none
  | fuel + 1, n, l :: ls =>
    if l.indent < n then some ([], l :: ls)
    else if n < l.indent then none
    else
      match itemOf l.text with
      | none => none
      | some r =>
        match value fuel n r ls with
        | none => none
        | some (x, rest) => (items fuel n rest).map fun (xs, rest) => (x :: xs, rest)
/-- The pairs of keys and values indented by `n`. -/
def pairs : Nat → Nat → List Line → Option (List (Str × Tree) × List Line)
  | _, _, [] => some ([], [])
  | 0, _, _ => none
  | fuel + 1, n, l :: ls =>
    if l.indent < n then some ([], l :: ls)
    else if n < l.indent then none
    else
      match keyOf l.text with
      | none => none
      | some (k, r) =>
        match value fuel n r ls with
        | none => none
        | some (x, rest) => (pairs fuel n rest).map fun (kvs, rest) => ((k, x) :: kvs, rest)
end

/-- A whole document. -/
def read (s : Str) : Option Tree :=
  match docLines s with
  | [] => some .null
  | ls =>
    match block (3 * ls.length + 3) 0 ls with
    | some (t, []) => some t
    | _ => none

end YamlSpec
end Dronecan
