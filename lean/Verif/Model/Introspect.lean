import Verif.Model.Parser

/-!
# Model of `value_to_constant_name` (dronecan/introspect.py:236-326)

Only numeric fields: the value of the field and the values of constants are Python numbers. Names are ASCII (the parser accepts
no others), so `str.lower` works character by character.
-/

namespace Dronecan
namespace Introspect

open Text Parser

/-- A Python number. -/
inductive Num where
  | int (i : Int)
  | bool (b : Bool)
  | flt (q : Rat)
  | inf (neg : Bool)
  | nan
deriving DecidableEq, Repr

/-- The number, if it is finite. -/
def Num.finite : Num → Option Rat
  | .int i => some i
  | .bool b => some (if b then 1 else 0)
  | .flt q => some q
  | _ => none

/-- `a == b`. -/
def Num.eq (a b : Num) : Bool :=
  match a, b with
  | .inf x, .inf y => x == y
  | a, b => a.finite.isSome && a.finite == b.finite

/-- A constant attribute: `name` and `value` (introspect.py:271). -/
structure Const where
  name : Str
  value : Num
deriving DecidableEq, Repr

/-- What the function works on: the constants and the number of fields of the struct's type (introspect.py:249-258), the name of the field, `keep_literal`,
and `repr` of numbers. -/
structure Args where
  consts : List Const
  nfields : Nat
  field : Str
  keep : Bool
  repr : Num → Str

/-- The value as it is, or a text. -/
inductive Result where
  | literal (v : Num)
  | text (s : Str)
deriving DecidableEq, Repr

/-- `str.lower()`. -/
def lower (s : Str) : Str := s.map Char.toLower

/-- `format_output` (introspect.py:263-268). -/
def formatOutput (g : Args) (name : Str) (value : Num) (removePrefix : Bool) : Str :=
  let name := if removePrefix then joinWith (lit "_") ((splitOn '_' name).drop (splitOn '_' g.field).length) else name
  if g.keep then name ++ lit " (" ++ g.repr value ++ lit ")" else name

/-- `match_one_prefix` (introspect.py:271-278). -/
def matchOnePrefix (g : Args) (pre : Str) (value : Num) : Option Str :=
  match (g.consts.filter (fun c => (lower pre).isPrefixOf (lower c.name))).filter (fun c => c.value.eq value) with
  | [c] => some c.name
  | _ => none

/-- `if match:`; the empty string is false. -/
def truthy : Option Str → Option Str
  | some [] => none
  | m => m

/-- `match_value` (introspect.py:281-298). `field_name[-1]` raises if the name is empty. -/
def matchValue (g : Args) (value : Num) : Except Err (Option Str) :=
  match truthy (matchOnePrefix g (g.field ++ lit "_") value) with
  | some m => .ok (some (formatOutput g m value true))
  | none =>
    match g.field.getLast? with
    | none => .error .indexError
    | some last =>
      match (if last = 's' then truthy (matchOnePrefix g (g.field.dropLast ++ lit "_") value) else none) with
      | some m => .ok (some (formatOutput g m value true))
      | none =>
        match (if g.nfields = 1 then truthy (matchOnePrefix g [] value) else none) with
        | some m => .ok (some (formatOutput g m value false))
        | none => .ok none

/-- `extract_powers_of_2` from `i` on (introspect.py:307-312). -/
def powersFrom (x i : Nat) : List Nat :=
  if h : 0 < i ∧ i ≤ x then (if i &&& x ≠ 0 then [i] else []) ++ powersFrom x (i <<< 1) else []
termination_by x + 1 - i
decreasing_by rw [Nat.shiftLeft_eq]; omega

/-- `extract_powers_of_2` of a value: nothing below one; `i & x` raises for a float (introspect.py:307-312). -/
def extractPowers : Num → Except Err (List Nat)
  | .int i => .ok (powersFrom i.toNat 1)
  | .bool b => .ok (powersFrom (if b then 1 else 0) 1)
  | .flt q => if (1 : Rat) ≤ q then .error .typeError else .ok []
  | .inf neg => if neg then .ok [] else .error .typeError
  | .nan => .ok []

/-- The loop over the powers (introspect.py:314-321): empty as soon as one is not matched. -/
def matchPowers (g : Args) : List Nat → List Str → Except Err (List Str)
  | [], acc => .ok acc
  | p :: ps, acc =>
    match matchValue g (.int p) with
    | .error e => .error e
    | .ok m =>
      match truthy m with
      | some s => matchPowers g ps (acc ++ [s])
      | none => .ok []

/-- `value_to_constant_name` (introspect.py:236-326). -/
def valueToConstantName (g : Args) (value : Num) : Except Err Result :=
  if g.nfields = 0 then .error .assertionError
  else
    match matchValue g value with
    | .error e => .error e
    | .ok m =>
      match truthy m with
      | some s => .ok (.text s)
      | none =>
        match extractPowers value with
        | .error e => .error e
        | .ok ps =>
          match matchPowers g ps [] with
          | .error e => .error e
          | .ok ms => if ms.length > 0 then .ok (.text (joinWith (lit " | ") ms)) else .ok (.literal value)

end Introspect
end Dronecan
