import Verif.Model.Float16
import Verif.Model.Prim

/-!
# Model of floating-point fields (dronecan/transport.py:229-241, 285-333; dronecan/dsdl/type_limits.py:25-34)

A Python float is modelled as in `Verif/Model/Float16.lean`. A format is given by the length of its significand, the exponent of its
least number and the exponent field of its infinities; the payload of a NaN is not modelled. `format(u, '032b')` and `int(bits, 2)`
are `formatBin` and `natOfBits`.
-/

namespace Dronecan
namespace FloatField

open Float16 (PyFloat)

/-- An IEEE 754 binary format: stored bits of the significand, exponent of the least positive number, largest exponent field. -/
structure Fmt where
  mant : Nat
  least : Int
  top : Nat

def binary32 : Fmt := ⟨23, -149, 255⟩

def binary64 : Fmt := ⟨52, -1074, 2047⟩

/-- The pattern (without sign) of infinity. -/
def Fmt.infPattern (F : Fmt) : Nat := F.top * 2 ^ F.mant

/-- The number that a pattern without sign stands for (finite patterns). -/
def Fmt.value (F : Fmt) (u : Nat) : Rat :=
  let e : Nat := u / 2 ^ F.mant
  let m : Nat := u % 2 ^ F.mant
  if e = 0 then (m : Rat) * (2 : Rat) ^ F.least
  else ((2 ^ F.mant + m : Nat) : Rat) * (2 : Rat) ^ (F.least + ((e : Int) - 1))

/-- The pattern of the nearest number of the format, ties to even; a pattern not below `infPattern` means that the number is too
large. -/
def Fmt.round (F : Fmt) (q : Rat) : Nat :=
  if q = 0 then 0
  else
    let e := max (binExp q - F.mant) F.least
    (e - F.least).toNat * 2 ^ F.mant + (roundHalfEven (q / (2 : Rat) ^ e)).toNat

/-- What is assigned: a float or an integer. -/
inductive Num where
  | float (x : PyFloat)
  | int (n : Int)
deriving DecidableEq, Repr

/-- `float(x)`; integers are rounded to the nearest float and must not be too large. -/
def toFloat : Num → Except Err PyFloat
  | .float x => .ok x
  | .int n =>
    let u := binary64.round (n.natAbs : Rat)
    if u < binary64.infPattern then .ok (.fin (decide (n < 0)) (binary64.value u)) else .error .overflowError

/-- The value of a decimal literal in the source. -/
def literal (q : Rat) : Rat := binary64.value (binary64.round q)

/-- The largest value of `get_float_range` (type_limits.py:25-34). -/
def maxFloat (bitlen : Nat) : Except Err Rat :=
  if bitlen = 16 then .ok (literal 65504)
  else if bitlen = 32 then .ok (literal (340282346638528859812 * 10 ^ 18))
  else if bitlen = 64 then .ok (literal (179769313486231570815 * 10 ^ 288))
  else .error .dsdlException

/-- `x > q`; Python compares integers and floats exactly. -/
def gt : Num → Rat → Bool
  | .float (.fin neg v), q => decide (q < if neg then -v else v)
  | .float (.inf neg), _ => !neg
  | .float (.nan _), _ => false
  | .int n, q => decide (q < (n : Rat))

/-- `x < q`. -/
def lt : Num → Rat → Bool
  | .float (.fin neg v), q => decide ((if neg then -v else v) < q)
  | .float (.inf neg), _ => neg
  | .float (.nan _), _ => false
  | .int n, q => decide ((n : Rat) < q)

/-- `math.isnan(x)`, which converts an integer to a float. -/
def isnan (x : Num) : Except Err Bool :=
  match toFloat x with
  | .error e => .error e
  | .ok (.nan _) => .ok true
  | .ok _ => .ok false

/-- `cast` for a floating-point type (transport.py:229-241); `max` is `value_range[1]`, `value_range[0]` is its negative. -/
def cast (truncated : Bool) (max : Rat) (x : Num) : Except Err Num :=
  if truncated = false then
    if gt x max then .ok (.float (.fin false max))
    else if lt x (-max) then .ok (.float (.fin true max))
    else .ok x
  else
    match isnan x with
    | .error e => .error e
    | .ok nan =>
      if !nan && gt x max then .ok (.float (.inf false))
      else if !nan && lt x (-max) then .ok (.float (.inf true))
      else .ok x

/-- `struct.pack('<f', x)` and `struct.pack('<d', x)` read as an integer (transport.py:328, 330). -/
def Fmt.pack (F : Fmt) : PyFloat → Except Err Nat
  | .fin neg q =>
    if F.round q < F.infPattern then .ok (F.round q + if neg then (F.top + 1) * 2 ^ F.mant else 0) else .error .overflowError
  | .inf neg => .ok (F.infPattern + if neg then (F.top + 1) * 2 ^ F.mant else 0)
  | .nan neg => .ok (F.infPattern + 2 ^ (F.mant - 1) + if neg then (F.top + 1) * 2 ^ F.mant else 0)

/-- `struct.unpack` of `'<f'` and `'<d'` (transport.py:303, 305). -/
def Fmt.unpack (F : Fmt) (u : Nat) : PyFloat :=
  let neg := decide ((F.top + 1) * 2 ^ F.mant ≤ u)
  let a := u % ((F.top + 1) * 2 ^ F.mant)
  if a < F.infPattern then .fin neg (F.value a)
  else if a = F.infPattern then .inf neg
  else .nan neg

/-- The integer stored for a float (transport.py:325-332). -/
def encode (bitlen : Nat) (x : PyFloat) : Except Err Nat :=
  if bitlen = 16 then Float16.fromFloat x
  else if bitlen = 32 then binary32.pack x
  else if bitlen = 64 then binary64.pack x
  else .error .valueError

/-- The setter of `PrimitiveValue.value` for a floating-point type (transport.py:323-333). The type has been constructed, so that
`maxFloat` has returned. -/
def set (bitlen : Nat) (truncated : Bool) (x : Num) : Except Err Bits := do
  let max ← maxFloat bitlen
  let x ← cast truncated max x
  let x ← toFloat x
  let u ← encode bitlen x
  .ok (formatBin bitlen u)

/-- The getter (transport.py:286-307); an empty `_bits` reads as `None`. -/
def get (bitlen : Nat) (bits : Bits) : Except Err (Option PyFloat) :=
  if bits = [] then .ok none
  else if bitlen = 16 then (Float16.toFloat (natOfBits bits)).map some
  else if bitlen = 32 then .ok (some (binary32.unpack (natOfBits bits)))
  else if bitlen = 64 then .ok (some (binary64.unpack (natOfBits bits)))
  else .error .valueError

/-- `obj.field = x; obj.field`. -/
def assignRead (bitlen : Nat) (truncated : Bool) (x : Num) : Except Err (Option PyFloat) := do
  let bits ← set bitlen truncated x
  get bitlen bits

end FloatField
end Dronecan
