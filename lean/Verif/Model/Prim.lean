import Verif.Model.Bits

/-!
# Primitive (integer and boolean) fields

Model of `dronecan/dsdl/type_limits.py`, of `cast` (transport.py:229-245) and of the `value`
property of `PrimitiveValue` (transport.py:276-333) for the boolean, unsigned and signed kinds.
Floating-point kinds are modelled in `Verif/Model/FloatField.lean`.
-/

namespace Dronecan

/-- `PrimitiveType.KIND_*`, parser.py:83-86. -/
inductive Kind where
  | boolean | unsigned | signed | float
  deriving DecidableEq, Repr

/-- `PrimitiveType`, parser.py:74-129 (`truncated = false` is `CAST_MODE_SATURATED`). -/
structure PrimTy where
  kind : Kind
  bitlen : Nat
  truncated : Bool
  deriving DecidableEq, Repr

/-- Rounding of a positive integer to the nearest IEEE-754 double (53 significant bits, ties to even), as an
integer. Used to model Python's true division by two in type_limits.py:22; dividing the rounded value by two
is exact. -/
def roundDouble (u : Nat) : Nat :=
  let e := u.log2 + 1 - 53
  let q := u / 2 ^ e
  let r := u % 2 ^ e
  (if 2 * r < 2 ^ e ∨ (2 * r = 2 ^ e ∧ q % 2 = 0) then q else q + 1) * 2 ^ e

/-- `int(u / 2)` with Python 3's floating-point `/` (type_limits.py:22). -/
def intHalf (u : Nat) : Nat := roundDouble u / 2

/-- `get_unsigned_integer_range`, type_limits.py:14-17 (for the accepted lengths 1..64). -/
def unsignedRange (n : Nat) : Int × Int := (0, 2 ^ n - 1)

/-- `get_signed_integer_range`, type_limits.py:20-22. -/
def signedRange (n : Nat) : Int × Int :=
  let h : Int := intHalf (2 ^ n - 1)
  (-h - 1, h)

/-- `value_range`, parser.py:96-101, for the integer kinds (the float range is not used here). -/
def valueRange (p : PrimTy) : Int × Int :=
  match p.kind with
  | .signed => signedRange p.bitlen
  | _ => unsignedRange p.bitlen

/-- `cast`, transport.py:229-245, for integers. Python's `value & ((1 << n) - 1)` on a possibly negative
integer is the residue modulo `2^n`. -/
def castInt (value : Int) (p : PrimTy) : Int :=
  if p.truncated = false then
    if value > (valueRange p).2 then (valueRange p).2
    else if value < (valueRange p).1 then (valueRange p).1
    else value
  else value % 2 ^ p.bitlen

/-- The setter of `PrimitiveValue.value`, transport.py:309-333, for integer arguments and non-float kinds
(`float` yields an error here because it is modelled separately). The result is the new `_bits`. -/
def setInt (p : PrimTy) (x : Int) : Except Err Bits :=
  match p.kind with
  | .boolean => .ok (if x ≠ 0 then [true] else [false])
  | .unsigned => .ok (formatBin p.bitlen (castInt x p).toNat)
  | .signed =>
    let v := castInt x p
    let v := if v < 0 then v + 2 ^ p.bitlen else v
    .ok (formatBin p.bitlen v.toNat)
  | .float => .error .typeError

/-- The getter of `PrimitiveValue.value`, transport.py:285-307, for non-float kinds; Python booleans are the
integers 0 and 1; an empty `_bits` reads as `None`. -/
def getInt (p : PrimTy) (bits : Bits) : Option Int :=
  if bits = [] then none
  else
    let v : Int := natOfBits bits
    match p.kind with
    | .boolean => some (if v ≠ 0 then 1 else 0)
    | .unsigned => some v
    | .signed => some (if v ≥ 2 ^ (p.bitlen - 1) then -(2 ^ p.bitlen - v) else v)
    | .float => none

/-- Assign then read back through the API: `obj.field = x; obj.field`. -/
def assignRead (p : PrimTy) (x : Int) : Except Err (Option Int) :=
  match setInt p x with
  | .ok b => .ok (getInt p b)
  | .error e => .error e

end Dronecan
