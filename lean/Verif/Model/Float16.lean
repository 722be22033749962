import Verif.Model.Bits
import Verif.Model.Double

/-!
# Model of the half-precision conversions (dronecan/transport.py:154-226)

A Python float is the number it stands for, or an infinity, or a NaN (with its sign; the payload is not modelled). Products of a
binary32 number and a power of two of the sizes used here are exact in binary64.
-/

namespace Dronecan
namespace Float16

/-- A Python float; the number is not negative, the sign is separate. -/
inductive PyFloat where
  | fin (neg : Bool) (q : Rat)
  | inf (neg : Bool)
  | nan (neg : Bool)
deriving DecidableEq, Repr

/-- The number that a binary32 pattern without sign stands for (finite patterns). -/
def value32 (u : Nat) : Rat :=
  let e : Nat := u / 2 ^ 23
  let m : Nat := u % 2 ^ 23
  if e = 0 then (m : Rat) * (2 : Rat) ^ (-149 : Int)
  else ((2 ^ 23 + m : Nat) : Rat) * (2 : Rat) ^ ((e : Int) - 150)

/-- The pattern of the nearest binary32 number, ties to even; the exponent is at least that of the subnormal numbers.
`255 << 23` or more means that the number is too large. -/
def round32 (q : Rat) : Nat :=
  if q = 0 then 0
  else
    let e := max (binExp q) (-126)
    (e + 126).toNat * 2 ^ 23 + (roundHalfEven (q / (2 : Rat) ^ (e - 23))).toNat

def signBit (neg : Bool) : Nat := if neg then 0x80000000 else 0

/-- `struct.pack('=f', x)` as an integer (transport.py:176-178). -/
def pack32 : PyFloat → Except Err Nat
  | .fin neg q => if round32 q < 255 <<< 23 then .ok (round32 q ||| signBit neg) else .error .overflowError
  | .inf neg => .ok ((255 <<< 23) ||| signBit neg)
  | .nan neg => .ok (0x7FC00000 ||| signBit neg)

/-- `struct.unpack('=f', ...)` of an integer (transport.py:172-174). -/
def unpack32 (u : Nat) : PyFloat :=
  let neg := u.testBit 31
  let a := u % 2 ^ 31
  if a < 255 <<< 23 then .fin neg (value32 a)
  else if a = 255 <<< 23 then .inf neg
  else .nan neg

/-- `x * 2^k`. -/
def scale (k : Int) : PyFloat → PyFloat
  | .fin neg q => .fin neg (q * (2 : Rat) ^ k)
  | x => x

/-- `x >= 2^16`. -/
def geInfNan : PyFloat → Bool
  | .fin neg q => !neg && (65536 : Rat) ≤ q
  | .inf neg => !neg
  | .nan _ => false

/-- `f16_from_f32` (transport.py:190-212). Python's `u & ~0xFFF` clears the last 12 bits. -/
def fromFloat (x : PyFloat) : Except Err Nat := do
  let inval ← pack32 x
  let sign := inval &&& 0x80000000
  let inval := inval ^^^ sign
  let out ←
    if inval ≥ 255 <<< 23 then Except.ok (if inval > 255 <<< 23 then 0x7FFF else 0x7C00)
    else do
      let u := inval >>> 12 <<< 12
      let u ← pack32 (scale (-112) (unpack32 u))
      let u := u + 0x1000
      let u := if u > 31 <<< 23 then 31 <<< 23 else u
      .ok ((u >>> 13) &&& 0xFFFF)
  .ok (out ||| ((sign >>> 16) &&& 0xFFFF))

/-- `f32_from_f16` (transport.py:215-226). -/
def toFloat (h : Nat) : Except Err PyFloat := do
  let out := (h &&& 0x7FFF) <<< 13
  let out ← pack32 (scale 112 (unpack32 out))
  let out := if geInfNan (unpack32 out) then out ||| (255 <<< 23) else out
  let out := out ||| ((h &&& 0x8000) <<< 16)
  .ok (unpack32 out)

end Float16
end Dronecan
