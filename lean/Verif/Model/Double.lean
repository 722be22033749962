/-!
# Model of Python's `float` where rounding matters

A float is the rational number it stands for. Rounding is to the nearest number with a 53-bit significand, ties to even
(IEEE 754 binary64); infinities, subnormal numbers and overflow are not modelled.
-/

namespace Dronecan

/-- Rounding to the nearest integer, ties to even. -/
def roundHalfEven (m : Rat) : Int :=
  let r := m - m.floor
  if r < 1 / 2 then m.floor
  else if 1 / 2 < r then m.floor + 1
  else if m.floor % 2 = 0 then m.floor
  else m.floor + 1

/-- The exponent `e` with `2 ^ e ≤ |q| < 2 ^ (e + 1)`. -/
def binExp (q : Rat) : Int :=
  let k : Int := (Nat.log2 q.num.natAbs : Int) - (Nat.log2 q.den : Int)
  if (2 : Rat) ^ k ≤ q.abs then k else k - 1

/-- The nearest float. -/
def fl (q : Rat) : Rat :=
  if q = 0 then 0
  else (roundHalfEven (q / (2 : Rat) ^ (binExp q - 52)) : Rat) * (2 : Rat) ^ (binExp q - 52)

/-- `int(x)` of a float: truncation. -/
def truncRat (q : Rat) : Int := if q < 0 then -((-q).floor) else q.floor

end Dronecan
