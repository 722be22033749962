import Verif.Model.Can

/-!
# Model of the text of a CAN frame, `CANFrame.__str__` (dronecan/driver/common.py:43-54)

The two time stamps that begin the text (`%12.6f %12.6f`) are left out: the model is what follows them. Python 3 only: `b2int` is
the identity (common.py:44-45).
-/

namespace Dronecan
namespace FrameText
open Can

/-- The digit `%x` writes for a number below 16 (common.py:49, 50). -/
def digit (k : Nat) : Char := Char.ofNat (if k < 10 then 48 + k else 87 + k)

/-- The digits of a number without leading zeroes, none for zero: part of `%x` (common.py:49). -/
def digits (n : Nat) : List Char := if n = 0 then [] else digits (n / 16) ++ [digit (n % 16)]
termination_by n

/-- `'%0*x' % (w, n)` for `n ≥ 0` and `w ≥ 1` (common.py:49): at least `w` digits. -/
def hexPad : Nat → Nat → List Char
  | 0, n => digits n
  | w + 1, n => hexPad w (n / 16) ++ [digit (n % 16)]

/-- `'%0*x' % (w, i)` for `w ≥ 2` (common.py:49): the sign takes one column. -/
def hexInt (w : Nat) (i : Int) : List Char := if i < 0 then '-' :: hexPad (w - 1) i.natAbs else hexPad w i.natAbs

/-- `str.rjust` (common.py:49). -/
def rjust (w : Nat) (s : List Char) : List Char := List.replicate (w - s.length) ' ' ++ s

/-- `str.ljust` (common.py:50). -/
def ljust (w : Nat) (s : List Char) : List Char := s ++ List.replicate (w - s.length) ' '

/-- `' '.join(...)` (common.py:50). -/
def join : List (List Char) → List Char
  | [] => []
  | [s] => s
  | s :: t :: r => s ++ ' ' :: join (t :: r)

/-- `MAX_DATA_LENGTH` (common.py:37-40). -/
def maxLen (f : CANFrame) : Nat := if f.canfd then 64 else 8

/-- `id_str` (common.py:49). -/
def idStr (f : CANFrame) : List Char :=
  rjust 11 ((if f.canfd then ['F', 'D'] else []) ++ ' ' :: hexInt (if f.extended then 8 else 3) f.canId)

/-- `hex_data` (common.py:50). -/
def hexData (f : CANFrame) : List Char := ljust (3 * maxLen f) (join (f.data.map fun b => hexPad 2 b.toNat))

/-- `ascii_data` (common.py:51). -/
def asciiData (f : CANFrame) : List Char :=
  f.data.map fun b => if 32 ≤ b.toNat ∧ b.toNat ≤ 126 then Char.ofNat b.toNat else '.'

/-- `__str__` after the time stamps (common.py:53-54). -/
def text (f : CANFrame) : List Char :=
  [' ', ' '] ++ idStr f ++ [' ', ' '] ++ hexData f ++ [' ', ' ', '\''] ++ asciiData f ++ ['\'']

end FrameText
end Dronecan
