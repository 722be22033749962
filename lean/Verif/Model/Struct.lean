import Verif.Model.Bits

/-!
# Model of Python's `struct` for unsigned fields
-/

namespace Dronecan

/-- The `w` bytes of a number, least significant first. -/
def packLE : Nat → Nat → List Byte
  | 0, _ => []
  | w + 1, n => BitVec.ofNat 8 n :: packLE w (n / 256)

/-- The number that bytes stand for, least significant first. -/
def unpackLE : List Byte → Nat
  | [] => 0
  | b :: bs => b.toNat + 256 * unpackLE bs

/-- Whether `struct.pack` accepts a number for an unsigned field of `w` bytes. -/
def fits (w : Nat) (n : Int) : Bool := decide (0 ≤ n) && decide (n < 256 ^ w)

end Dronecan
