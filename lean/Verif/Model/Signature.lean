import Verif.Model.Bits

/-!
# Model of the DSDL signature (dronecan/dsdl/signature.py)

Python integers are natural numbers. Data is a list of numbers: bytes, or the code points of a string.
-/

namespace Dronecan
namespace Signature

/-- `MASK64` (signature.py:27). -/
def mask64 : Nat := 0xFFFFFFFFFFFFFFFF

/-- `POLY` (signature.py:28). -/
def poly : Nat := 0x42F0E1EBA9EA3693

/-- The constructor (signature.py:30-37): the value of `_crc`. `&` of a negative number with the mask is its residue. -/
def init (extendFrom : Option Int) : Nat :=
  match extendFrom with
  | some e => (e % 2 ^ 64).toNat ^^^ mask64
  | none => mask64

/-- One iteration of the inner loop of `add` (signature.py:51-54). -/
def bit (crc : Nat) : Nat := if crc &&& (1 <<< 63) ≠ 0 then ((crc <<< 1) &&& mask64) ^^^ poly else crc <<< 1

/-- The inner loop of `add` (signature.py:50). -/
def bits : Nat → Nat → Nat
  | 0, crc => crc
  | n + 1, crc => bits n (bit crc)

/-- One byte (signature.py:49-54). -/
def byte (crc b : Nat) : Nat := bits 8 (crc ^^^ ((b <<< 56) &&& mask64))

/-- `add` (signature.py:39-54). -/
def add (crc : Nat) (data : List Nat) : Nat := data.foldl byte crc

/-- `get_value` (signature.py:56-58). -/
def value (crc : Nat) : Nat := (crc &&& mask64) ^^^ mask64

/-- `compute_signature` (signature.py:61-68). -/
def compute (data : List Nat) : Nat := value (add (init none) data)

end Signature
end Dronecan
