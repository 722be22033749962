/-!
# Bit strings and byte strings

Model of the bit-string helpers of `dronecan/transport.py` (lines 92-129) and of the
Python string operations they use. A Python bit string (`str` of '0'/'1') is a `List Bool`,
a `bytearray` is a `List Byte`.
-/

namespace Dronecan

/-- One byte of a `bytearray`. -/
abbrev Byte := BitVec 8

/-- A Python bit string such as `"01101"`; element 0 is the leftmost character. -/
abbrev Bits := List Bool

/-- Exceptions raised by the modelled code. `valueError`, `indexError`, ... are the Python classes of the same
name; `transferError` is `dronecan.transport.TransferError`; `diverge` never corresponds to a Python
exception: it stands for "the loop did not finish" and is proved unreachable. -/
inductive Err where
  | valueError
  | indexError
  | attributeError
  | typeError
  | assertionError
  | runtimeError
  | keyError
  | transferError
  | uavcanException
  | driverError
  | structError
  | zeroDivisionError
  | dsdlException
  | overflowError
  | diverge
  deriving DecidableEq, Repr

deriving instance DecidableEq for Except

/-- Python's `int(s, 2)` on a non-empty string of '0'/'1' (used at transport.py:100, 290, 429, 608). -/
def natOfBits (s : Bits) : Nat := s.foldl (fun a b => 2 * a + b.toNat) 0

/-- The binary digits Python's `format(v, "b")` produces for `v ≥ 0` (at least one digit, no leading zeros
except for `v = 0`). -/
def binDigits (v : Nat) : Bits := (List.range (v.log2 + 1)).reverse.map v.testBit

/-- Python's `format(v, "0<w>b")` for `v ≥ 0`: pad with zeros on the left to at least `w` characters; never
truncates (used at transport.py:93, 317, 322, 333, 451, 621). -/
def formatBin (w v : Nat) : Bits := List.replicate (w - (v.log2 + 1)) false ++ binDigits v

/-- Python's `[s[i:i+n] for i in range(0, len(s), n)]` for `n > 0` (transport.py:100, 109). -/
def slices {α : Type} (n : Nat) (s : List α) : List (List α) :=
  (List.range ((s.length + (n - 1)) / n)).map fun k => (s.drop (n * k)).take n

/-- `bits_from_bytes`, transport.py:92-93. -/
def bitsFromBytes (s : List Byte) : Bits := s.flatMap fun c => formatBin 8 c.toNat

/-- `bytes_from_bits`, transport.py:96-100. `bytearray(...)` raises for values above 255; slices of 8 binary
digits never exceed it, so the conversion is `BitVec.ofNat 8`. -/
def bytesFromBits (s : Bits) : List Byte :=
  let s := if s.length % 8 ≠ 0 then s ++ List.replicate (8 - s.length % 8) false else s
  (slices 8 s).map fun c => BitVec.ofNat 8 (natOfBits c)

/-- `be_from_le_bits`, transport.py:103-109. -/
def beFromLeBits (s : Bits) (bitlen : Nat) : Except Err Bits :=
  if s.length < bitlen then .error .valueError
  else
    let s := if s.length > bitlen then s.take bitlen else s
    .ok (slices 8 s).reverse.flatten

/-- Python's `[s[max(0, i - 8):i] for i in range(len(s), 0, -8)]` (transport.py:118). -/
def slicesFromEnd (s : Bits) : List Bits :=
  (List.range ((s.length + 7) / 8)).map fun k =>
    let i := s.length - 8 * k
    (s.take i).drop (i - 8)

/-- `le_from_be_bits`, transport.py:112-118. -/
def leFromBeBits (s : Bits) (bitlen : Nat) : Except Err Bits :=
  if s.length < bitlen then .error .valueError
  else
    let s := if s.length > bitlen then s.drop (s.length - bitlen) else s
    .ok (slicesFromEnd s).flatten

/-- Smallest `k` with `n ≤ 2^k`, i.e. `ceil(log2 n)` for `n ≥ 1`. -/
def ceilLog2 (n : Nat) : Nat := if n ≤ 1 then 0 else (n - 1).log2 + 1

/-- `union_tag_bits_from_num_elements`, transport.py:125-126. Simplification: Python computes
`ceil(math.log(n, 2))` in floating point, which is exact or errs upward for some large powers of two; the
model uses the exact ceiling. -/
def unionTagBits (n : Nat) : Nat := ceilLog2 n

/-- `array_len_bits_from_max_size`, transport.py:128-129. Same simplification as `unionTagBits`. -/
def arrayLenBits (maxSize : Nat) : Nat := ceilLog2 (maxSize + 1)

/-- Python's `int.bit_length()` for non-negative integers (parser.py:158, 229, 238). -/
def bitLength (n : Nat) : Nat := if n = 0 then 0 else n.log2 + 1

end Dronecan
