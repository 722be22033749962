import Verif.Model.Bits

/-!
# Transfer CRC

Model of `crc16_from_bytes` (dronecan/dsdl/common.py:50-74). CRC values are 16-bit words: the code masks every
intermediate result with 0xFFFF, and initial values (0xFFFF or a previous CRC) fit 16 bits.
-/

namespace Dronecan

/-- One iteration of the inner loop, common.py:70-73. -/
def crcBit (crc : BitVec 16) : BitVec 16 :=
  if crc &&& 0x8000#16 ≠ 0#16 then (crc <<< 1) ^^^ 0x1021#16 else crc <<< 1

/-- `for bit in range(8)`, common.py:69. -/
def crcBits : Nat → BitVec 16 → BitVec 16
  | 0, crc => crc
  | n + 1, crc => crcBits n (crcBit crc)

/-- Processing of one byte, common.py:68-73. -/
def crcByte (crc : BitVec 16) (byte : Byte) : BitVec 16 :=
  crcBits 8 (crc ^^^ (byte.setWidth 16 <<< 8))

/-- `crc16_from_bytes(bytes, initial)`, common.py:50-74. -/
def crc16 (initial : BitVec 16) (bytes : List Byte) : BitVec 16 := bytes.foldl crcByte initial

end Dronecan
