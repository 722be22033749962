import Verif.Model.FileServer

/-!
# The file server of the example that updates the firmware of a node (examples/firmware_update.py)

The program serves one file, under a short name made from the CRC of its path (lines 25, 36, 70-71), and tells the device this name (lines 107-110).
`zlib.crc32` is a function of the path here; `struct.pack` and `base64.b64encode` are modelled.
-/

namespace Dronecan
namespace FirmwareFile
open Files

/-- `struct.pack("<I", n)` (examples/firmware_update.py:36). -/
def pack (n : BitVec 32) : List Byte := [n.extractLsb' 0 8, n.extractLsb' 8 8, n.extractLsb' 16 8, n.extractLsb' 24 8]

/-- The alphabet of `base64.b64encode`. -/
def alphabet : List Char := "ABCDEFGHIJKLMNOPQRSTUVWXYZabcdefghijklmnopqrstuvwxyz0123456789+/".toList

/-- The character for six bits. -/
def char (n : Nat) : Char := alphabet.getD n '='

/-- `base64.b64encode` (examples/firmware_update.py:36), with `.decode('utf-8')`. -/
def base64 : List Byte → List Char
  | a :: b :: c :: rest =>
    char (a.toNat / 4) :: char (a.toNat % 4 * 16 + b.toNat / 16) :: char (b.toNat % 16 * 4 + c.toNat / 64) :: char (c.toNat % 64) :: base64 rest
  | [a, b] => [char (a.toNat / 4), char (a.toNat % 4 * 16 + b.toNat / 16), char (b.toNat % 16 * 4), '=']
  | [a] => [char (a.toNat / 4), char (a.toNat % 4 * 16), '=', '=']
  | [] => []

/-- `file_hash` (examples/firmware_update.py:36); `crc` is `zlib.crc32` of the bytes of the path. -/
def fileHash (crc : Str → BitVec 32) (firmware : Str) : Str := (base64 (pack (crc firmware))).take 7

/-- The file server (examples/firmware_update.py:70-71). -/
def server (crc : Str → BitVec 32) (firmware : Str) : Server := { lookup := [], pathMap := [(fileHash crc firmware, firmware)] }

/-- The path in the request to the device (examples/firmware_update.py:107-109). -/
def told (crc : Str → BitVec 32) (firmware : Str) : List Nat := (fileHash crc firmware).map Char.toNat

end FirmwareFile
end Dronecan
