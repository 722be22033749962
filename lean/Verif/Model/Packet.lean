import Verif.Model.LogFile

/-!
# Model of the packets of the UDP multicast and SocketCAN drivers
-/

namespace Dronecan
namespace Packet
open Can

/-- The packet for a frame (mcast.py:114-121); the identifier and the flags as in the log file. -/
def mcastPacket (f : CANFrame) : Except Err (List Byte) :=
  if fits 4 (LogFile.messageId f) then
    let body := packLE 2 (LogFile.flagsOf f) ++ packLE 4 (LogFile.messageId f).toNat ++ f.data
    .ok (packLE 2 0x2934 ++ packLE 2 (crc16 0xFFFF body).toNat ++ body)
  else .error .structError

/-- A packet received from another sender (mcast.py:136-162): at most 74 bytes of it are read. `none`: it is dropped. -/
def mcastParse (packet : List Byte) : Option CANFrame :=
  let data := packet.take 74
  if data.length < 10 then none
  else
    let magic := unpackLE (data.take 2)
    let crc := unpackLE ((data.drop 2).take 2)
    let flags := unpackLE ((data.drop 4).take 2)
    let msgid := unpackLE ((data.drop 6).take 4)
    if magic ≠ 0x2934 then none
    else if crc ≠ (crc16 0xFFFF (data.drop 4)).toNat then none
    else some ⟨((msgid &&& 0x1FFFFFFF : Nat) : Int), data.drop 10, msgid.testBit 31, flags.testBit 0⟩

/-- A number of 4 bytes in the byte order of the machine. -/
def native (bigEndian : Bool) (bs : List Byte) : List Byte := if bigEndian then bs.reverse else bs

/-- The format `Ns`: cut off or filled with zeros. -/
def packStr (n : Nat) (s : List Byte) : List Byte := s.take n ++ List.replicate (n - s.length) 0

/-- The message for a frame (socketcan.py:232-238): `=IB3x8s` or `=IBB2x64s`. -/
def socketPacket (be : Bool) (f : CANFrame) : Except Err (List Byte) :=
  if fits 4 (LogFile.messageId f) && fits 1 f.data.length then
    if f.canfd then
      .ok (native be (packLE 4 (LogFile.messageId f).toNat) ++ packLE 1 f.data.length ++ [1, 0, 0] ++
        packStr 64 (f.data ++ List.replicate (64 - f.data.length) 0))
    else
      .ok (native be (packLE 4 (LogFile.messageId f).toNat) ++ packLE 1 f.data.length ++ [0, 0, 0] ++
        packStr 8 (f.data ++ List.replicate (8 - f.data.length) 0))
  else .error .structError

/-- A message received (socketcan.py:297-311): at most 72 bytes of it are read. -/
def socketParse (be : Bool) (packet : List Byte) : Except Err CANFrame :=
  let raw := packet.take 72
  let id := unpackLE (native be (raw.take 4))
  let len := unpackLE ((raw.drop 4).take 1)
  if raw.length ≤ 16 then
    if raw.length = 16 then .ok ⟨((id &&& 0x1FFFFFFF : Nat) : Int), (raw.drop 8).take len, id.testBit 31, false⟩
    else .error .structError
  else
    if raw.length = 72 then .ok ⟨((id &&& 0x1FFFFFFF : Nat) : Int), (raw.drop 8).take len, id.testBit 31, true⟩
    else .error .structError

end Packet
end Dronecan
