import Verif.Model.Bits

/-!
# Model of the CAN frames of the drivers (dronecan/driver/common.py)
-/

namespace Dronecan
namespace Can

/-- `CANFrame.dlc_to_datalength` (common.py:56-73). -/
def dlcToLen (dlc : Nat) : Nat :=
  if dlc ≤ 8 then dlc
  else if dlc = 9 then 12
  else if dlc = 10 then 16
  else if dlc = 11 then 20
  else if dlc = 12 then 24
  else if dlc = 13 then 32
  else if dlc = 14 then 48
  else 64

/-- `CANFrame.datalength_to_dlc` (common.py:75-90). -/
def lenToDlc (n : Nat) : Nat :=
  if n ≤ 8 then n
  else if n ≤ 12 then 9
  else if n ≤ 16 then 10
  else if n ≤ 20 then 11
  else if n ≤ 24 then 12
  else if n ≤ 32 then 13
  else if n ≤ 48 then 14
  else 15

/-- A frame handed to a driver for transmission, or delivered by it: `CANFrame` (common.py:29-41) without its time stamps.
The identifier is an integer: the SLCAN parser can produce negative ones. -/
structure CANFrame where
  canId : Int
  data : List Byte
  extended : Bool
  canfd : Bool
deriving DecidableEq, Repr

end Can
end Dronecan
