import Verif.Model.Parser

/-!
# Model of the choice of the driver (dronecan/driver/__init__.py)

Device names are strings. The machine is an input: which libraries are installed, whether it runs Linux, and which ports send MAVLink messages.
A driver is represented by its class and the arguments that its constructor uses; what the constructors do with a device is left out, except the
lookup of `bitrate` by `PythonCAN`. Left out: `None` as a device name, for which `make_driver` raises `AttributeError`.
-/

namespace Dronecan
namespace MakeDriver
open Parser Text

/-- The keyword arguments that matter here. -/
structure Kwargs where
  baudrate : Option Nat := none
  bitrate : Option Nat := none
  bustype : Option Str := none
deriving DecidableEq

/-- The machine. -/
structure Machine where
  /-- `have_mavcan` (driver/__init__.py:16-20): pymavlink is installed -/
  mavlink : Bool
  /-- `PythonCAN is not None` (python_can.py:28-32): python-can is installed -/
  pythonCan : Bool
  /-- `SocketCAN is not None` (driver/__init__.py:23-26) -/
  linux : Bool
  /-- `MAVCAN.is_mavlink_port` (mavcan.py:251-259): whether a MAVLink message arrives from the port at this baud rate; opening the port may
  raise an exception -/
  sendsMavlink : Str → Nat → Except Err Bool

/-- A call of a constructor. -/
inductive Driver where
  | mavcan (url : Str) (kw : Kwargs)
  | slcan (port : Str) (kw : Kwargs)
  | mcast (url : Str) (kw : Kwargs)
  /-- `file`, with `readonly` -/
  | file (name : Str) (readonly : Bool) (kw : Kwargs)
  /-- `can.interface.Bus(channel, bustype, bitrate)` -/
  | pythonCan (channel bustype : Str) (bitrate : Nat)
  | socketCan (interface : Str) (kw : Kwargs)
deriving DecidableEq

/-- `device_name.replace('\\', '').replace('.', '').lower().startswith('com')` (driver/__init__.py:43). The only characters that `lower` maps
to `c`, `o` and `m` are these letters themselves and the capital ones. -/
def isComPort (name : Str) : Bool :=
  match name.filter (fun c => c ≠ '\\' && c ≠ '.') with
  | a :: b :: c :: _ => (a == 'c' || a == 'C') && (b == 'o' || b == 'O') && (c == 'm' || c == 'M')
  | _ => false

/-- `is_mavlink_port` (driver/__init__.py:30-35). -/
def isMavlinkPort (m : Machine) (name : Str) (kw : Kwargs) : Except Err Bool :=
  if m.mavlink then m.sendsMavlink name (kw.baudrate.getD 115200) else .ok false

/-- The beginning of `PythonCAN.__init__` (python_can.py:35-44); the name is not `None` here. -/
def pythonCan (channel : Str) (kw : Kwargs) : Except Err Driver :=
  match kw.bitrate with
  | none => .error .keyError
  | some b => .ok (.pythonCan channel (kw.bustype.getD (lit "socketcan")) b)

/-- `make_driver` (driver/__init__.py:37-73). -/
def makeDriver (m : Machine) (name : Str) (kw : Kwargs) : Except Err Driver :=
  let kw := if (lit "PCAN").isPrefixOf name then { kw with bustype := some (lit "pcan") } else kw
  if (lit "mavcan:").isPrefixOf name then
    (if m.mavlink then .ok (.mavcan (name.drop 7) kw) else .error .driverError)
  else if (lit "slcan:").isPrefixOf name then .ok (.slcan (name.drop 6) kw)
  else if (lit "mcast:").isPrefixOf name then .ok (.mcast (name.drop 6) kw)
  else if (lit "filein:").isPrefixOf name then .ok (.file (name.drop 7) true kw)
  else if (lit "fileout:").isPrefixOf name then .ok (.file (name.drop 8) false kw)
  else if isComPort name || (lit "/dev/").isPrefixOf name then
    (match isMavlinkPort m name kw with
    | .error e => .error e
    | .ok true => .ok (.mavcan name kw)
    | .ok false => .ok (.slcan name kw))
  else if m.pythonCan then pythonCan name kw
  else if m.linux then .ok (.socketCan name kw)
  else .error .driverError

end MakeDriver
end Dronecan
