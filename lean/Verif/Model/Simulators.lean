import Verif.Model.Actuators

/-!
# Model of the examples that simulate devices (examples/sim_servo.py, examples/sim_rangefinder.py, examples/sim_battery.py)

The functions that are called periodically. The sine of the time is any number from -1 to 1; rounding of floats is modelled by `fl`. The types of the
fields are those of the standard, as the definitions are not part of the repository; all are saturated. Fields that are not assigned, and what is printed, are
left out.
-/

namespace Dronecan
namespace Simulators
open Actuators (setNum toPy)
open FloatField (Num)
open Float16 (PyFloat)

/-! ## examples/sim_servo.py -/

/-- `uavcan.equipment.actuator.Status`: `uint8 actuator_id`, `float16 position`, `float16 force`, `float16 speed`, `uint7 power_rating_pct`. -/
structure Status where
  id : Bits
  position : Bits
  force : Bits
  speed : Bits
  power : Bits
deriving DecidableEq, Repr

/-- `publish_ActuatorStatus` (sim_servo.py:17-30): what is broadcast. -/
def servo (s : Rat) : Except Err (List Status) := do
  let position ← FloatField.set 16 false (.float (toPy s))
  let force ← FloatField.set 16 false (.int 1)
  let speed ← FloatField.set 16 false (.int 2)
  let power ← setNum ⟨.unsigned, 7, false⟩ (.int 17)
  let id ← setNum ⟨.unsigned, 8, false⟩ (.int 3)
  let id' ← setNum ⟨.unsigned, 8, false⟩ (.int 5)
  return [⟨id, position, force, speed, power⟩, ⟨id', position, force, speed, power⟩]

/-! ## examples/sim_rangefinder.py -/

/-- `uavcan.equipment.range_sensor.Measurement`: `uint8 sensor_id`, `float16 field_of_view`, `uint5 sensor_type`, `uint3 reading_type`, `float16 range`. -/
structure Measurement where
  id : Bits
  view : Bits
  kind : Bits
  reading : Bits
  range : Bits
deriving DecidableEq, Repr

/-- `math.pi`. -/
def pi : Rat := 884279719003555 / 281474976710656

/-- `math.radians(30)`: `x * (pi / 180)`. -/
def view : Rat := fl (30 * fl (pi / 180))

/-- The range (sim_rangefinder.py:39). -/
def range (s : Rat) : Rat := fl (5 / 2 + fl (2 * s))

/-- `publish_range_measurement` (sim_rangefinder.py:23-41). -/
def measure (s : Rat) : Except Err Measurement := do
  let id ← setNum ⟨.unsigned, 8, false⟩ (.int 1)
  let v ← FloatField.set 16 false (.float (toPy view))
  let kind ← setNum ⟨.unsigned, 5, false⟩ (.int 2)
  let reading ← setNum ⟨.unsigned, 3, false⟩ (.int 1)
  let r ← FloatField.set 16 false (.float (toPy (range s)))
  return ⟨id, v, kind, reading, r⟩

/-! ## examples/sim_battery.py -/

/-- The command line (sim_battery.py:10-14). -/
structure Args where
  batteryId : Int := 1
  voltage : PyFloat
  cells : Int := 6

/-- `uavcan.equipment.power.BatteryInfo`: `uint8 battery_id`, `float16 voltage`, `float16 current`, `float16 temperature`, `uint7 state_of_charge_pct`,
`float16 remaining_capacity_wh`, `float16 full_charge_capacity_wh`. -/
structure Info where
  id : Bits
  voltage : Bits
  current : Bits
  temperature : Bits
  charge : Bits
  remaining : Bits
  full : Bits
deriving DecidableEq, Repr

/-- `publish_BatteryInfo` (sim_battery.py:20-30). -/
def battery (a : Args) : Except Err Info := do
  let id ← setNum ⟨.unsigned, 8, false⟩ (.int a.batteryId)
  let voltage ← FloatField.set 16 false (.float a.voltage)
  let current ← FloatField.set 16 false (.float (toPy (fl (3 / 10))))
  let temperature ← FloatField.set 16 false (.float (toPy (fl (17 + fl (27315 / 100)))))
  let charge ← setNum ⟨.unsigned, 7, false⟩ (.int 0)
  let remaining ← FloatField.set 16 false (.int 0)
  let full ← FloatField.set 16 false (.int 0)
  return ⟨id, voltage, current, temperature, charge, remaining, full⟩

/-- A float divided by a positive integer below 2^53. -/
def quotient : PyFloat → Nat → PyFloat
  | .fin neg q, n => .fin neg (fl (q / n))
  | .inf neg, _ => .inf neg
  | .nan neg, _ => .nan neg

/-- `ardupilot.equipment.power.BatteryInfoAux`: `uint8 battery_id`, `float16[<=255] voltage_cell`. -/
structure Aux where
  id : Bits
  cells : List Bits
deriving DecidableEq, Repr

/-- The loop (sim_battery.py:40-41): the first `k` of the items are assigned. -/
def fill (v : PyFloat) (n : Nat) : Nat → List Bits → Except Err (List Bits)
  | 0, l => .ok l
  | k + 1, l => do
    let l ← fill v n k l
    let b ← FloatField.set 16 false (.float (quotient v n))
    return l.set k b

/-- `publish_BatteryInfoAux` (sim_battery.py:35-42). `[0.0] * n` is empty for negative `n`; an array with too many items raises AttributeError
(transport.py:590-598). -/
def balance (a : Args) : Except Err Aux := do
  let id ← setNum ⟨.unsigned, 8, false⟩ (.int a.batteryId)
  if 255 < a.cells then throw .attributeError
  let zero ← FloatField.set 16 false (.float (.fin false 0))
  let cells ← fill a.voltage a.cells.toNat a.cells.toNat (List.replicate a.cells.toNat zero)
  return ⟨id, cells⟩

end Simulators
end Dronecan
