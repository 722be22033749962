import Verif.Model.FloatField
import Verif.Model.Double

/-!
# Model of the examples that command actuators (examples/servo_control.py, examples/esc_control.py)

The functions that are called periodically. The sine of the time is any number from -1 to 1; rounding of floats is modelled by `fl`. The types of the
fields are those of the standard, as the definitions are not part of the repository: `uint8 actuator_id`, `uint8 command_type` and
`float16 command_value` in `uavcan.equipment.actuator.Command`, `int14` in `uavcan.equipment.esc.RawCommand`, all saturated. What is printed and the
waiting for other nodes are left out.
-/

namespace Dronecan
namespace Actuators
open FloatField (Num gt lt)
open Float16 (PyFloat)

/-- The setter of `PrimitiveValue.value` (transport.py:309-321) with `cast` (transport.py:229-245), for fields that are not floating-point. A float is
compared with the bounds of a saturated type; what is not replaced by one of them is still a float, which `format(value, '08b')` refuses, after
`new_value += 2 ** bitlen` as well. `&` refuses floats. -/
def setNum (p : PrimTy) : Num → Except Err Bits
  | .int n => setInt p n
  | .float x =>
    match p.kind with
    | .boolean => .ok [match x with | .fin _ q => decide (q ≠ 0) | _ => true]
    | .float => .error .typeError
    | _ =>
      if p.truncated then .error .typeError
      else if gt (.float x) (valueRange p).2 then setInt p (valueRange p).2
      else if lt (.float x) (valueRange p).1 then setInt p (valueRange p).1
      else .error .valueError

/-! ## examples/servo_control.py -/

/-- The command line (servo_control.py:20-24). `default=1` of `--actuator-id` stays an integer, but what is given is converted by `float`. -/
structure Args where
  low : Rat := -1
  high : Rat := 1
  id : Option PyFloat := none

/-- `args.actuator_id`. -/
def Args.actuatorId (a : Args) : Num :=
  match a.id with
  | none => .int 1
  | some x => .float x

/-- The value computed (servo_control.py:39-42); `s` is the sine. -/
def value (low high s : Rat) : Rat :=
  let amplitude := fl (1 / 2 * fl (high - low))
  let mid := fl (low + amplitude)
  fl (mid + fl (s * amplitude))

/-- A number as a float. -/
def toPy (q : Rat) : PyFloat := .fin (decide (q < 0)) q.abs

/-- The fields of a `Command`, as they are sent. -/
structure Command where
  id : Bits
  kind : Bits
  value : Bits
deriving DecidableEq, Repr

/-- `control_actuator` (servo_control.py:36-50): the command broadcast, or the exception. -/
def control (a : Args) (s : Rat) : Except Err Command :=
  match setNum ⟨.unsigned, 8, false⟩ a.actuatorId with
  | .error e => .error e
  | .ok id =>
    match setNum ⟨.unsigned, 8, false⟩ (.int 0) with
    | .error e => .error e
    | .ok kind =>
      match FloatField.set 16 false (.float (toPy (value a.low a.high s))) with
      | .error e => .error e
      | .ok v => .ok ⟨id, kind, v⟩

/-- The calls, one after the other; an exception comes out of `spin` and ends the program (servo_control.py:56-59). -/
def servo (a : Args) : List Rat → List Command × Option Err
  | [] => ([], none)
  | s :: ss =>
    match control a s with
    | .error e => ([], some e)
    | .ok c => (c :: (servo a ss).1, (servo a ss).2)

/-! ## examples/esc_control.py -/

/-- What is broadcast. -/
inductive Msg where
  | safetyOff
  | raw (cmd : List Bits)
deriving DecidableEq, Repr

/-- `setpoint` (esc_control.py:26). -/
def setpoint (s : Rat) : Int := truncRat (fl (512 * fl (s + 2)))

/-- `publish_throttle_setpoint` (esc_control.py:17-32). -/
def throttle (safety : Bool) (s : Rat) : Except Err (List Msg) :=
  match setNum ⟨.signed, 14, false⟩ (.int (setpoint s)) with
  | .error e => .error e
  | .ok c => .ok ((if safety then [.safetyOff] else []) ++ [.raw [c, c, c, c]])

end Actuators
end Dronecan
