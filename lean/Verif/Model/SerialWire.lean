import Verif.Model.Serial
import Verif.Model.FileWire

/-!
# The messages of the tunnelled serial port (dronecan/utility.py)

`Verif/Model/Serial.lean` models what the port does with bytes; here are the messages that it makes and reads. The definition of
`uavcan.tunnel.Targetted` is not part of the repository: the layout is that of the standard data types, the cast modes and the value of
`OPTION_LOCK_PORT` are arbitrary.
-/

namespace Dronecan
namespace SerialWire

/-- The cast modes of the fields (`trunc n`: the `n`-th one truncates) and `OPTION_LOCK_PORT`. -/
structure Shape where
  trunc : Nat → Bool := fun _ => false
  lockPort : Nat := 1

/-- `Protocol protocol` (which is a `uint8 protocol`), `uint7 target_node`, `int5 serial_id`, `uint4 options`, `uint24 baudrate`,
`uint8[<=120] buffer`. -/
def Shape.ty (d : Shape) : Ty :=
  .comp false [.comp false [.prim ⟨.unsigned, 8, d.trunc 0⟩], .prim ⟨.unsigned, 7, d.trunc 1⟩, .prim ⟨.signed, 5, d.trunc 2⟩,
    .prim ⟨.unsigned, 4, d.trunc 3⟩, .prim ⟨.unsigned, 24, d.trunc 4⟩, .arr (.prim ⟨.unsigned, 8, d.trunc 5⟩) true 120]

/-- The message that `send_bytes` makes (utility.py:66-72). -/
def message (d : Shape) (m : Serial.Out) : Except Err Val :=
  FileWire.build d.ty [([.field 0], .set 0 (.int 2)), ([], .set 1 (.int m.target)), ([], .set 2 (.int m.serialId)),
    ([], .set 3 (.int (if m.lock then d.lockPort else 0))), ([], .set 4 (.int m.baudrate)),
    ([], .set 5 (.list (m.buffer.map fun b => .int b.toNat)))]

/-- What `handle_Targetted` reads of a transfer (utility.py:54-59). Simplification: all is read at once; a message whose `target_node` has no
value or whose buffer cannot be read, which is never received, is a `TypeError`. -/
def heard (d : Shape) (tr : InTransfer) : Except Err Serial.Msg :=
  match tr.payload with
  | .comp _ [_, .prim target, _, _, _, .arr items] =>
    match getInt ⟨.unsigned, 7, d.trunc 1⟩ target, TextField.toBytes ⟨.unsigned, 8, d.trunc 5⟩ items with
    | some n, .ok bytes => .ok { src := tr.header.source, target := n.toNat, buffer := bytes.map (BitVec.ofNat 8) }
    | _, _ => .error .typeError
  | _ => .error .attributeError

/-- `handle_Targetted` (utility.py:54-59). -/
def onTargetted (d : Shape) (tr : InTransfer) : PyM Serial.Port Unit := fun s =>
  match heard d tr with
  | .ok m => (.ok (), Serial.handle m s)
  | .error e => (.error e, s)

end SerialWire
end Dronecan
