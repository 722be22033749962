import Verif.Model.Allocator
import Verif.Model.FileWire
import Verif.Model.Node

/-!
# Dynamic node ID allocation in terms of messages

Model of `CentralizedServer._on_allocation_message` (dronecan/app/dynamic_node_id.py:137-224) with the messages as they come from the node and go
to it; what the server does with their contents is `Alloc.onAllocation`. The definition of Allocation is not part of the repository: the layout
is that of the standard data types (a 7-bit node ID, a flag, up to 16 bytes of a unique ID), the cast modes are arbitrary.
-/

namespace Dronecan
namespace AllocWire
open Node

/-- The cast modes of the fields. -/
structure Shape where
  nodeTrunc : Bool := false
  flagTrunc : Bool := false
  uidTrunc : Bool := false

/-- `uint7 node_id`, `bool first_part_of_unique_id`, `uint8[<=16] unique_id`. -/
def Shape.ty (d : Shape) : Ty :=
  .comp false [.prim ⟨.unsigned, 7, d.nodeTrunc⟩, .prim ⟨.boolean, 1, d.flagTrunc⟩, .arr (.prim ⟨.unsigned, 8, d.uidTrunc⟩) true 16]

/-- What the handler reads: `first_part_of_unique_id`, `unique_id.to_bytes()` and `node_id` (dynamic_node_id.py:156-191). Simplification: all are
read at once; fields without a value count as 0, as they do in the conditions. -/
def message (d : Shape) : Val → Except Err Alloc.Allocation
  | .comp _ [.prim node, .prim first, .arr items] =>
    match TextField.toBytes ⟨.unsigned, 8, d.uidTrunc⟩ items with
    | .error e => .error e
    | .ok bytes => .ok {
        first := (getInt ⟨.boolean, 1, d.flagTrunc⟩ first).getD 0 ≠ 0
        nodeId := ((getInt ⟨.unsigned, 7, d.nodeTrunc⟩ node).getD 0).toNat
        uid := bytes.map (BitVec.ofNat 8) }
  | _ => .error .attributeError

/-- A response (dynamic_node_id.py:161-165, 174-178, 213-217): a new message, two assignments and `from_bytes`. -/
def response (d : Shape) (m : Alloc.Allocation) : Except Err Val :=
  FileWire.build d.ty [([], .set 1 (.int (if m.first then 1 else 0))), ([], .set 0 (.int m.nodeId)),
    ([.field 2], .arr (.fromBytes (m.uid.map fun b => .int b.toNat)))]

/-- The server after the message of a transfer, if the broadcasts succeed (dynamic_node_id.py:137-224). Every frame has a time stamp, since
`CANFrame` takes the time if it gets none (common.py:33). -/
def next (d : Shape) (env : Alloc.AEnv) (discovered : Bool) (now wall : Int) (tr : InTransfer) (s : Alloc.Server) : Alloc.Server :=
  match message d tr.payload with
  | .error _ => s
  | .ok m => (Alloc.onAllocation { env with raises := fun _ => none } ⟨tr.header.source, tr.ts.getD 0, m⟩ discovered now wall s).2

/-- The handler `_on_allocation_message` as the node calls it (dynamic_node_id.py:103-104, node.py:171): it broadcasts the responses, and returns nothing. -/
def script (d : Shape) (dt : DataType) (env : Alloc.AEnv) (discovered : Bool) (now wall : Int) (s : Alloc.Server) (tr : InTransfer) : Script :=
  match message d tr.payload with
  | .error e => { acts := [(.raise e, false)] }
  | .ok _ => { acts := ((next d env discovered now wall tr s).sent.drop s.sent.length).map fun m =>
      match response d m with
      | .ok v => (.broadcast ⟨dt, v⟩ none none, false)
      | .error e => (.raise e, false) }

end AllocWire
end Dronecan
