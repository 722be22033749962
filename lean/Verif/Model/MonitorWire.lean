import Verif.Model.Monitor
import Verif.Model.FileWire

/-!
# What a node says about itself, and what a node monitor hears, in terms of messages

Model of `Node._fill_node_status` and its uses (dronecan/node.py:262, 267-269, 275-280, 364-376) and of the handlers of `NodeMonitor`
(dronecan/app/node_monitor.py:93-94, 162-224) with the messages as they come from the node and go to it; what the monitor does with their contents
is `Monitor.onNodeStatus` and `Monitor.onInfoResponse`. The definitions of NodeStatus and GetNodeInfo are not part of the repository: the
layout is that of the standard data types, cast modes and the capacities of the dynamic arrays are arbitrary.
-/

namespace Dronecan
namespace MonitorWire
open Node

/-- The cast modes of the fields (`trunc n`: the `n`-th one truncates) and the capacities. -/
structure Shape where
  trunc : Nat → Bool := fun _ => false
  coaMax : Nat := 255
  nameMax : Nat := 80

/-- `uint32 uptime_sec`, `uint2 health`, `uint3 mode`, `uint3 sub_mode`, `uint16 vendor_specific_status_code`. -/
def Shape.status (d : Shape) : Ty :=
  .comp false [.prim ⟨.unsigned, 32, d.trunc 0⟩, .prim ⟨.unsigned, 2, d.trunc 1⟩, .prim ⟨.unsigned, 3, d.trunc 2⟩, .prim ⟨.unsigned, 3, d.trunc 3⟩,
    .prim ⟨.unsigned, 16, d.trunc 4⟩]

/-- `uint8 major`, `uint8 minor`, `uint8 optional_field_flags`, `uint32 vcs_commit`, `uint64 image_crc`. -/
def Shape.software (d : Shape) : Ty :=
  .comp false [.prim ⟨.unsigned, 8, d.trunc 5⟩, .prim ⟨.unsigned, 8, d.trunc 6⟩, .prim ⟨.unsigned, 8, d.trunc 7⟩, .prim ⟨.unsigned, 32, d.trunc 8⟩,
    .prim ⟨.unsigned, 64, d.trunc 9⟩]

/-- `uint8 major`, `uint8 minor`, `uint8[16] unique_id`, `uint8[<=255] certificate_of_authenticity`. -/
def Shape.hardware (d : Shape) : Ty :=
  .comp false [.prim ⟨.unsigned, 8, d.trunc 10⟩, .prim ⟨.unsigned, 8, d.trunc 11⟩, .arr (.prim ⟨.unsigned, 8, d.trunc 12⟩) false 16,
    .arr (.prim ⟨.unsigned, 8, d.trunc 13⟩) true d.coaMax]

/-- The response of GetNodeInfo: `status`, `software_version`, `hardware_version`, `uint8[<=80] name`. -/
def Shape.response (d : Shape) : Ty :=
  .comp false [d.status, d.software, d.hardware, .arr (.prim ⟨.unsigned, 8, d.trunc 14⟩) true d.nameMax]

/-- The request is empty. -/
def request : Ty := .comp false []

/-! ## The node -/

/-- What the node knows of itself: `start_time_monotonic`, `health`, `mode`, `vendor_specific_status_code` (node.py:262, 267-269) and `node_info`
(node.py:279). The application may assign any numbers. -/
structure Self where
  start : Int
  health : Int := 0
  mode : Int := 1
  vendor : Int := 0
  info : Val

/-- `int(time.monotonic() - self.start_time_monotonic + 0.5)` (node.py:365). -/
def uptime (x : Self) (now : Int) : Int := (now - x.start + sec / 2) / sec

/-- The assignments of `_fill_node_status` (node.py:364-368) to the object at a path. -/
def fill (x : Self) (now : Int) (path : List PathStep) : List (List PathStep × ObjOp) :=
  [(path, .set 0 (.int (uptime x now))), (path, .set 1 (.int x.health)), (path, .set 2 (.int x.mode)), (path, .set 4 (.int x.vendor))]

/-- The message that `_send_node_status` broadcasts (node.py:374-375). -/
def statusMessage (d : Shape) (x : Self) (now : Int) : Except Err Val := FileWire.build d.status (fill x now [])

/-- What `on_get_node_info` returns (node.py:275-278): `node_info`, whose status has been filled in. -/
def infoMessage (d : Shape) (x : Self) (now : Int) : Except Err Val :=
  (fill x now [.field 0]).foldlM (fun v op => match access d.response v op.1 op.2 with
    | (.ok _, v) => .ok v
    | (.error e, _) => .error e) x.info

/-! ## The monitor -/

/-- `e.message.uptime_sec` (node_monitor.py:41). Simplification: a message whose field has no value, which is never received, is a `TypeError`. -/
def heardStatus (d : Shape) (tr : InTransfer) : Except Err Monitor.Status :=
  match tr.payload with
  | .comp _ (.prim u :: _) =>
    match getInt ⟨.unsigned, 32, d.trunc 0⟩ u with
    | some n => .ok { src := tr.header.source, ts := tr.ts.getD 0, uptime := n.toNat }
    | none => .error .typeError
  | _ => .error .attributeError

/-- What is read of a GetNodeInfo transfer (node_monitor.py:48-53, 200-221): the uptime, the unique ID, and whether the name can be decoded.
A request has no attribute `status`. The numbers that are only formatted are left out. -/
def heardInfo (d : Shape) (tr : InTransfer) : Monitor.InfoMsg :=
  let body := match tr.payload with
    | .comp _ [.comp _ (.prim u :: _), _, .comp _ [_, _, .arr uid, _], _] =>
      match getInt ⟨.unsigned, 32, d.trunc 0⟩ u, TextField.toBytes ⟨.unsigned, 8, d.trunc 12⟩ uid with
      | some n, .ok bytes => some (n.toNat, bytes.map (BitVec.ofNat 8))
      | _, _ => none
    | _ => none
  let nameOk := match tr.payload with
    | .comp _ [_, _, _, .arr name] =>
      match TextField.decode ⟨.unsigned, 8, d.trunc 14⟩ true name with
      | .ok _ => true
      | .error _ => false
    | _ => false
  { src := tr.header.source, ts := tr.ts.getD 0, body, nameOk }

/-- `_on_node_status` (node_monitor.py:162-185); the request that it sends last is in the trace. -/
def onStatus (d : Shape) (env : Monitor.MEnv) (anonymous : Bool) (tr : InTransfer) : PyM Monitor.Mon Unit := fun m =>
  match heardStatus d tr with
  | .error e => (.error e, m)
  | .ok s => Monitor.onNodeStatus { env with requestRaises := fun _ => none } s anonymous m

/-- `_on_info_response` (node_monitor.py:187-224), as the callback of a request or as the handler of sniffed responses. -/
def onInfo (d : Shape) (env : Monitor.MEnv) : Option InTransfer → PyM Monitor.Mon Unit
  | none => PyM.pure ()
  | some tr => Monitor.onInfoResponse env (heardInfo d tr)

/-- The requests that the monitor sends to the node (node_monitor.py:184-185): `TRANSFER_PRIORITY` is 30 (node_monitor.py:21). -/
def requests (dt : DataType) (evs : List Monitor.MEv) : List (Cmd × Bool) :=
  evs.filterMap fun
    | .request _ nid _ => some (.request ⟨dt, newVal request⟩ nid (some 30) none none, false)
    | _ => none

/-- The handler `_on_node_status` as the node calls it (node_monitor.py:93, node.py:171). Simplification: the update callbacks do not call the node. -/
def statusScript (d : Shape) (dt : DataType) (env : Monitor.MEnv) (anonymous : Bool) (m : Monitor.Mon) (tr : InTransfer) : Script :=
  match onStatus d env anonymous tr m with
  | (r, m') => { acts := requests dt (m'.trace.drop m.trace.length) ++ match r with
      | .ok _ => []
      | .error e => [(.raise e, false)] }

end MonitorWire
end Dronecan
