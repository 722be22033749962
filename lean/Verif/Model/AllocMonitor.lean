import Verif.Model.Monitor
import Verif.Model.Allocator

/-!
# The allocation server and the node monitor it listens to

`CentralizedServer` is given a `NodeMonitor`: it adds an update handler to it, takes its entries over into the allocation
table, and asks it before every allocation whether all nodes are discovered (dynamic_node_id.py:79-153). Here the two
models, `Model/Monitor.lean` and `Model/Allocator.lean`, are put together.

Simplification: the handler of the server does not raise (the database works). The monitor may have any number of other
callbacks, which may raise.
-/

namespace Dronecan
namespace AllocSys

/-- The surroundings of both, and the number of the server's callback among those of the monitor. -/
structure Env where
  mon : Monitor.MEnv
  alloc : Alloc.AEnv
  me : Nat

/-- The two objects. -/
structure Sys where
  mon : Monitor.Mon
  srv : Alloc.Server

variable (env : Env)

/-- The server's part in a call of an update callback: `_handle_monitor_event`, dynamic_node_id.py:118-128. Events other than
NEW and INFO_UPDATE are ignored (119-120). `entry.node_id` and `entry.info` are those at the time of the call. -/
def tell (wall : Int) (srv : Alloc.Server) : Monitor.MEv → Alloc.Server
  | .called cb kind e =>
    if cb = env.me ∧ kind ≠ .offline then (Alloc.onMonitorEvent e.nodeId e.info wall srv).2 else srv
  | .request _ _ _ => srv

/-- Something happens to one of the two. -/
inductive Op
  /-- A status or info message arrives, a request times out, the monitor is swept or asked: node_monitor.py. -/
  | monitor (op : Monitor.Op) (wall : Int)
  /-- An Allocation message arrives: dynamic_node_id.py:137-224. -/
  | alloc (rx : Alloc.Rx) (now wall : Int)

/-- Perform an operation. The events that the monitor reports meanwhile reach the server in their order; an allocation
message is handled with the answer that the monitor gives to `are_all_nodes_discovered` (dynamic_node_id.py:146). -/
def step (s : Sys) : Op → Sys
  | .monitor op wall =>
    let mon := Monitor.step env.mon s.mon op
    { mon := mon, srv := (mon.trace.drop s.mon.trace.length).foldl (tell env wall) s.srv }
  | .alloc rx now wall =>
    { s with srv := (Alloc.onAllocation env.alloc rx (Monitor.allDiscovered s.mon) now wall s.srv).2 }

/-- A history of the two. -/
def run (s : Sys) (ops : List Op) : Sys := ops.foldl (step env) s

/-- `CentralizedServer.__init__`, dynamic_node_id.py:99-113, with a monitor in use: the server's handler is added, the table
is loaded, and the local node and the monitor's entries are entered. -/
def create (mon : Monitor.Mon) (loaded : Alloc.Table) (nodeId : Nat) (uid : List Byte) (wall : Int) : Sys :=
  { mon := Monitor.step env.mon mon (.addHandler env.me)
    srv := Alloc.start loaded nodeId uid (mon.registry.map fun x => (x.2.nodeId, x.2.info)) wall }

end AllocSys
end Dronecan
