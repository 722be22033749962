import Verif.Model.PyM

/-!
# The dynamic node ID allocation server (dronecan/app/dynamic_node_id.py)

Times are integers in microseconds (Python: float seconds). `FOLLOWUP_TIMEOUT_MS` comes from the DSDL definition of
Allocation, which is not part of the repository: it is the parameter `AEnv.timeout`. The SQLite table is a list of rows
(relational semantics of the four SQL statements used). The node monitor is seen through what the server reads from it:
the events it gets and the answers of `are_all_nodes_discovered`, both arbitrary.
-/

namespace Dronecan
namespace Alloc
open PyM

/-- A row of the table, dynamic_node_id.py:34-38. `ts` is SQLite's CURRENT_TIMESTAMP when the row was written (wall clock,
in seconds, not necessarily monotonic). -/
structure Row where
  nodeId : Nat
  uid : Option (List Byte)
  ts : Int
  deriving DecidableEq

/-- The table; `node_id` is the primary key. -/
abbrev Table := List Row

/-- `unique_id == bytes([0] * len(unique_id))`, dynamic_node_id.py:49. -/
def isZero (u : List Byte) : Bool := u == List.replicate u.length 0

/-- The value stored for a unique ID, dynamic_node_id.py:49-52. -/
def stored (u : Option (List Byte)) : Option (List Byte) :=
  match u with
  | some u => if isZero u then none else some u
  | none => none

/-- `AllocationTable.set`, dynamic_node_id.py:48-55: `insert or replace`. -/
def Table.set (t : Table) (uid : Option (List Byte)) (nodeId : Nat) (now : Int) : Table :=
  t.filter (·.nodeId != nodeId) ++ [⟨nodeId, stored uid, now⟩]

/-- `AllocationTable.get_node_id`, dynamic_node_id.py:57-63: `where unique_id = ? order by ts desc limit 1`. SQL does not say
which of several rows with the same latest timestamp comes first: `choose` picks one of them. -/
def Table.getNodeId (choose : List Row → Nat) (t : Table) (uid : List Byte) : Option Nat :=
  let rows := t.filter (·.uid == some uid)
  let best := rows.filter fun r => rows.all fun r' => decide (r'.ts ≤ r.ts)
  (best[choose best % best.length]?).map (·.nodeId)

/-- `AllocationTable.get_unique_id`, dynamic_node_id.py:65-70. (`None` if there is no such row or the field is NULL.) -/
def Table.getUniqueId (t : Table) (nodeId : Nat) : Option (List Byte) :=
  match t.find? (·.nodeId == nodeId) with
  | some r => r.uid
  | none => none

/-- `AllocationTable.is_known_node_id`, dynamic_node_id.py:72-76. -/
def Table.isKnown (t : Table) (nodeId : Nat) : Bool := decide (0 < (t.filter (·.nodeId == nodeId)).length)

/-- An Allocation message. -/
structure Allocation where
  first : Bool
  nodeId : Nat
  uid : List Byte
  deriving DecidableEq

/-- A received Allocation message: the source, `ts_monotonic`, and the message. -/
structure Rx where
  src : Nat
  ts : Int
  msg : Allocation
  deriving DecidableEq

/-- The surroundings: the range of node IDs, the follow-up timeout, the tie-breaking of the database, and which
broadcasts raise. -/
structure AEnv where
  lo : Nat := 1
  hi : Nat := 125
  timeout : Int
  choose : List Row → Nat := fun _ => 0
  raises : List Allocation → Option Err := fun _ => none

/-- `CentralizedServer`, dynamic_node_id.py:83-113: the table, `_query`, `_query_timestamp`, and the messages broadcast. -/
structure Server where
  table : Table := []
  query : List Byte := []
  queryTs : Int := 0
  sent : List Allocation := []

variable (env : AEnv)

/-- `e.node.broadcast(response)`: the message is passed to the node, which may raise. -/
def broadcast (m : Allocation) : PyM Server Unit := fun s =>
  let s := { s with sent := s.sent ++ [m] }
  match env.raises s.sent with
  | some e => (.error e, s)
  | none => (.ok (), s)

/-- `_handle_monitor_event`, dynamic_node_id.py:118-128, for an event that is NEW or INFO_UPDATE: the node ID of the
entry and the unique ID from its info, if there is info. `wall` is the wall clock. -/
def onMonitorEvent (nodeId : Nat) (uid : Option (List Byte)) (wall : Int) : PyM Server Unit := modify fun s =>
  if s.table.getUniqueId nodeId = none then { s with table := s.table.set uid nodeId wall } else s

/-- `for node_id in ids: if not is_known_node_id(node_id): ...; break`, dynamic_node_id.py:197-200, 205-208. -/
def firstFree (t : Table) (ids : List Nat) : Option Nat := ids.find? fun i => !t.isKnown i

/-- `range(a, b)` -/
def rangeUp (a b : Nat) : List Nat := (List.range (b - a)).map (a + ·)

/-- `range(a, b, -1)` -/
def rangeDown (a b : Nat) : List Nat := (List.range (a - b)).map (a - ·)

/-- Python's `x or y` for node IDs: `None` and 0 are false. -/
def orElse (a b : Option Nat) : Option Nat :=
  match a with
  | some (n + 1) => some (n + 1)
  | _ => b

/-- The choice of the node ID, dynamic_node_id.py:191-208; `none` if there is none (or 0). -/
def chooseId (t : Table) (uid : List Byte) (requested : Nat) : Option Nat :=
  let known := t.getNodeId env.choose uid
  let asked := if requested ≠ 0 then orElse known (firstFree t (rangeUp requested env.hi)) else known
  orElse (orElse asked (firstFree t (rangeDown env.hi env.lo))) none

/-- The third phase, dynamic_node_id.py:183-224. -/
def thirdPhase (rx : Rx) (wall : Int) : PyM Server Unit :=
  modify (fun s => { s with query := s.query ++ rx.msg.uid, queryTs := rx.ts }) >>- fun _ => get >>- fun s =>
  match chooseId env s.table s.query rx.msg.nodeId with
  | some i =>
    modify (fun s => { s with table := s.table.set (some s.query) i wall }) >>- fun _ =>
    broadcast env { first := false, nodeId := i, uid := s.query } >>- fun _ =>
    modify (fun s => { s with query := [] })
  | none => PyM.pure ()

/-- `_on_allocation_message`, dynamic_node_id.py:137-224. `discovered` is the answer of `are_all_nodes_discovered`, `now` the
monotonic clock, `wall` the wall clock. -/
def onAllocation (rx : Rx) (discovered : Bool) (now wall : Int) : PyM Server Unit :=
  if rx.src ≠ 0 then PyM.pure ()
  else if !discovered then PyM.pure ()
  else
    modify (fun s => if 0 < s.query.length ∧ env.timeout < now - s.queryTs then { s with query := [] } else s) >>- fun _ =>
    get >>- fun s =>
    if rx.msg.first then
      modify (fun s => { s with query := rx.msg.uid, queryTs := rx.ts }) >>- fun _ =>
      broadcast env { first := false, nodeId := 0, uid := rx.msg.uid }
    else if rx.msg.uid.length = 6 ∧ s.query.length = 6 then
      modify (fun s => { s with query := s.query ++ rx.msg.uid, queryTs := rx.ts }) >>- fun _ =>
      broadcast env { first := false, nodeId := 0, uid := s.query ++ rx.msg.uid }
    else if rx.msg.uid.length = 4 ∧ s.query.length = 12 then thirdPhase env rx wall
    else PyM.pure ()

/-- Something happens to the server. -/
inductive Op
  | alloc (rx : Rx) (discovered : Bool) (now wall : Int)
  | monitor (nodeId : Nat) (uid : Option (List Byte)) (wall : Int)
  deriving DecidableEq

/-- Perform an operation; whatever it raises, the program continues. -/
def step (s : Server) : Op → Server
  | .alloc rx d now wall => (onAllocation env rx d now wall s).2
  | .monitor i u wall => (onMonitorEvent i u wall s).2

/-- A history of the server. -/
def run (s : Server) (ops : List Op) : Server := ops.foldl (step env) s

/-- `CentralizedServer.__init__`, dynamic_node_id.py:99-113: the table is loaded, then the local node and the nodes known to
the monitor are entered. -/
def start (loaded : Table) (nodeId : Nat) (uid : List Byte) (known : List (Nat × Option (List Byte))) (wall : Int) : Server :=
  { table := known.foldl (fun t x => t.set x.2 x.1 wall) (loaded.set (some uid) nodeId wall) }

end Alloc
end Dronecan
