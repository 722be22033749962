import Verif.Model.Collector

/-!
# The node monitor (dronecan/app/node_monitor.py)

Times are integers in microseconds (Python: float seconds). `OFFLINE_TIMEOUT_MS` comes from the DSDL definition of
NodeStatus, which is not part of the repository: it is the parameter `MEnv.offline`. The messages are reduced to the
fields that the monitor reads. Update callbacks may raise anything, but do not call the monitor themselves. Logging
is modelled only where it can raise.
-/

namespace Dronecan
namespace Monitor
open PyM

/-- `NodeMonitor.MIN_RETRY_INTERVAL`, node_monitor.py:22. -/
def minRetryInterval : Int := 500000

/-- `NodeMonitor.MAX_RETRIES`, node_monitor.py:23. -/
def maxRetries : Nat := 10

/-- `NodeMonitor.Entry`, node_monitor.py:25-32. `serial` is the identity of the Python object. Of the status the uptime
is kept, of the node info the hardware unique ID. `nodeId` and `ts` (`monotonic_timestamp`) are `None` in a fresh entry
in Python; nothing reads them before they are set. -/
structure Entry where
  serial : Nat
  nodeId : Nat := 0
  uptime : Option Nat := none
  info : Option (List Byte) := none
  ts : Int := 0
  retries : Nat := maxRetries
  requestedAt : Int := 0
  deriving DecidableEq

/-- `Entry.discovered`, node_monitor.py:34-36. -/
def Entry.discovered (e : Entry) : Bool := e.info.isSome || e.retries == 0

/-- A received NodeStatus message. -/
structure Status where
  src : Nat
  ts : Int
  uptime : Nat
  deriving DecidableEq

/-- A GetNodeInfo transfer passed to `_on_info_response`. `body` is the uptime and the unique ID of a response; it is
`none` if the transfer is a request addressed to the local node: the handler is registered with `sniff_response`
and gets requests too, whose payload has no attribute `status`. `nameOk`: the name is valid UTF-8. -/
structure InfoMsg where
  src : Nat
  ts : Int
  body : Option (Nat × List Byte)
  nameOk : Bool := true
  deriving DecidableEq

/-- `Entry._update_from_status`, node_monitor.py:38-46. (`self.status` and `self.info` are objects, hence true.) -/
def Entry.updateFromStatus (e : Entry) (m : Status) : Entry :=
  let e := { e with ts := m.ts, nodeId := m.src }
  let e := match e.uptime with
    | some u => if m.uptime < u then { e with retries := maxRetries, info := none } else e
    | none => e
  { e with uptime := some m.uptime }

/-- `Entry._update_from_info` up to the first read of the payload, node_monitor.py:48-51. -/
def Entry.updateFromInfo1 (e : Entry) (m : InfoMsg) : Entry :=
  { e with retries := maxRetries, ts := m.ts, nodeId := m.src }

/-- The kinds of `UpdateEvent`, node_monitor.py:64-67. -/
inductive Kind | new | infoUpdate | offline
  deriving DecidableEq

/-- What the monitor does to its surroundings. -/
inductive MEv
  /-- An update callback is called with an event. -/
  | called (cb : Nat) (kind : Kind) (e : Entry)
  /-- A GetNodeInfo request is sent on behalf of entry `serial` of node `nid` at time `ts`. -/
  | request (serial nid : Nat) (ts : Int)
  deriving DecidableEq

/-- The surroundings: the clock, the timeout, and which callbacks and requests raise what. -/
structure MEnv where
  adv : Nat → Nat
  offline : Int
  raises : Nat → List MEv → Option Err := fun _ _ => none
  requestRaises : List MEv → Option Err := fun _ => none

/-- `NodeMonitor`, node_monitor.py:91-96. -/
structure Mon where
  registry : Dict Nat Entry := []
  callbacks : List Nat := []
  clock : Clock
  nextSerial : Nat := 0
  trace : List MEv := []

variable (env : MEnv)

/-- Append to the trace. -/
def log (x : MEv) : PyM Mon Unit := modify fun s => { s with trace := s.trace ++ [x] }

/-- One call of a callback. -/
def callOne (kind : Kind) (e : Entry) (cb : Nat) : PyM Mon Unit :=
  log (.called cb kind e) >>- fun _ => get >>- fun s =>
  match env.raises cb s.trace with
  | some err => raise err
  | none => PyM.pure ()

/-- `NodeMonitor._call_event_handlers`, node_monitor.py:110-112. -/
def callHandlers (kind : Kind) (e : Entry) : PyM Mon Unit :=
  get >>- fun s => forEach s.callbacks (callOne env kind e)

/-- `self._registry[nid]` -/
def lookup (nid : Nat) : PyM Mon Entry := fun s =>
  match s.registry.get? nid with
  | some e => (.ok e, s)
  | none => (.error .keyError, s)

/-- `time.monotonic()` -/
def monotonic : PyM Mon Int := fun s => (.ok (s.clock.tick env.adv).now, { s with clock := s.clock.tick env.adv })

/-- `self._registry[nid] = e` -/
def store (nid : Nat) (e : Entry) : PyM Mon Unit := modify fun s => { s with registry := s.registry.set nid e }

/-- `del self._registry[nid]` -/
def remove (nid : Nat) : PyM Mon Unit := fun s =>
  if s.registry.contains nid then (.ok (), { s with registry := s.registry.del nid }) else (.error .keyError, s)

/-- `NodeMonitor.get`, node_monitor.py:121-131. -/
def getEntry (nid : Nat) : PyM Mon Entry :=
  lookup nid >>- fun e => monotonic env >>- fun now =>
  (if e.ts + env.offline < now then callHandlers env .offline e >>- fun _ => remove nid else PyM.pure ()) >>- fun _ =>
  lookup nid

/-- `entry = self.Entry(); self._registry[node_id] = entry`, node_monitor.py:169-170, 194-195. -/
def create (nid : Nat) : PyM Mon Entry := fun s =>
  (.ok { serial := s.nextSerial },
    { s with registry := s.registry.set nid { serial := s.nextSerial }, nextSerial := s.nextSerial + 1 })

/-- `try: get  except KeyError: create`, node_monitor.py:165-171, 191-195; the flag is `new_entry`. -/
def entryFor (nid : Nat) : PyM Mon (Entry × Bool) :=
  tryCatch (getEntry env nid >>- fun e => PyM.pure (e, false)) fun err =>
    if err = .keyError then create nid >>- fun e => PyM.pure (e, true) else raise err

/-- The part of `_on_node_status` that asks for the node info, node_monitor.py:178-185. -/
def askInfo (anonymous : Bool) (nid : Nat) (e : Entry) : PyM Mon Unit :=
  if !e.discovered && !anonymous then
    if e.ts - e.requestedAt > minRetryInterval then
      let e := { e with requestedAt := e.ts }
      store nid e >>- fun _ =>
      if e.retries = 0 then raise .assertionError
      else
        store nid { e with retries := e.retries - 1 } >>- fun _ =>
        log (.request e.serial nid e.ts) >>- fun _ => get >>- fun s =>
        match env.requestRaises s.trace with
        | some err => raise err
        | none => PyM.pure ()
    else PyM.pure ()
  else PyM.pure ()

/-- `NodeMonitor._on_node_status`, node_monitor.py:162-185. `anonymous` is `e.node.is_anonymous`. -/
def onNodeStatus (m : Status) (anonymous : Bool) : PyM Mon Unit :=
  entryFor env m.src >>- fun r =>
  let e := r.1.updateFromStatus m
  store m.src e >>- fun _ =>
  (if r.2 then callHandlers env .new e else PyM.pure ()) >>- fun _ =>
  askInfo env anonymous m.src e

/-- `NodeMonitor._on_info_response`, node_monitor.py:187-224, for an event that is not `None`. -/
def onInfoResponse (m : InfoMsg) : PyM Mon Unit :=
  entryFor env m.src >>- fun r =>
  let e := r.1.updateFromInfo1 m
  store m.src e >>- fun _ =>
  match m.body with
  | none => raise .attributeError
  | some (uptime, uid) =>
    let e := { e with uptime := some uptime, info := some uid }
    store m.src e >>- fun _ =>
    if m.nameOk then callHandlers env .infoUpdate e else raise .valueError

/-- One step of the loop in `_remove_stale`, node_monitor.py:158-160. -/
def sweepOne (x : Nat × Entry) : PyM Mon Unit :=
  monotonic env >>- fun now =>
  if x.2.ts + env.offline < now then remove x.1 >>- fun _ => callHandlers env .offline x.2 else PyM.pure ()

/-- `NodeMonitor._remove_stale`, node_monitor.py:156-160. -/
def removeStale : PyM Mon Unit := get >>- fun s => forEach s.registry (sweepOne env)

/-- `NodeMonitor.are_all_nodes_discovered`, node_monitor.py:146-149. -/
def allDiscovered (s : Mon) : Bool := (s.registry.filter fun x => !x.2.discovered).length == 0

/-- An operation on the monitor. -/
inductive Op
  | status (m : Status) (anonymous : Bool)
  | info (m : InfoMsg)
  /-- `_on_info_response(None)`: a request timed out, node_monitor.py:188-189. -/
  | infoTimeout
  | sweep
  | get (nid : Nat)
  /-- `add_update_handler`, node_monitor.py:98-108. -/
  | addHandler (cb : Nat)
  /-- `UpdateHandlerRemover.try_remove`, node_monitor.py:85-89. -/
  | removeHandler (cb : Nat)
  deriving DecidableEq

/-- Perform an operation; whatever it raises, the program continues. -/
def step (s : Mon) : Op → Mon
  | .status m a => (onNodeStatus env m a s).2
  | .info m => (onInfoResponse env m s).2
  | .infoTimeout => s
  | .sweep => (removeStale env s).2
  | .get nid => (getEntry env nid s).2
  | .addHandler cb => { s with callbacks := s.callbacks ++ [cb] }
  | .removeHandler cb => { s with callbacks := s.callbacks.erase cb }

/-- A history of the monitor. -/
def run (s : Mon) (ops : List Op) : Mon := ops.foldl (step env) s

/-- A new monitor. -/
def init (c : Clock) : Mon := { clock := c }

end Monitor
end Dronecan
