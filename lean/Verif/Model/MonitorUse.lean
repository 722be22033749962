import Verif.Model.Monitor

/-!
# The node monitor used by its own update callbacks (dronecan/app/node_monitor.py)

As in `Verif/Model/Monitor.lean`, but here an update callback may call `get` of the monitor, any number of times, each time
inside `try: ... except KeyError: pass`. (What `exists`, `get_all_node_id`, `find_all` and `are_all_nodes_discovered` return
does not change the monitor.) Python's recursion limit is the parameter `depth`: the number of nested calls of `get`
after which Python raises `RecursionError`, which is a `RuntimeError`.
-/

namespace Dronecan
namespace Monitor
open PyM

/-- The surroundings; `lookups cb trace` are the nodes that callback `cb` looks up, in this order, when it is called; the
call is the last element of the trace. -/
structure UEnv where
  base : MEnv
  lookups : Nat → List MEv → List Nat

variable (env : UEnv)

/-- `try: monitor.get(nid)  except KeyError: pass` in a callback. -/
def lookUp (get : Nat → PyM Mon Entry) (nid : Nat) : PyM Mon Unit :=
  tryCatch (get nid >>- fun _ => PyM.pure ()) fun err => if err = .keyError then PyM.pure () else raise err

/-- One call of a callback, which looks up nodes and then possibly raises. -/
def callOneU (getEntry : Nat → PyM Mon Entry) (kind : Kind) (e : Entry) (cb : Nat) : PyM Mon Unit :=
  log (.called cb kind e) >>- fun _ => get >>- fun s =>
  forEach (env.lookups cb s.trace) (lookUp getEntry) >>- fun _ =>
  match env.base.raises cb s.trace with
  | some err => raise err
  | none => PyM.pure ()

/-- `NodeMonitor._call_event_handlers`, node_monitor.py:110-112. -/
def callHandlersU (getEntry : Nat → PyM Mon Entry) (kind : Kind) (e : Entry) : PyM Mon Unit :=
  get >>- fun s => forEach s.callbacks (callOneU env getEntry kind e)

/-- `NodeMonitor.get`, node_monitor.py:121-131. -/
def getU : Nat → Nat → PyM Mon Entry
  | 0, _ => raise .runtimeError
  | depth + 1, nid =>
    lookup nid >>- fun e => monotonic env.base >>- fun now =>
    (if e.ts + env.base.offline < now then callHandlersU env (getU depth) .offline e >>- fun _ => remove nid
      else PyM.pure ()) >>- fun _ =>
    lookup nid

/-- `try: get  except KeyError: create`, node_monitor.py:165-171, 191-195. -/
def entryForU (depth nid : Nat) : PyM Mon (Entry × Bool) :=
  tryCatch (getU env depth nid >>- fun e => PyM.pure (e, false)) fun err =>
    if err = .keyError then create nid >>- fun e => PyM.pure (e, true) else raise err

/-- The request for the node's information at the end of `_on_node_status`, node_monitor.py:173-185. The entry may have been
removed by a callback when it is changed here: Python then changes an object that is not in the registry, `askInfo` would
enter it again; `askIfThere` leaves the registry as it is in this case. -/
def askIfThere (anonymous : Bool) (nid : Nat) (e : Entry) : PyM Mon Unit := fun s =>
  if (s.registry.get? nid).map (·.serial) = some e.serial then askInfo env.base anonymous nid e s
  else
    let (r, s') := askInfo env.base anonymous nid e s
    (r, { s' with registry := s.registry })

/-- `NodeMonitor._on_node_status`, node_monitor.py:162-185. -/
def onNodeStatusU (depth : Nat) (m : Status) (anonymous : Bool) : PyM Mon Unit :=
  entryForU env depth m.src >>- fun r =>
  let e := r.1.updateFromStatus m
  store m.src e >>- fun _ =>
  (if r.2 then callHandlersU env (getU env depth) .new e else PyM.pure ()) >>- fun _ =>
  askIfThere env anonymous m.src e

/-- `NodeMonitor._on_info_response`, node_monitor.py:187-224, for an event that is not `None`. -/
def onInfoResponseU (depth : Nat) (m : InfoMsg) : PyM Mon Unit :=
  entryForU env depth m.src >>- fun r =>
  let e := r.1.updateFromInfo1 m
  store m.src e >>- fun _ =>
  match m.body with
  | none => raise .attributeError
  | some (uptime, uid) =>
    let e := { e with uptime := some uptime, info := some uid }
    store m.src e >>- fun _ =>
    if m.nameOk then callHandlersU env (getU env depth) .infoUpdate e else raise .valueError

/-- One step of the loop in `_remove_stale`, node_monitor.py:158-160. -/
def sweepOneU (depth : Nat) (x : Nat × Entry) : PyM Mon Unit :=
  monotonic env.base >>- fun now =>
  if x.2.ts + env.base.offline < now then
    remove x.1 >>- fun _ => callHandlersU env (getU env depth) .offline x.2
  else PyM.pure ()

/-- `NodeMonitor._remove_stale`, node_monitor.py:156-160. -/
def removeStaleU (depth : Nat) : PyM Mon Unit := get >>- fun s => forEach s.registry (sweepOneU env depth)

/-- Perform an operation; whatever it raises, the program continues. -/
def stepU (depth : Nat) (s : Mon) : Op → Mon
  | .status m a => (onNodeStatusU env depth m a s).2
  | .info m => (onInfoResponseU env depth m s).2
  | .infoTimeout => s
  | .sweep => (removeStaleU env depth s).2
  | .get nid => (getU env depth nid s).2
  | .addHandler cb => { s with callbacks := s.callbacks ++ [cb] }
  | .removeHandler cb => { s with callbacks := s.callbacks.erase cb }

/-- A history of the monitor. -/
def runU (depth : Nat) (s : Mon) (ops : List Op) : Mon := ops.foldl (stepU env depth) s

end Monitor
end Dronecan
