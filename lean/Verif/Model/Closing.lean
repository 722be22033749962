import Verif.Model.Bits

/-!
# Model of what the application classes register with a node and what their `close` takes back

Application objects are numbered. A registration is a handler of the node, a timer, an update handler of a node monitor, or the callback of a request
under way; registrations are numbered too (each has its own handle). The node calls a registration only while it exists (C27, C34, C92); which
one it calls, and when, is an arbitrary input. Left out: what the callbacks do, apart from the requests of the node monitor; constructors that
raise; the storage of the allocation table.
-/

namespace Dronecan
namespace Closing

/-- The classes (dronecan/app, dronecan/utility.py). -/
inductive Kind where
  | nodeMonitor
  | fileServer
  | allocationServer
  | collector
  | logMonitor
  | serial
deriving DecidableEq, Repr

/-- What a registration is for. -/
inductive Src where
  /-- handlers of the node, by data type -/
  | status | info | getInfo | read | allocation | collected | logMessage | tunnel
  /-- `Scheduler.periodic` -/
  | timer
  /-- `NodeMonitor.add_update_handler` -/
  | update
  /-- the callback given to `Node.request` -/
  | pending
deriving DecidableEq, Repr

structure Reg where
  uid : Nat
  app : Nat
  src : Src
deriving DecidableEq, Repr

/-- What can be observed. -/
inductive Ev where
  /-- a method of an application object is called by the node -/
  | called (app : Nat) (src : Src)
  /-- `close` returns, `close` raises `ValueError` -/
  | closed (app : Nat)
  | raised (app : Nat)
deriving DecidableEq, Repr

structure State where
  regs : List Reg := []
  /-- the objects, each with the handles it keeps -/
  apps : List (Kind × List (Src × Nat)) := []
  nextUid : Nat := 0
  trace : List Ev := []
deriving DecidableEq, Repr

/-- What the constructors register (node_monitor.py:91-96, file_server.py:34-50, dynamic_node_id.py:94-108, message_collector.py:47,
log_message_monitor.py:18-19, utility.py:32). -/
def registers : Kind → List Src
  | .nodeMonitor => [.status, .info, .timer]
  | .fileServer => [.getInfo, .read]
  | .allocationServer => [.update, .allocation]
  | .collector => [.collected]
  | .logMonitor => [.logMessage]
  | .serial => [.tunnel]

/-- What `close` removes, in this order (node_monitor.py:151-154, file_server.py:52-54, dynamic_node_id.py:130-135, message_collector.py:52-53,
log_message_monitor.py:21-22, utility.py:49-52). -/
def removes : Kind → List Src
  | .nodeMonitor => [.status, .timer]
  | .fileServer => [.getInfo, .read]
  | .allocationServer => [.allocation, .update]
  | .collector => [.collected]
  | .logMonitor => [.logMessage]
  | .serial => [.tunnel]

/-- Registrations one after the other. -/
def register (app : Nat) : List Src → State → State × List (Src × Nat)
  | [], s => (s, [])
  | x :: xs, s =>
    let (s', hs) := register app xs { s with
      regs := s.regs ++ [⟨s.nextUid, app, x⟩]
      nextUid := s.nextUid + 1 }
    (s', (x, s.nextUid) :: hs)

/-- A constructor. -/
def create (k : Kind) (s : State) : State :=
  let (s', hs) := register s.apps.length (registers k) s
  { s' with apps := s'.apps ++ [(k, hs)] }

/-- `remove` of a handle (node.py:65-69, 128-133, 189; node_monitor.py:82-83): it raises if the registration does not exist. -/
def removeHandle (uid : Nat) (s : State) : Option State :=
  if s.regs.any (fun r => r.uid == uid) then some { s with regs := s.regs.filter (fun r => r.uid != uid) } else none

/-- The statements of `close`; the result says if they return. -/
def removeAll (hs : List (Src × Nat)) : List Src → State → State × Bool
  | [], s => (s, true)
  | x :: xs, s =>
    match hs.lookup x with
    | none => (s, false)
    | some uid =>
      match removeHandle uid s with
      | none => (s, false)
      | some s => removeAll hs xs s

/-- `close`. -/
def close (a : Nat) (s : State) : State :=
  match s.apps[a]? with
  | none => s
  | some (k, hs) =>
    match removeAll hs (removes k) s with
    | (s, true) => { s with trace := s.trace ++ [.closed a] }
    | (s, false) => { s with trace := s.trace ++ [.raised a] }

/-- The node calls a registration. A timer stays (it is registered again, with the same handle), the callback of a request does not; a node monitor that gets a
status message may ask for the node information (node_monitor.py:178-185). -/
def fire (uid : Nat) (asks : Bool) (s : State) : State :=
  match s.regs.find? (fun r => r.uid == uid) with
  | none => s
  | some r =>
    let s := { s with trace := s.trace ++ [.called r.app r.src] }
    match r.src with
    | .pending => { s with regs := s.regs.filter (fun r => r.uid != uid) }
    | .status => if asks then { s with
        regs := s.regs ++ [⟨s.nextUid, r.app, .pending⟩]
        nextUid := s.nextUid + 1 } else s
    | _ => s

/-- A handler of the node. -/
def Src.isHandler : Src → Bool
  | .timer | .update | .pending => false
  | _ => true

inductive Step where
  | create (k : Kind)
  | close (a : Nat)
  | fire (uid : Nat) (asks : Bool)
  /-- `Node.remove_handlers` of a data type (node.py:191-192, 404-407) -/
  | removeHandlers (x : Src)
deriving DecidableEq, Repr

def step (s : State) : Step → State
  | .create k => create k s
  | .close a => close a s
  | .fire uid asks => fire uid asks s
  | .removeHandlers x => if x.isHandler then { s with regs := s.regs.filter (fun r => r.src != x) } else s

def run (steps : List Step) : State := steps.foldl step {}

end Closing
end Dronecan
