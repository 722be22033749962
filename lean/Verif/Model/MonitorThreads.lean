import Verif.Model.Bits
import Verif.Model.Dict

/-!
# Model of a node monitor that other threads use than the one that runs `spin` (dronecan/app/node_monitor.py:121-131, 156-224)

The monitor has no lock. A thread can be interrupted between any two accesses to what the threads share: the registry, the entries, and the clock.
Simplifications: times are integers (milliseconds); the fields of an entry are updated in one step, and only `monotonic_timestamp` is modelled of them; copying
the registry (`list(self._registry.items())`) is one step; handlers of events raise nothing and do not use the monitor; the requests of node information that
`_on_node_status` makes are left out.
-/

namespace Dronecan
namespace MonitorThreads

/-- A status message, or a response to a request of node information: its source and its time of reception. -/
structure Msg where
  src : Nat
  ts : Int
  info : Bool := false
deriving DecidableEq, Repr

/-- An `Entry` (node_monitor.py:25-32): the key under which it is put into the registry, and `monotonic_timestamp`, which is `None` at first. -/
abbrev Entry := Nat × Option Int

/-- Where a thread is in `get` (node_monitor.py:121-131). -/
inductive Look where
  /-- at the beginning -/
  | start
  /-- the time of the last message has been read (node_monitor.py:127) -/
  | read (ts : Int)
  /-- it is too long ago (node_monitor.py:127) -/
  | stale
  /-- the event handlers have returned (node_monitor.py:128-129) -/
  | delete
  /-- at the last line (node_monitor.py:131) -/
  | last
deriving DecidableEq, Repr

/-- Where the thread is that runs `spin`. -/
inductive Spin where
  | idle
  /-- in `get`, called for a message (node_monitor.py:166, 192) -/
  | get (m : Msg) (l : Look)
  /-- `get` has raised `KeyError` (node_monitor.py:168-170, 193-195) -/
  | insert (m : Msg)
  /-- before `_update_from_status` (node_monitor.py:174) or `_update_from_info` (node_monitor.py:198) -/
  | update (m : Msg) (e : Nat) (fresh : Bool)
  /-- before the handlers of events are called (node_monitor.py:175-176, 224) -/
  | report (m : Msg) (e : Nat) (fresh : Bool)
  /-- in the loop of `_remove_stale` (node_monitor.py:157) -/
  | sweep (rest : List (Nat × Nat))
  /-- the time of the last message has been read (node_monitor.py:158) -/
  | held (nid e : Nat) (ts : Int) (rest : List (Nat × Nat))
  /-- it is too long ago (node_monitor.py:158) -/
  | drop (nid e : Nat) (rest : List (Nat × Nat))
  /-- the entry is deleted (node_monitor.py:159) -/
  | tell (nid e : Nat) (rest : List (Nat × Nat))
deriving DecidableEq, Repr

/-- What can be observed: events given to the handlers (`offline` with the time of the last message, and the time of the event), the results of
`get` in other threads (`returned` with the time that the entry shows), and exceptions that leave `spin`. -/
inductive Ev where
  | new (nid e : Nat)
  | info (nid e : Nat)
  | offline (nid e : Nat) (ts : Option Int) (now : Int)
  | returned (i nid e : Nat) (ts : Option Int)
  | failed (i nid : Nat) (x : Err)
  | raised (x : Err)
deriving DecidableEq, Repr

/-- `entries` are the objects that have been made; the registry refers to them by their numbers. -/
structure State where
  now : Int := 0
  entries : List Entry := []
  registry : Dict Nat Nat := []
  threads : Nat → Option (Nat × Look) := fun _ => none
  spin : Spin := .idle
  trace : List Ev := []

inductive Step where
  /-- time passes -/
  | tick (d : Nat)
  /-- thread `i` calls `get` -/
  | call (i nid : Nat)
  /-- the next step of thread `i` -/
  | thread (i : Nat)
  /-- a message has been received: `_on_node_status` or `_on_info_response` is called -/
  | arrive (m : Msg)
  /-- the timer of `_remove_stale` runs (node_monitor.py:96) -/
  | timer
  /-- the next step of `spin` -/
  | spin
deriving DecidableEq, Repr

/-- `entry.monotonic_timestamp`. -/
def stamp (s : State) (e : Nat) : Option Int := (s.entries[e]?).bind (·.2)

/-- The key under which an entry is put into the registry. -/
def owner (s : State) (e : Nat) : Option Nat := (s.entries[e]?).map (·.1)

def emit (x : Ev) (s : State) : State := { s with trace := s.trace ++ [x] }

/-- What a step of `get` leads to. -/
inductive Out where
  | go (l : Look)
  | ret (e : Nat)
  | err (x : Err)
deriving DecidableEq, Repr

/-- What the next step of `get` (node_monitor.py:121-131) leads to; `T` is `TIMEOUT`. -/
def outcome (T : Int) (nid : Nat) (s : State) : Look → Out
  | .start =>
    match s.registry.get? nid with
    | none => .err .keyError
    | some e => match stamp s e with
      | none => .err .typeError
      | some ts => .go (.read ts)
  | .read ts => if ts + T < s.now then .go .stale else .go .last
  | .stale => if (s.registry.get? nid).isSome then .go .delete else .err .keyError
  | .delete => if (s.registry.get? nid).isSome then .go .last else .err .keyError
  | .last =>
    match s.registry.get? nid with
    | none => .err .keyError
    | some e => .ret e

/-- What the next step of `get` changes: the report to the handlers, and the deletion. -/
def effect (nid : Nat) (s : State) : Look → State
  | .stale =>
    match s.registry.get? nid with
    | none => s
    | some e => emit (.offline nid e (stamp s e) s.now) s
  | .delete => { s with registry := s.registry.del nid }
  | _ => s

def put (ths : Nat → Option (Nat × Look)) (i : Nat) (t : Option (Nat × Look)) : Nat → Option (Nat × Look) := fun j => if j = i then t else ths j

/-- A step of a thread that has called `get`. -/
def threadStep (T : Int) (i : Nat) (s : State) : State :=
  match s.threads i with
  | none => s
  | some (nid, l) =>
    match outcome T nid s l with
    | .go l' => { effect nid s l with threads := put s.threads i (some (nid, l')) }
    | .ret e => emit (.returned i nid e (stamp s e)) { effect nid s l with threads := put s.threads i none }
    | .err x => emit (.failed i nid x) { effect nid s l with threads := put s.threads i none }

/-- A step of `_on_node_status` (node_monitor.py:162-176), `_on_info_response` (node_monitor.py:187-224) or `_remove_stale` (node_monitor.py:156-160). -/
def spinStep (T : Int) (s : State) : State :=
  match s.spin with
  | .idle => s
  | .get m l =>
    match outcome T m.src s l with
    | .go l' => { effect m.src s l with spin := .get m l' }
    | .ret e => { effect m.src s l with spin := .update m e false }
    | .err .keyError => { effect m.src s l with spin := .insert m }
    | .err x => emit (.raised x) { effect m.src s l with spin := .idle }
  | .insert m => { s with
      entries := s.entries ++ [(m.src, none)]
      registry := s.registry.set m.src s.entries.length
      spin := .update m s.entries.length true }
  | .update m e fresh => { s with
      entries := s.entries.modify e fun x => (x.1, some m.ts)
      spin := .report m e fresh }
  | .report m e fresh =>
    if m.info then emit (.info m.src e) { s with spin := .idle }
    else if fresh then emit (.new m.src e) { s with spin := .idle }
    else { s with spin := .idle }
  | .sweep [] => { s with spin := .idle }
  | .sweep ((nid, e) :: rest) =>
    match stamp s e with
    | none => emit (.raised .typeError) { s with spin := .idle }
    | some ts => { s with spin := .held nid e ts rest }
  | .held nid e ts rest => if ts + T < s.now then { s with spin := .drop nid e rest } else { s with spin := .sweep rest }
  | .drop nid e rest =>
    if (s.registry.get? nid).isSome then { s with
      registry := s.registry.del nid
      spin := .tell nid e rest }
    else emit (.raised .keyError) { s with spin := .idle }
  | .tell nid e rest => emit (.offline nid e (stamp s e) s.now) { s with spin := .sweep rest }

def step (T : Int) (s : State) : Step → State
  | .tick d => { s with now := s.now + d }
  | .call i nid => match s.threads i with
    | none => { s with threads := put s.threads i (some (nid, .start)) }
    | some _ => s
  | .thread i => threadStep T i s
  | .arrive m => match s.spin with
    | .idle => { s with spin := .get m .start }
    | _ => s
  | .timer => match s.spin with
    | .idle => { s with spin := .sweep s.registry }
    | _ => s
  | .spin => spinStep T s

/-- The state after a schedule; `T` is `TIMEOUT`. -/
def run (T : Int) (schedule : List Step) : State := schedule.foldl (step T) {}

end MonitorThreads
end Dronecan
