import Verif.Model.Can

/-!
# The bridge between CAN interfaces: `/repo/tools/dronecan_bridge.py`

There is a thread for each port. What the drivers do is an input. The steps of the threads, a call of `receive` or of `send_frame`, interleave.
-/

namespace Dronecan
namespace Bridge
open Can

/-- The exceptions that the handlers of the bridge distinguish. -/
inductive Fail where
  | txQueueFull
  | transferError
  | other
deriving DecidableEq, Repr

/-- The arguments: how many ports there are, and `--filter-nodeid` (dronecan_bridge.py:15-19). -/
structure Config where
  ports : Nat
  filter : Option (List Nat)

/-- A `BridgeThread` (dronecan_bridge.py:35-44): `work` is the frame being forwarded, with the ports which it is still to be sent to. -/
structure Thread where
  alive : Bool := true
  count : Nat := 0
  work : Option (CANFrame × List Nat) := none
deriving DecidableEq, Repr

/-- What can be observed: port `i` has received a frame; the frame has been given to `send_frame` of another port, which has returned or raised; the
thread of a port ends with an exception. -/
inductive Ev where
  | received (i : Nat) (f : CANFrame)
  | sent (i k : Nat) (f : CANFrame)
  | refused (i k : Nat) (f : CANFrame) (e : Fail)
  | died (i : Nat)
deriving DecidableEq, Repr

structure State where
  thread : Nat → Thread := fun _ => {}
  trace : List Ev := []

def set (i : Nat) (t : Thread) (s : State) : State := { s with thread := fun j => if j = i then t else s.thread j }

def emit (e : Ev) (s : State) : State := { s with trace := s.trace ++ [e] }

/-- The filter (dronecan_bridge.py:54-57). Identifiers are not negative. -/
def forwards (cfg : Config) (f : CANFrame) : Bool :=
  match cfg.filter with
  | none => true
  | some ids => ids.contains (f.canId.toNat % 128)

/-- The loop over the drivers, which leaves out the thread's own (dronecan_bridge.py:59-61); `none`: it is over. -/
def rest (f : CANFrame) : List Nat → Option (CANFrame × List Nat)
  | [] => none
  | k :: ks => some (f, k :: ks)

/-- `receive` and what follows (dronecan_bridge.py:48-58). Every exception ends the thread: the name `dronecan.driver.common.TransferError` in the `except`
clause does not exist, so that evaluating it raises `AttributeError`. -/
def recvStep (cfg : Config) (i : Nat) (r : Except Fail (Option CANFrame)) (s : State) : State :=
  if i < cfg.ports ∧ (s.thread i).alive = true ∧ (s.thread i).work = none then
    match r with
    | .error _ => emit (.died i) (set i { s.thread i with alive := false } s)
    | .ok none => s
    | .ok (some f) =>
      let s := emit (.received i f) s
      if forwards cfg f then
        set i { s.thread i with
          count := (s.thread i).count + 1
          work := rest f ((List.range cfg.ports).filter (· ≠ i)) } s
      else s
  else s

/-- `send_frame` (dronecan_bridge.py:62-65). -/
def sendStep (i : Nat) (r : Except Fail Unit) (s : State) : State :=
  if (s.thread i).alive = true then
    match (s.thread i).work with
    | some (f, k :: ks) =>
      match r with
      | .ok _ => emit (.sent i k f) (set i { s.thread i with work := rest f ks } s)
      | .error e =>
        let s := emit (.refused i k f e) (set i { s.thread i with work := rest f ks } s)
        if e = .txQueueFull then s else emit (.died i) (set i { s.thread i with alive := false } s)
    | _ => s
  else s

inductive Step where
  | recv (i : Nat) (r : Except Fail (Option CANFrame))
  | send (i : Nat) (r : Except Fail Unit)

def step (cfg : Config) (s : State) : Step → State
  | .recv i r => recvStep cfg i r s
  | .send i r => sendStep i r s

def run (cfg : Config) (h : List Step) : State := h.foldl (step cfg) {}

end Bridge
end Dronecan
