import Verif.Model.Can

/-!
# Model of the methods of the MAVLink and multicast drivers (dronecan/driver/mavcan.py:202-249, dronecan/driver/mcast.py:173-207)

Both drivers have a process that is connected to the application by two queues of limited size; their methods `receive` and `send_frame` are the
same text. A history is an arbitrary interleaving of the application's steps, the clock and what the process does with the queues (what it does
with the frames is in `Model/Mavcan.lean` and `Model/Mcast.lean`). The clock may be set arbitrarily, also backwards. Times are in microseconds.
A frame in a `multiprocessing.Queue` may be on the way, so that `get` does not see it yet. Left out: `close`, hooks that call the driver
(`Model/IoHooks.lean`), the death of the process for other reasons than a full queue.
-/

namespace Dronecan
namespace QueueApi
open Can

/-- An item of the transmission queue: a frame, or a `ControlMessage` (mavcan.py:261-275, 294-297). -/
inductive Item where
  | frame (f : CANFrame)
  | control
deriving DecidableEq, Repr

/-- What can be observed. -/
inductive Ev where
  /-- the I/O hooks are called -/
  | hook (incoming : Bool) (f : CANFrame)
  /-- `send_frame` returns -/
  | accepted (f : CANFrame)
  /-- `send_frame` raises `queue.Full` -/
  | refused (f : CANFrame)
  /-- the process takes a frame from the transmission queue -/
  | taken (f : CANFrame)
  /-- the process has a frame for the application -/
  | arrived (f : CANFrame)
  /-- the process ends with an exception -/
  | died
  /-- `receive(timeout)` is called, returns -/
  | called (timeout : Option Int) (t : Int)
  | returned (f : Option CANFrame) (t : Int)
deriving DecidableEq, Repr

/-- Where the application is: outside of `receive`, before `get`, before the clock is read. -/
inductive Main where
  | idle
  | getting (start : Int) (timeout : Option Int)
  | checking (start : Int) (timeout : Option Int)
deriving DecidableEq, Repr

structure State where
  tx : List Item := []
  rx : List CANFrame := []
  main : Main := .idle
  now : Int := 0
  alive : Bool := true
  trace : List Ev := []
deriving DecidableEq, Repr

/-- `TX_QUEUE_SIZE` (mavcan.py:28, mcast.py:56). -/
def txSize : Nat := 1000

/-- `RX_QUEUE_SIZE` (mavcan.py:25-27, mcast.py:53-55). -/
def rxSize (darwin : Bool) : Nat := if darwin then 32767 else 1000000

def emit (e : Ev) (s : State) : State := { s with trace := s.trace ++ [e] }

/-- `send_frame` (mavcan.py:247-249, mcast.py:205-207). -/
def sendFrame (f : CANFrame) (s : State) : State :=
  let s := emit (.hook false f) s
  if s.tx.length < txSize then emit (.accepted f) { s with tx := s.tx ++ [.frame f] } else emit (.refused f) s

/-- `rx_queue.get(block=0)` and what follows if it gives a frame (mavcan.py:235-241, mcast.py:193-199); `seen`: the first frame, if there is one,
has come through. -/
def lookUp (seen : Bool) (start : Int) (timeout : Option Int) (s : State) : State :=
  match s.rx with
  | [] => { s with main := .checking start timeout }
  | f :: rest =>
    if seen then emit (.returned (some f) s.now) (emit (.hook true f) { s with
      rx := rest
      main := .idle })
    else { s with main := .checking start timeout }

/-- The rest of the loop (mavcan.py:242-245, mcast.py:200-203). -/
def checkTime (start : Int) (timeout : Option Int) (s : State) : State :=
  match timeout with
  | none => { s with main := .getting start none }
  | some t =>
    if s.now ≥ start + max t 1000 then emit (.returned none s.now) { s with main := .idle }
    else { s with main := .getting start (some (max t 1000)) }

/-- The process puts a frame into the reception queue (mavcan.py:192, mcast.py:163); the exception of `put_nowait` is not caught. -/
def arrive (size : Nat) (f : CANFrame) (s : State) : State :=
  let s := emit (.arrived f) s
  if s.rx.length < size then { s with rx := s.rx ++ [f] } else emit .died { s with alive := false }

/-- The process takes an item from the transmission queue (mavcan.py:142, mcast.py:114). -/
def take (s : State) : State :=
  match s.tx with
  | [] => s
  | .control :: rest => { s with tx := rest }
  | .frame f :: rest => emit (.taken f) { s with tx := rest }

inductive Step where
  | send (f : CANFrame)
  /-- a control message is put, if there is room -/
  | control
  | receive (timeout : Option Int)
  /-- a step inside of `receive` -/
  | work (seen : Bool)
  | clock (t : Int)
  | arrive (f : CANFrame)
  | take
deriving DecidableEq, Repr

/-- One step. The application does one thing at a time. -/
def step (size : Nat) (s : State) : Step → State
  | .clock t => { s with now := t }
  | .arrive f => if s.alive then arrive size f s else s
  | .take => if s.alive then take s else s
  | .send f =>
    match s.main with
    | .idle => sendFrame f s
    | _ => s
  | .control =>
    match s.main with
    | .idle => if s.tx.length < txSize then { s with tx := s.tx ++ [.control] } else s
    | _ => s
  | .receive timeout =>
    match s.main with
    | .idle => emit (.called timeout s.now) { s with main := .getting s.now timeout }
    | _ => s
  | .work seen =>
    match s.main with
    | .idle => s
    | .getting start timeout => lookUp seen start timeout s
    | .checking start timeout => checkTime start timeout s

def run (size : Nat) (steps : List Step) : State := steps.foldl (step size) {}

end QueueApi
end Dronecan
