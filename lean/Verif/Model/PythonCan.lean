import Verif.Model.Can

/-!
# Model of the python-can driver (dronecan/driver/python_can.py)

The main thread and the writer thread share two queues. A history is an arbitrary interleaving of the steps of both; a step of a thread that cannot
be taken changes nothing. The library python-can is outside: `Bus.send` and `Bus.flush_tx_buffer` succeed or raise, arbitrarily; `Bus.recv`
behaves as documented, with a timeout in seconds. Times are in microseconds. Time stamps of frames are left out (on Python 3 the clocks are
never zero, so that `_convert_real_to_monotonic` is not called).
-/

namespace Dronecan
namespace PythonCan
open Can

/-- An item of `_write_feedback_queue`: a frame, or an exception other than `OSError` with ENOBUFS (named by a number). -/
inductive Report where
  | sent (f : CANFrame)
  | failed (e : Nat)
deriving DecidableEq, Repr

/-- Where the writer thread is: waiting for a frame, before `Bus.send` (python_can.py:102), before `Bus.flush_tx_buffer` (103), before putting the
frame into the feedback queue (107). -/
inductive Phase where
  | idle
  | working (f : CANFrame)
  | flushing (f : CANFrame)
  | reporting (f : CANFrame)
deriving DecidableEq, Repr

/-- A message of python-can, as far as `receive` could look at it. -/
structure Message where
  id : Nat
  data : List Byte
  extended : Bool
  remote : Bool := false
  error : Bool := false
deriving DecidableEq, Repr

/-- What can be observed. -/
inductive Ev where
  /-- `send_frame` accepts a frame, or raises `TxQueueFullError`, or `DriverError` because of CAN FD -/
  | accepted (f : CANFrame)
  | full (f : CANFrame)
  | notFd (f : CANFrame)
  /-- a message handed to the bus -/
  | bus (m : Message)
  /-- `Bus.flush_tx_buffer` has raised -/
  | flushFailed
  /-- the I/O hooks are called: incoming or outgoing -/
  | hook (incoming : Bool) (f : CANFrame)
  /-- `send_frame` or `receive` raises an exception of the writer thread -/
  | raised (e : Nat)
  /-- `receive` returns, at this time -/
  | returned (f : Option CANFrame) (at_ : Int)
deriving DecidableEq, Repr

structure State where
  queue : List CANFrame := []
  feedback : List Report := []
  phase : Phase := .idle
  stop : Bool := false
  /-- the clock, and the messages that will arrive, in order, each with its time -/
  now : Int := 0
  incoming : List (Int × Message) := []
  trace : List Ev := []
deriving DecidableEq, Repr

/-- `TX_QUEUE_SIZE` (python_can.py:33). -/
def queueSize : Nat := 1000

def emit (e : Ev) (s : State) : State := { s with trace := s.trace ++ [e] }

/-- `_check_write_feedback` (python_can.py:117-129), and whether it raises. Exceptions of hooks are caught (common.py:122-127). -/
def check (s : State) : State × Bool :=
  match s.feedback with
  | [] => (s, false)
  | .failed e :: rest => (emit (.raised e) { s with feedback := rest }, true)
  | .sent f :: rest => (emit (.hook false f) { s with feedback := rest }, false)

/-- `send_frame` (python_can.py:163-170). -/
def sendFrame (f : CANFrame) (s : State) : State :=
  if f.canfd then emit (.notFd f) s
  else match check s with
    | (s, true) => s
    | (s, false) =>
      if s.queue.length < queueSize then emit (.accepted f) { s with queue := s.queue ++ [f] } else emit (.full f) s

/-- `can.Message` for a frame (python_can.py:87-101). -/
def message (f : CANFrame) : Message where
  id := f.canId.toNat
  data := f.data
  extended := f.extended

/-- The argument of `Bus.recv` (python_can.py:139, 142): the timeout of `receive` is in seconds. -/
def busTimeout : Option Int → Int
  | none => -1000000
  | some t => t * 1000

/-- `Bus.recv(timeout)`: it waits at most so long. A negative timeout is not documented: some buses raise, others look whether there is a
message (`polls`). -/
def recv (polls : Bool) (timeout : Int) (s : State) : Option Message × State :=
  match s.incoming with
  | [] => (none, { s with now := s.now + max timeout 0 })
  | (t, m) :: rest =>
    if timeout < 0 ∧ polls = false then (none, s)
    else if t ≤ s.now + max timeout 0 then (some m, { s with
      now := max s.now t
      incoming := rest })
    else (none, { s with now := s.now + max timeout 0 })

/-- The frame made of a message (python_can.py:151-157). -/
def received (m : Message) : CANFrame := ⟨m.id, m.data, true, false⟩

/-- `receive` (python_can.py:136-161). An exception of `Bus.recv` is only logged. -/
def receive (polls : Bool) (timeout : Option Int) (s : State) : State :=
  match check s with
  | (s, true) => s
  | (s, false) =>
    match recv polls (busTimeout timeout) s with
    | (none, s) => emit (.returned none s.now) s
    | (some m, s) => emit (.returned (some (received m)) s.now) (emit (.hook true (received m)) s)

/-- What a call of the bus does: it succeeds, or raises `OSError` with ENOBUFS, or another exception. -/
inductive Outcome where
  | ok
  | noBufs
  | error (e : Nat)
deriving DecidableEq, Repr

/-- A step of one of the threads. -/
inductive Step where
  | send (f : CANFrame)
  | receive (timeout : Option Int)
  | close
  | take
  | transmit (o : Outcome)
  | flush (o : Outcome)
  | report
  /-- time passes -/
  | wait (t : Nat)
deriving DecidableEq, Repr

/-- A step. -/
def step (polls : Bool) (s : State) : Step → State
  | .send f => sendFrame f s
  | .receive timeout => receive polls timeout s
  | .close => { s with stop := true }            -- python_can.py:132
  | .take =>                                     -- python_can.py:78-82
    match s.phase, s.stop, s.queue with
    | .idle, false, f :: rest =>
      { s with
        queue := rest
        phase := .working f }
    | _, _, _ => s
  | .transmit o =>                               -- python_can.py:85-102, 108-115
    match s.phase with
    | .working f =>
      if s.stop then { s with phase := .idle }
      else match o with
        | .ok => emit (.bus (message f)) { s with phase := .flushing f }
        | .noBufs => s
        | .error e => { s with
            phase := .idle
            feedback := s.feedback ++ [.failed e] }
    | _ => s
  | .flush o =>                                  -- python_can.py:103, 108-115
    match s.phase with
    | .flushing f =>
      (match o with
      | .ok => { s with phase := .reporting f }
      | .noBufs => emit .flushFailed { s with phase := .working f }
      | .error e => emit .flushFailed { s with
          phase := .idle
          feedback := s.feedback ++ [.failed e] })
    | _ => s
  | .report =>                                   -- python_can.py:107, 112-113
    match s.phase with
    | .reporting f =>
      { s with
        phase := .idle
        feedback := s.feedback ++ [.sent f] }
    | _ => s
  | .wait t => { s with now := s.now + t }

/-- A history. -/
def run (polls : Bool) (s : State) (steps : List Step) : State := steps.foldl (step polls) s

end PythonCan
end Dronecan
