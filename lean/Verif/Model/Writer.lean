import Verif.Model.Packet

/-!
# Model of the writer thread of the SocketCAN driver (dronecan/driver/socketcan.py)

The main thread and the writer thread share two queues. A history is an arbitrary interleaving of the steps of both; a step of the
thread that cannot be taken changes nothing. Time stamps of frames are left out, and so is the reading of the socket, which does not
touch the queues.
-/

namespace Dronecan
namespace Writer
open Can

/-- An exception caught by the writer thread: `struct.error`, or an `OSError` with a number other than ENOBUFS. -/
inductive Exn where
  | structError
  | osError (errno : Nat)
deriving DecidableEq, Repr

/-- An item of `_write_feedback_queue`. -/
inductive Report where
  | sent (f : CANFrame)
  | failed (e : Exn)
deriving DecidableEq, Repr

/-- Where the writer thread is: waiting for a frame, in the inner loop with a frame, or after `socket.send` (socketcan.py:240) and
before it has put the frame into the feedback queue (244). -/
inductive Phase where
  | idle
  | working (f : CANFrame)
  | written (f : CANFrame)
deriving DecidableEq, Repr

/-- What can be observed: a frame accepted by `send_frame`, refused by it (`TxQueueFullError`), a message handed to the socket, a
transmission hook called, an exception raised by `send_frame` or `receive`. -/
inductive Ev where
  | accepted (f : CANFrame)
  | full (f : CANFrame)
  | packet (bytes : List Byte)
  | hook (f : CANFrame)
  | raised (e : Exn)
deriving DecidableEq, Repr

structure State where
  queue : List CANFrame := []
  feedback : List Report := []
  phase : Phase := .idle
  stop : Bool := false
  trace : List Ev := []
deriving DecidableEq, Repr

/-- `TX_QUEUE_SIZE` (socketcan.py:184). -/
def queueSize : Nat := 1000

/-- `_check_write_feedback` (socketcan.py:255-267): the exception that it raises, if any. Exceptions of hooks are caught
(common.py:122-127). -/
def check (s : State) : State × Bool :=
  match s.feedback with
  | [] => (s, false)
  | .failed e :: rest =>
    ({ s with
      feedback := rest
      trace := s.trace ++ [.raised e] }, true)
  | .sent f :: rest =>
    ({ s with
      feedback := rest
      trace := s.trace ++ [.hook f] }, false)

/-- `send_frame` (socketcan.py:315-320). -/
def sendFrame (f : CANFrame) (s : State) : State :=
  match check s with
  | (s, true) => s
  | (s, false) =>
    if s.queue.length < queueSize then
      { s with
        queue := s.queue ++ [f]
        trace := s.trace ++ [.accepted f] }
    else { s with trace := s.trace ++ [.full f] }

/-- What `socket.send` does: it sends the message, or raises `OSError` with ENOBUFS or with another number. -/
inductive Outcome where
  | ok
  | noBufs
  | error (errno : Nat)
deriving DecidableEq, Repr

/-- A step of one of the threads. -/
inductive Step where
  | send (f : CANFrame)
  | receive
  | close
  | take
  | attempt (o : Outcome)
  | report
deriving DecidableEq, Repr

/-- One round of the inner loop (socketcan.py:230-250): with the flag set it is left, and the frame is forgotten. -/
def attempt (be : Bool) (o : Outcome) (f : CANFrame) (s : State) : State :=
  if s.stop then { s with phase := .idle }
  else
    match Packet.socketPacket be f, o with
    | .error _, _ =>
      { s with
        phase := .idle
        feedback := s.feedback ++ [.failed .structError] }
    | .ok p, .ok =>
      { s with
        phase := .written f
        trace := s.trace ++ [.packet p] }
    | .ok _, .noBufs => s
    | .ok _, .error n =>
      { s with
        phase := .idle
        feedback := s.feedback ++ [.failed (.osError n)] }

/-- A step; `be` is the byte order of the machine. -/
def step (be : Bool) (s : State) : Step → State
  | .send f => sendFrame f s
  | .receive => (check s).1                      -- socketcan.py:275
  | .close => { s with stop := true }            -- socketcan.py:270
  | .take =>                                     -- socketcan.py:223-227
    match s.phase, s.stop, s.queue with
    | .idle, false, f :: rest =>
      { s with
        queue := rest
        phase := .working f }
    | _, _, _ => s
  | .attempt o =>
    match s.phase with
    | .working f => attempt be o f s
    | _ => s
  | .report =>                                   -- socketcan.py:244, 250
    match s.phase with
    | .written f =>
      { s with
        phase := .idle
        feedback := s.feedback ++ [.sent f] }
    | _ => s

/-- A history. -/
def run (be : Bool) (steps : List Step) : State := steps.foldl (step be) {}

end Writer
end Dronecan
