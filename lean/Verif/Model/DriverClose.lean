/-!
# Model of closing the drivers that have an I/O process (dronecan/driver/mavcan.py, slcan.py, mcast.py)

A history is an interleaving of the application (which calls `close` and, between calls, the other methods), of the I/O process, of the passing of
time, and for SLCAN of the logging thread. Of the process only what matters to `close` is modelled: the queues and its end. Signals end a process
at an arbitrary later time, or immediately. Left out: exceptions of `join`, of `is_alive` and of the logging calls.
-/

namespace Dronecan
namespace DriverClose

/-! ## MAVLink -/

namespace Mav

inductive Phase where
  | running
  /-- `io_process` is over, by its return or an exception; the interpreter waits for the thread that writes the items of the reception queue into the
  pipe (multiprocessing.Queue: a process that has put items joins this thread at its end) -/
  | ending
  | dead
deriving DecidableEq, Repr

/-- What can be observed. -/
inductive Ev where
  /-- `close` is called -/
  | closing
  /-- it raises `queue.Full` -/
  | full
  /-- it returns -/
  | returned
  /-- the process takes "QUIT" from the queue -/
  | took
deriving DecidableEq, Repr

structure State where
  /-- "QUIT" is in `exit_queue`, which has room for one item (mavcan.py:209) -/
  quit : Bool := false
  phase : Phase := .running
  /-- frames put into the reception queue that are not in the pipe yet -/
  buffer : Nat := 0
  /-- frames in the pipe -/
  pipe : Nat := 0
  /-- the application is in `self.proc.join()` -/
  joining : Bool := false
  trace : List Ev := []
deriving DecidableEq, Repr

def emit (e : Ev) (s : State) : State := { s with trace := s.trace ++ [e] }

/-- `MAVCAN.close` until `join` (mavcan.py:224-227). -/
def close (s : State) : State :=
  if s.joining then s
  else if s.quit then emit .full (emit .closing s)
  else emit .closing { s with quit := true, joining := true }

/-- `join` returns when the process has ended. -/
def ret (s : State) : State := if s.joining ∧ s.phase = .dead then emit .returned { s with joining := false } else s

/-- `receive` takes a frame (mavcan.py:232-245). -/
def receive (s : State) : State := if s.joining then s else { s with pipe := s.pipe - 1 }

/-- The process gets a frame from the connection (mavcan.py:192). -/
def frame (s : State) : State := if s.phase = .running then { s with buffer := s.buffer + 1 } else s

/-- The process looks into `exit_queue` (mavcan.py:65, 127, 135); `seen`: what is in there has reached its end of the queue. -/
def check (seen : Bool) (s : State) : State :=
  if s.phase = .running ∧ s.quit ∧ seen then emit .took { s with quit := false, phase := .ending } else s

/-- `io_process` ends for another reason: an exception, or the parent process is dead (mavcan.py:130-133). -/
def fail (s : State) : State := if s.phase = .running then { s with phase := .ending } else s

/-- A frame is written into the pipe, which has room for `cap` frames. -/
def flush (cap : Nat) (s : State) : State :=
  if s.phase ≠ .dead ∧ 0 < s.buffer ∧ s.pipe < cap then { s with buffer := s.buffer - 1, pipe := s.pipe + 1 } else s

/-- The end of the process, once everything is in the pipe. -/
def exit (s : State) : State := if s.phase = .ending ∧ s.buffer = 0 then { s with phase := .dead } else s

inductive Step where
  | close
  | ret
  | receive
  | frame
  | check (seen : Bool)
  | fail
  | flush
  | exit
deriving DecidableEq, Repr

def step (cap : Nat) (s : State) : Step → State
  | .close => close s
  | .ret => ret s
  | .receive => receive s
  | .frame => frame s
  | .check b => check b s
  | .fail => fail s
  | .flush => flush cap s
  | .exit => exit s

def run (cap : Nat) (s : State) (h : List Step) : State := h.foldl (step cap) s

end Mav

/-! ## SLCAN -/

namespace Sl

/-- Where `close` is. -/
inductive Phase where
  /-- not called -/
  | idle
  /-- in `self._tx_queue.put(IPC_COMMAND_STOP)` -/
  | putting
  /-- in `self._proc.join(10)` -/
  | joining (until_ : Nat)
  /-- in `self._logging_thread.join()` -/
  | logging
deriving DecidableEq, Repr

inductive Ev where
  | closing
  /-- the command to stop has been put into the queue, at time `t` -/
  | told (t : Nat)
  /-- `terminate()` called, SIGKILL sent, at time `t`; the call has raised if `raised` -/
  | term (t : Nat) (raised : Bool)
  | kill (t : Nat) (raised : Bool)
  | returned
deriving DecidableEq, Repr

structure State where
  alive : Bool := true
  /-- items in `_tx_queue` -/
  queue : Nat := 0
  phase : Phase := .idle
  /-- milliseconds -/
  now : Nat := 0
  /-- `_stopping` -/
  stopping : Bool := false
  /-- the logging thread is running -/
  logger : Bool := true
  trace : List Ev := []
deriving DecidableEq, Repr

/-- `TX_QUEUE_SIZE` (slcan.py:56). -/
def queueSize : Nat := 1000

def emit (e : Ev) (s : State) : State := { s with trace := s.trace ++ [e] }

/-- `self._stopping = True` (slcan.py:796). -/
def stop (s : State) : State := { s with stopping := true, phase := .logging }

/-- `SLCAN.close` is called (slcan.py:777-778). -/
def close (s : State) : State :=
  match s.phase with
  | .idle => if s.alive then emit .closing { s with phase := .putting } else stop (emit .closing s)
  | _ => s

/-- `terminate()` and SIGKILL (slcan.py:782-794). `dies`: the process is dead when `is_alive` is called for the second time. -/
def force (termRaises killRaises dies : Bool) (s : State) : State :=
  let s := emit (.term s.now termRaises) s
  let s := { s with alive := s.alive && !dies }
  if s.alive then emit (.kill s.now killRaises) s else s

/-- `close` goes on where it is (slcan.py:779-797). -/
def proceed (termRaises killRaises dies : Bool) (s : State) : State :=
  match s.phase with
  | .idle => s
  | .putting => if s.queue < queueSize then emit (.told s.now) { s with queue := s.queue + 1, phase := .joining (s.now + 10000) } else s
  | .joining t =>
    if s.alive then (if t ≤ s.now then stop (force termRaises killRaises dies s) else s)
    else stop s
  | .logging => if s.logger then s else emit .returned { s with phase := .idle }

/-- The condition of the loop of the logging thread (slcan.py:761-775). -/
def log (s : State) : State := if s.alive ∧ s.stopping = false then s else { s with logger := false }

inductive Step where
  | close
  | proceed (termRaises killRaises dies : Bool)
  /-- `send_frame` (slcan.py:863-870) -/
  | send
  /-- the process takes an item from the queue -/
  | take
  /-- the process ends -/
  | die
  | log
  | wait (ms : Nat)
deriving DecidableEq, Repr

def step (s : State) : Step → State
  | .close => close s
  | .proceed a b c => proceed a b c s
  | .send => if s.phase = .idle ∧ s.alive ∧ s.queue < queueSize then { s with queue := s.queue + 1 } else s
  | .take => if s.alive then { s with queue := s.queue - 1 } else s
  | .die => { s with alive := false }
  | .log => log s
  | .wait d => { s with now := s.now + d }

def run (s : State) (h : List Step) : State := h.foldl step s

end Sl

/-! ## Multicast -/

namespace Mc

inductive Ev where
  | closing
  | returned
deriving DecidableEq, Repr

structure State where
  alive : Bool := true
  trace : List Ev := []
deriving DecidableEq, Repr

inductive Step where
  | close
  /-- an exception ends the process -/
  | fail
deriving DecidableEq, Repr

/-- `mcast.close` (mcast.py:184-185). -/
def step (s : State) : Step → State
  | .close => { s with trace := s.trace ++ [.closing, .returned] }
  | .fail => { s with alive := false }

def run (s : State) (h : List Step) : State := h.foldl step s

end Mc

end DriverClose
end Dronecan
