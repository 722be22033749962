import Verif.Model.SlcanInit

/-!
# The two threads of the SLCAN I/O process share a `RetrySerial`

`RetrySerial` (slcan.py:85-161) is used by the RX thread (`select_read`, `read`) and by the main thread of the I/O process
(`write`). An operation that fails makes its thread reopen the port (`retry`), under a lock; the operations themselves do not
take the lock. Every step below is what one thread does between two moments at which the other can interfere.

Simplifications: the adapter obeys all commands and answers at once, and the bus is silent (`Model/SlcanInit.lean` has other
adapters, for one thread); lines are written completely or not at all; the speed is not modelled, nor are `fileno`, `flush`,
`inWaiting` and the changes that `read` makes to the time-out of the port.
-/

namespace Dronecan
namespace RetrySerial

/-- The threads. -/
inductive Tid where
  | rx | tx
  deriving DecidableEq, Repr

/-- The commands of `_init_adapter`, slcan.py:500-540. -/
inductive Cmd where
  | reset | close | speed | open | flags
  deriving DecidableEq, Repr

/-- The actions of `_init_adapter`: `send_command`, `wait_for_ack` (whose exceptions matter or not), `flushInput`. -/
inductive Micro where
  | cmd (c : Cmd)
  | ack (required : Bool)
  | flush
  deriving DecidableEq, Repr

/-- One attempt of `_init_adapter` and the final `flushInput`, slcan.py:499-548. -/
def script : List Micro :=
  [.cmd .reset, .ack false, .flush, .cmd .close, .ack false, .cmd .speed, .ack true, .cmd .open, .ack true, .cmd .flags, .ack false, .flush]

/-- Where a thread is. Ports are numbered in the order in which they were opened. -/
inductive Phase where
  /-- not using the port: about to call an operation, for the first time or again -/
  | idle
  /-- within an operation of port `p`, the value of `self.conn` when it began -/
  | busy (p : Nat)
  /-- within `time.sleep(1)` of `retry`, slcan.py:96 -/
  | failed
  /-- within `self.lock.acquire()`, slcan.py:97 -/
  | waiting
  /-- about to close the port, slcan.py:99 -/
  | closing
  /-- about to open a new one, slcan.py:103 -/
  | opening
  /-- within `_init_adapter`, slcan.py:105, with this left to do, and so many more attempts -/
  | init (p : Nat) (todo : List Micro) (left : Nat)
  deriving DecidableEq, Repr

/-- The threads, the ports and the adapter. -/
structure State where
  /-- `self.conn` -/
  cur : Nat := 0
  isOpen : Nat → Bool := fun p => p == 0
  /-- the device has not been unplugged since the port was opened -/
  alive : Nat → Bool := fun p => p == 0
  present : Bool := true
  lock : Option Tid := none
  phase : Tid → Phase := fun _ => .idle
  /-- the channel of the adapter is open -/
  channel : Bool := true
  /-- answers that have not been read: ACK or NACK -/
  buf : List Bool := []
  /-- the number of lines written -/
  written : Nat := 0
  /-- the lines that the adapter has got, and whether its channel was open -/
  heard : List (Nat × Bool) := []
  /-- how many times the port has been closed by `retry` -/
  closed : Nat := 0

/-- Steps: of a thread, or of the world. -/
inductive Step where
  /-- a thread begins an operation -/
  | start (t : Tid)
  /-- it ends: returns or raises -/
  | finish (t : Tid)
  /-- a `select` on a port that has been closed meanwhile returns nothing -/
  | lapse
  /-- a thread goes on within `retry` -/
  | go (t : Tid)
  | unplug
  | plug
  deriving DecidableEq, Repr

/-- A thread goes to a phase. -/
def State.to (s : State) (t : Tid) (ph : Phase) : State := { s with phase := fun u => if u = t then ph else s.phase u }

/-- What a command does to the adapter; it is acknowledged. -/
def obey (c : Cmd) (s : State) : State :=
  { s with
    channel := match c with
      | .close => false
      | .open => true
      | _ => s.channel
    buf := s.buf ++ [true] }

/-- The effect of an operation that succeeds: `write` of the next line (slcan.py:118-124), whose answer is NACK if the channel
is closed; `read`, which takes everything there is (slcan.py:109-116). -/
def effect (t : Tid) (s : State) : State :=
  match t with
  | .tx => { s with written := s.written + 1, heard := s.heard ++ [(s.written, s.channel)], buf := s.buf ++ [s.channel] }
  | .rx => { s with buf := [] }

/-- The end of `retry`, slcan.py:107-111: exceptions have been swallowed. -/
def release (t : Tid) (s : State) : State := { s.to t .idle with lock := none }

/-- An exception within an attempt of `_init_adapter`, slcan.py:533-539: the next attempt, or the end. -/
def failInit (t : Tid) (p left : Nat) (s : State) : State :=
  match left with
  | 0 => release t s
  | n + 1 => s.to t (.init p script n)

/-- One action of `_init_adapter`. Waiting for an ACK with nothing to be read is a time-out. -/
def initStep (t : Tid) (p : Nat) (todo : List Micro) (left : Nat) (s : State) : State :=
  match todo with
  | [] => release t s
  | m :: rest =>
    if s.alive p = false then failInit t p left s
    else match m with
      | .cmd c => (obey c s).to t (.init p rest left)
      | .flush => { s.to t (.init p rest left) with buf := [] }
      | .ack required =>
        match s.buf with
        | true :: buf => { s.to t (.init p rest left) with buf }
        | false :: buf => if required then failInit t p left { s with buf } else { s.to t (.init p rest left) with buf }
        | [] => if required then failInit t p left s else s.to t (.init p rest left)

/-- `retry`, slcan.py:94-111. -/
def goStep (t : Tid) (s : State) : State :=
  match s.phase t with
  | .failed => s.to t .waiting
  | .waiting => if s.lock = none then { s.to t .closing with lock := some t } else s
  | .closing => { s.to t .opening with isOpen := fun p => if p = s.cur then false else s.isOpen p, closed := s.closed + 1 }
  | .opening =>
    if s.present then
      { s.to t (.init (s.cur + 1) script 3) with
        cur := s.cur + 1
        isOpen := fun p => if p = s.cur + 1 then true else s.isOpen p
        alive := fun p => if p = s.cur + 1 then true else s.alive p
        buf := [] }
    else release t s
  | .init p todo left => initStep t p todo left s
  | _ => s

/-- A step. -/
def step (s : State) : Step → State
  | .start t => match s.phase t with
    | .idle => s.to t (.busy s.cur)
    | _ => s
  | .finish t => match s.phase t with
    | .busy p => if s.isOpen p && s.alive p then (effect t s).to t .idle else s.to t .failed
    | _ => s
  | .lapse => match s.phase .rx with
    | .busy p => if s.isOpen p then s else s.to .rx .idle
    | _ => s
  | .go t => goStep t s
  | .unplug => { s with present := false, alive := fun _ => false, channel := false, buf := [] }
  | .plug => { s with present := true }

/-- Steps. -/
def run (steps : List Step) (s : State) : State := steps.foldl step s

end RetrySerial
end Dronecan
