import Verif.Model.Can
import Verif.Model.PyM

/-!
# Model of opening an SLCAN device (dronecan/driver/slcan.py: SLCAN.__init__, _io_process)

A history is an interleaving of the constructor, of the two threads of the I/O process, and of the passing of time. How opening the port,
initialising the adapter (`Model/SlcanInit.lean`) and reading the port come out are arbitrary inputs. Left out: lines of the adapter that are no
frames, the sizes of the queues (a million and a thousand items), the death of the parent, and the filtering of keyword arguments (slcan.py:719-728).
After the constructor has returned nothing is taken from the reception queue here; that is `Model/SlcanDriver.lean`.
-/

namespace Dronecan
namespace SlcanOpen
open Can

/-- The keyword argument `auto_reopen` (slcan.py:564), and `RUNNING_ON_WINDOWS` (slcan.py:40-45). -/
structure Config where
  reopen : Bool := true
  windows : Bool := false
deriving DecidableEq, Repr

/-- What is put into the reception queue: `IPC_SIGNAL_INIT_OK`, exceptions, frames. -/
inductive Item where
  | ok
  | exc (e : Err)
  | frame (f : CANFrame)
deriving DecidableEq, Repr

/-- Where the main thread of the process is: before opening the port (slcan.py:632), before `_init_adapter` (slcan.py:646), with the RX worker's
thread started and the signal not sent (slcan.py:648-651), in `TxWorker.run` (slcan.py:659), after it (slcan.py:663), at its end. -/
inductive Phase where
  | opening
  | init
  | started
  | running
  | ending
  | dead
deriving DecidableEq, Repr

/-- The constructor: in a `get` that ends at the given time at the latest, returned, raised. -/
inductive Ctor where
  | waiting (until_ : Nat)
  | returned
  | raised (e : Err)
deriving DecidableEq, Repr

/-- What can be observed, with the times of the constructor's end. -/
inductive Ev where
  | failed (e : Err)
  | initialised
  | reported (i : Item)
  | signalled
  | returned (now : Nat)
  | raised (e : Err) (now : Nat)
  | died
deriving DecidableEq, Repr

/-- `IO_PROCESS_INIT_TIMEOUT` (slcan.py:73) in milliseconds. -/
def initTimeout : Nat := 10000

/-- `MAX_SUCCESSIVE_ERRORS_TO_GIVE_UP` (slcan.py:76). -/
def maxErrors : Nat := 1000

/-- Times are in milliseconds since the constructor computed its deadline (slcan.py:742). -/
structure State where
  now : Nat := 0
  phase : Phase := .opening
  /-- the RX worker's thread is alive -/
  thread : Bool := false
  /-- `successive_errors` (slcan.py:297) -/
  errors : Nat := 0
  /-- `_rx_queue` -/
  rxq : List Item := []
  /-- `IPC_COMMAND_STOP` is in `_tx_queue` -/
  stop : Bool := false
  ctor : Ctor := .waiting initTimeout
  trace : List Ev := []
deriving DecidableEq, Repr

/-- How an iteration of the RX worker comes out: the frames in what was read, and whether it raises. -/
structure Read where
  frames : List CANFrame := []
  error : Option Err := none
deriving DecidableEq, Repr

/-- `RxWorker._read_port` (slcan.py:221-234): without `auto_reopen` the port is a `serial.Serial` (slcan.py:635), which has no `select_read`. -/
def readPort (cfg : Config) (r : Read) : Read :=
  if cfg.windows then r else if cfg.reopen then r else { error := some .attributeError }

/-- An iteration of `RxWorker.run` (slcan.py:294-398). -/
def rxStep (cfg : Config) (r : Read) (s : State) : State :=
  if s.thread = false then s
  else if s.phase = .ending then { s with thread := false }
  else
    let r := readPort cfg r
    let s := { s with rxq := s.rxq ++ r.frames.map Item.frame, trace := s.trace ++ r.frames.map (Ev.reported ∘ Item.frame) }
    match r.error with
    | none => { s with errors := 0 }
    | some e => { s with
        errors := s.errors + 1
        thread := decide (s.errors + 1 < maxErrors)
        rxq := s.rxq ++ [Item.exc e]
        trace := s.trace ++ [Ev.reported (.exc e)] }

/-- The main thread opens the port (slcan.py:631-640). -/
def openStep (r : Option Err) (s : State) : State :=
  if s.phase = .opening then
    match r with
    | none => { s with phase := .init }
    | some e => { s with phase := .dead, rxq := s.rxq ++ [Item.exc e], trace := s.trace ++ [.failed e, .died] }
  else s

/-- The main thread initialises the adapter and starts the RX worker (slcan.py:646-648, 660-662). -/
def initStep (r : Option Err) (s : State) : State :=
  if s.phase = .init then
    match r with
    | none => { s with phase := .started, thread := true, trace := s.trace ++ [.initialised] }
    | some e => { s with phase := .ending, rxq := s.rxq ++ [Item.exc e], trace := s.trace ++ [.failed e] }
  else s

/-- The main thread reports the initialisation (slcan.py:651). -/
def signalStep (s : State) : State :=
  if s.phase = .started then { s with phase := .running, rxq := s.rxq ++ [.ok], trace := s.trace ++ [.signalled] } else s

/-- An iteration of `TxWorker.run` (slcan.py:427-443, 656-659). -/
def txStep (s : State) : State :=
  if s.phase = .running then
    if s.stop then { s with phase := .ending, stop := false }
    else if s.thread = false then { s with phase := .ending }
    else s
  else s

/-- The end of the process (slcan.py:663-671): the thread is awaited. -/
def finishStep (s : State) : State :=
  if s.phase = .ending ∧ s.thread = false then { s with phase := .dead, trace := s.trace ++ [.died] } else s

/-- The process is killed. -/
def killStep (s : State) : State :=
  if s.phase = .dead then s else { s with phase := .dead, thread := false, trace := s.trace ++ [.died] }

/-- The constructor raises, after it has put the command to stop if `told` (slcan.py:749, 754). -/
def giveUp (e : Err) (told : Bool) (s : State) : State :=
  { s with ctor := .raised e, stop := s.stop || told, trace := s.trace ++ [.raised e s.now] }

/-- The end of the body of the loop (slcan.py:753-755), and the next `get`. -/
def goOn (s : State) : State :=
  if initTimeout < s.now then giveUp .driverError true s else { s with ctor := .waiting (s.now + initTimeout) }

/-- The constructor (slcan.py:742-757, 803-805), when its `get` returns or times out. -/
def mainStep (s : State) : State :=
  match s.ctor with
  | .waiting t =>
    (match s.rxq with
    | [] => if s.now < t then s else goOn s
    | .ok :: rest =>
      let s := { s with rxq := rest }
      if s.phase = .dead then giveUp .driverError false s
      else { s with ctor := .returned, trace := s.trace ++ [.returned s.now] }
    | .exc e :: rest => giveUp e true { s with rxq := rest }
    | .frame _ :: rest => goOn { s with rxq := rest })
  | _ => s

inductive Step where
  | tick (d : Nat)
  | opens (r : Option Err)
  | inits (r : Option Err)
  | signal
  | tx
  | rx (r : Read)
  | finish
  | kill
  | main
deriving DecidableEq, Repr

def step (cfg : Config) (s : State) : Step → State
  | .tick d => { s with now := s.now + d }
  | .opens r => openStep r s
  | .inits r => initStep r s
  | .signal => signalStep s
  | .tx => txStep s
  | .rx r => rxStep cfg r s
  | .finish => finishStep s
  | .kill => killStep s
  | .main => mainStep s

def steps (cfg : Config) (s : State) (h : List Step) : State := h.foldl (step cfg) s

def run (cfg : Config) (h : List Step) : State := steps cfg {} h

end SlcanOpen
end Dronecan
