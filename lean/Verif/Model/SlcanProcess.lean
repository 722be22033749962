/-!
# Model of the life of the SLCAN I/O process (dronecan/driver/slcan.py)

A history is an interleaving of the two threads of the process (the RX worker's and the main one, which runs the TX worker) and of its parent. What
the threads do with frames is left out (see `SlcanDriver`): of an iteration only its outcome matters. Outcomes are arbitrary inputs. Left out: the
time an iteration takes, the initialisation of the adapter, `close` killing the process. On Windows the parent counts as alive always
(slcan.py:583-585), which is a history in which it does not die.
-/

namespace Dronecan
namespace SlcanProcess

/-- How a call of the port or of the reception queue comes out. `hangs`: it has not returned yet, as when `RetrySerial` reopens a port that is
gone (slcan.py:94-146), or when `put` finds the reception queue full (slcan.py:318, 361). -/
inductive Outcome where
  | returns
  | raises
  | hangs
deriving DecidableEq

/-- An item of the transmission queue: a frame or a command, or `IPC_COMMAND_STOP` (slcan.py:430-437). -/
inductive Item where
  | work
  | stop
deriving DecidableEq

/-- What a worker's thread is doing: at the beginning of an iteration, in a call that has not returned, or the loop is over. -/
inductive Worker where
  | idle
  | busy
  | over
deriving DecidableEq

structure Proc where
  /-- `_tx_queue` -/
  queue : List Item := []
  /-- the parent process is alive -/
  parent : Bool := true
  rx : Worker := .idle
  /-- `successive_errors` (slcan.py:297) -/
  errors : Nat := 0
  /-- when the TX worker's loop is over, `should_exit` is true (slcan.py:663-665) -/
  tx : Worker := .idle
  /-- the process is alive -/
  alive : Bool := true
deriving DecidableEq

/-- `TX_QUEUE_SIZE` (slcan.py:56). -/
def queueSize : Nat := 1000

/-- `MAX_SUCCESSIVE_ERRORS_TO_GIVE_UP` (slcan.py:76). -/
def maxErrors : Nat := 1000

inductive Step where
  /-- the parent puts something into the queue: `send_frame`, `execute_cli_command`, `close`. If it is full, nothing happens: the call raises, or
  blocks and is a call made later -/
  | put (i : Item)
  | parentDies
  | rx (o : Outcome)
  | tx (o : Outcome)
  /-- the main thread after the TX worker's loop -/
  | finish (o : Outcome)
deriving DecidableEq

/-- The end of an iteration of `RxWorker.run` (slcan.py:383-396). -/
def rxDone (o : Outcome) (p : Proc) : Proc :=
  match o with
  | .returns => { p with rx := .idle, errors := 0 }
  | .raises => { p with rx := if maxErrors ≤ p.errors + 1 then .over else .idle, errors := p.errors + 1 }
  | .hangs => { p with rx := .busy }

/-- `RxWorker.run` (slcan.py:294-398): an iteration, or its continuation. -/
def rxStep (o : Outcome) (p : Proc) : Proc :=
  match p.rx with
  | .idle => if p.tx = .over then { p with rx := .over } else rxDone o p
  | .busy => rxDone o p
  | .over => p

/-- A write of the TX worker; an exception is reported (slcan.py:444-451). -/
def txDone (o : Outcome) (p : Proc) : Proc :=
  match o with
  | .hangs => { p with tx := .busy }
  | _ => { p with tx := .idle }

/-- `TxWorker.run` (slcan.py:427-451) with the termination condition of slcan.py:656-658: an iteration, or its continuation. -/
def txStep (o : Outcome) (p : Proc) : Proc :=
  match p.tx with
  | .idle =>
    (match p.queue with
    | [] => if p.rx = .over ∨ p.parent = false then { p with tx := .over } else p
    | .work :: rest => txDone o { p with queue := rest }
    | .stop :: rest => { p with queue := rest, tx := .over })
  | .busy => txDone o p
  | .over => p

/-- The end of `_io_process` (slcan.py:663-671): the RX worker's thread is awaited, then the adapter is stopped and the port closed; an exception
ends the process too. -/
def finishStep (o : Outcome) (p : Proc) : Proc :=
  if p.tx = .over ∧ p.rx = .over then
    (match o with
    | .hangs => p
    | _ => { p with alive := false })
  else p

def step (p : Proc) : Step → Proc
  | .put i => if p.parent ∧ p.queue.length < queueSize then { p with queue := p.queue ++ [i] } else p
  | .parentDies => { p with parent := false }
  | .rx o => if p.alive then rxStep o p else p
  | .tx o => if p.alive then txStep o p else p
  | .finish o => if p.alive then finishStep o p else p

def steps (p : Proc) (h : List Step) : Proc := h.foldl step p

end SlcanProcess
end Dronecan
