import Verif.Model.Slcan

/-!
# Model of the SLCAN driver around the line protocol (dronecan/driver/slcan.py)

A history is an interleaving of steps of the application's thread (constructor, calls of the driver's methods, rounds of the loop in
`receive`) and of the I/O process (its RX worker, its TX worker, its end). What the port, the clock and the callbacks do is an
arbitrary input. Left out: the logging thread, `_rx_queue` being full, a queue delivering late except that `queue.Empty` may be raised at any
time, `receive` called by a callback, white space outside ASCII at the beginning of a command, the replacement of the time stamp on macOS.
-/

namespace Dronecan
namespace SlcanDriver
open Can Slcan

/-- An item of the transmission queue (slcan.py:430-439). -/
inductive TxItem where
  | frame (f : CANFrame)
  | command (c : Cmd)
  | stop
deriving DecidableEq

/-- An item of the reception queue: the signal `IPC_SIGNAL_INIT_OK` (slcan.py:82) or what a worker has to report. -/
inductive Msg where
  | initOk
  | item (i : Item)
deriving DecidableEq

/-- A call of a method other than `receive`. `timeout = none` is Python's `None`; times are in microseconds, `now` is the clock. `cb` names
the callback. -/
inductive Call where
  | send (f : CANFrame)
  | execute (command : List Byte) (cb : Nat) (timeout : Option Int) (now : Int)
  | close
deriving DecidableEq

/-- What can be observed, and what passes between the processes. -/
inductive Ev where
  /-- `send_frame` has put the frame into the queue -/
  | sent (f : CANFrame)
  /-- `execute_cli_command` has put the command into the queue -/
  | asked (c : Cmd) (cb : Nat)
  /-- a method has raised `DriverError` because the process is dead, or `TxQueueFullError` (`full`) -/
  | refused (c : Call) (full : Bool)
  /-- the I/O hooks are called: incoming or outgoing -/
  | hooks (incoming : Bool) (f : CANFrame)
  /-- the TX worker has taken an item from its queue -/
  | taken (i : TxItem)
  /-- bytes written to the port -/
  | wrote (bytes : List Byte)
  /-- an item that the TX worker cannot write as text -/
  | unencodable (e : Err)
  /-- bytes written to the port before it is closed -/
  | closing (bytes : List Byte)
  /-- a write to the port has raised -/
  | portError (e : Err)
  /-- bytes read from the port -/
  | read (bytes : List Byte)
  /-- the I/O process has put something into the reception queue; `tx`: the TX worker has -/
  | put (tx : Bool) (m : Msg)
  /-- the constructor has taken this from the reception queue -/
  | swallowed (m : Msg)
  /-- the constructor has returned -/
  | constructed
  /-- the constructor has raised -/
  | notConstructed
  /-- `receive` has returned a frame -/
  | frame (f : CANFrame) (ts : Stamp)
  /-- `receive` has raised an exception of the I/O process -/
  | raised (e : Err)
  /-- `receive` has called a callback -/
  | called (cb : Nat) (cmd : List Byte) (lines : List (List Byte)) (expired : Bool)
  /-- `receive` has dropped a stored request that does not match the response -/
  | mismatch (cb : Nat)
  /-- `receive` has dropped a response for which there is no stored request -/
  | orphan (cmd : List Byte) (lines : List (List Byte)) (expired : Bool)
  /-- a callback has raised; the exception leaves `receive` -/
  | callbackRaised
  /-- `receive` has returned `None` -/
  | nothing
  /-- `receive` has raised `DriverError` because the process is dead -/
  | dead
  /-- the I/O process has ended -/
  | ended
deriving DecidableEq

/-- `receive(None)`, `receive(0)`, `receive(timeout)` (slcan.py:810-815). -/
inductive Mode where
  | block
  | poll
  | timed
deriving DecidableEq

inductive Phase where
  | starting
  | ready
  | failed
deriving DecidableEq

/-- The driver: both processes and the queues between them. -/
structure Drv (σ : Type) where
  /-- the I/O process: is it alive, has it sent `IPC_SIGNAL_INIT_OK`, has the TX worker's loop ended -/
  alive : Bool := true
  announced : Bool := false
  stopping : Bool := false
  /-- the TX worker's queue, and what it is about to write -/
  tx : List TxItem := []
  writing : Option (List Byte) := none
  /-- the RX worker, with the queue of pending commands -/
  worker : Rx σ
  rx : List Msg := []
  /-- the application's thread -/
  phase : Phase := .starting
  receiving : Option Mode := none
  /-- `_cli_command_requests` (slcan.py:714) -/
  reqs : List (List Byte × Nat) := []
  trace : List Ev := []

variable {σ : Type}

def emit (e : Ev) (s : Drv σ) : Drv σ := { s with trace := s.trace ++ [e] }

/-- `TX_QUEUE_SIZE` (slcan.py:56). -/
def queueSize : Nat := 1000

/-- The ASCII characters that `str.lstrip()` removes. -/
def isSpace (b : Byte) : Bool := b == 32 || (9 ≤ b.toNat && b.toNat ≤ 13) || (28 ≤ b.toNat && b.toNat ≤ 31)

/-- `IPCCommandLineExecutionRequest.__init__` (slcan.py:163-170); a timeout of 0 counts as no timeout. -/
def request (command : List Byte) (timeout : Option Int) (now : Int) : Cmd where
  text := command.dropWhile isSpace
  deadline := now + (match timeout with
    | some t => if t = 0 then 1000000 else t
    | none => 1000000)

/-- `send_frame` (slcan.py:864-870), `execute_cli_command` (slcan.py:872-890), `close` (slcan.py:777-780; killing the process is a step of its
own). A call that blocks because the queue is full is a call made later. -/
def call (c : Call) (s : Drv σ) : Drv σ :=
  match c with
  | .send f =>
    if !s.alive then emit (.refused c false) s
    else if queueSize ≤ s.tx.length then emit (.refused c true) s
    else emit (.hooks false f) (emit (.sent f) { s with tx := s.tx ++ [.frame f] })
  | .execute command cb timeout now =>
    if !s.alive then emit (.refused c false) s
    else if queueSize ≤ s.tx.length then
      (match timeout with
      | none => s
      | some _ => emit (.refused c true) s)
    else emit (.asked (request command timeout now) cb) { s with
      tx := s.tx ++ [.command (request command timeout now)]
      reqs := s.reqs ++ [((request command timeout now).text, cb)] }
  | .close =>
    if !s.alive then s
    else if queueSize ≤ s.tx.length then s
    else { s with tx := s.tx ++ [.stop] }

/-- Looking for the stored request of a response (slcan.py:844-852): the requests before it are dropped. -/
def lookup (cmd : List Byte) : List (List Byte × Nat) → List Nat × Option (Nat × List (List Byte × Nat))
  | [] => ([], none)
  | (text, cb) :: rest =>
    if text = cmd then ([], some (cb, rest))
    else (cb :: (lookup cmd rest).1, (lookup cmd rest).2)

/-- The termination condition of the loop in `receive` (slcan.py:857-862). -/
def again (timeUp : Bool) (s : Drv σ) : Drv σ :=
  match s.receiving with
  | some .poll => emit .nothing { s with receiving := none }
  | some .timed => if timeUp then emit .nothing { s with receiving := none } else s
  | _ => s

/-- A response handled by `receive` (slcan.py:844-862): the callback makes calls, and may raise. -/
def answer (timeUp : Bool) (acts : List Call) (raises : Bool) (cmd : List Byte) (lines : List (List Byte)) (expired : Bool) (s : Drv σ) : Drv σ :=
  let s' := (lookup cmd s.reqs).1.foldl (fun s cb => emit (.mismatch cb) s) s
  match (lookup cmd s.reqs).2 with
  | none => again timeUp (emit (.orphan cmd lines expired) { s' with reqs := [] })
  | some (cb, rest) =>
    let s'' := acts.foldl (fun s c => call c s) (emit (.called cb cmd lines expired) { s' with reqs := rest })
    if raises then emit .callbackRaised { s'' with receiving := none } else again timeUp s''

/-- A round of the loop in `receive` in which the queue has something (slcan.py:817-862). -/
def round (timeUp : Bool) (acts : List Call) (raises : Bool) (s : Drv σ) : Drv σ :=
  match s.rx with
  | [] => s
  | m :: rest =>
    let s := { s with rx := rest }
    match m with
    | .item (.frame f ts) => emit (.frame f ts) (emit (.hooks true f) { s with receiving := none })
    | .item (.failure e) => emit (.raised e) { s with receiving := none }
    | .item (.response cmd lines expired) => answer timeUp acts raises cmd lines expired s
    | .initOk => emit (.raised .driverError) { s with receiving := none }

/-- A round of the loop in the constructor (slcan.py:743-757), which throws away everything that is neither the signal nor an exception. -/
def construct (s : Drv σ) : Drv σ :=
  match s.rx with
  | [] => s
  | m :: rest =>
    let s := emit (.swallowed m) { s with rx := rest }
    match m with
    | .initOk => emit .constructed { s with phase := .ready }
    | .item (.failure _) => emit .notConstructed { s with
        phase := .failed
        tx := s.tx ++ [.stop] }
    | .item _ => s

/-- `command.encode('ascii')` succeeds. -/
def isAscii (l : List Byte) : Bool := l.all fun b => b.toNat < 128

/-- Putting something into the reception queue. -/
def put (tx : Bool) (m : Msg) (s : Drv σ) : Drv σ := emit (.put tx m) { s with rx := s.rx ++ [m] }

/-- The TX worker takes an item (slcan.py:410-439), up to the write. -/
def take (s : Drv σ) : Drv σ :=
  match s.tx with
  | [] => s
  | i :: rest =>
    let s := emit (.taken i) { s with tx := rest }
    match i with
    | .frame f =>
      (match sendFrame f with
      | .ok line => { s with writing := some line }
      | .error e => put true (.item (.failure e)) (emit (.unencodable e) s))
    | .command c =>
      let s := { s with worker := { s.worker with pending := s.worker.pending ++ [c] } }
      if isAscii c.text then { s with writing := some (c.text ++ [CR, LF]) }
      else put true (.item (.failure .valueError)) (emit (.unencodable .valueError) s)
    | .stop => { s with stopping := true }

/-- The TX worker writes; `error`: the port raises (slcan.py:417-418, 424-425, 444-451). -/
def write (error : Option Err) (s : Drv σ) : Drv σ :=
  match s.writing with
  | none => s
  | some bytes =>
    match error with
    | none => emit (.wrote bytes) { s with writing := none }
    | some e => put true (.item (.failure e)) (emit (.portError e) { s with writing := none })

/-- The RX worker reads and handles what it has read; what it puts into the queue is what `iteration` adds to its output. -/
def read (env : REnv σ) (new : List Byte) (ts : Stamp) (now : Int) (s : Drv σ) : Drv σ :=
  let w := iteration env s.worker new ts now
  (w.out.drop s.worker.out.length).foldl (fun s i => put false (.item i) s) (emit (.read new) { s with worker := w })

/-- `_stop_adapter` (slcan.py:547-549). -/
def stopBytes : List Byte := (List.replicate 10 [ch 'C', CR]).flatten

inductive Step where
  /-- a call by the application -/
  | call (c : Call)
  /-- `receive` is called -/
  | receive (m : Mode)
  | round (timeUp : Bool) (acts : List Call) (raises : Bool)
  /-- `queue.Empty` in `receive` (slcan.py:830-831) -/
  | empty
  | construct
  /-- the constructor gives up (slcan.py:754-756) -/
  | constructTimeout
  /-- the I/O process has initialised the adapter (slcan.py:646-651) -/
  | announce
  | take
  | write (error : Option Err)
  | read (new : List Byte) (ts : Stamp) (now : Int)
  /-- the TX worker's queue is empty, and the parent or the RX worker is dead (slcan.py:440-443) -/
  | giveUp
  /-- the regular end of the I/O process (slcan.py:663-671) -/
  | exit
  /-- the I/O process is killed or dies of an exception -/
  | die

/-- One step; a step that is not possible in the present state has no effect. -/
def step (env : REnv σ) (s : Drv σ) : Step → Drv σ
  | .call c => if s.phase = .ready ∧ s.receiving = none then call c s else s
  | .receive m =>
    if s.phase = .ready ∧ s.receiving = none then
      (if s.alive then { s with receiving := some m } else emit .dead s)
    else s
  | .round timeUp acts raises => if s.receiving = none then s else round timeUp acts raises s
  | .empty => if s.receiving = none ∨ s.receiving = some .block then s else emit .nothing { s with receiving := none }
  | .construct => if s.phase = .starting then construct s else s
  | .constructTimeout =>
    if s.phase = .starting then emit .notConstructed { s with
      phase := .failed
      tx := s.tx ++ [.stop] }
    else s
  | .announce => if s.alive ∧ ¬ s.announced then put true .initOk { s with announced := true } else s
  | .take => if s.alive ∧ s.announced ∧ ¬ s.stopping ∧ s.writing = none then take s else s
  | .write error => if s.alive then write error s else s
  | .read new ts now => if s.alive then read env new ts now s else s
  | .giveUp => if s.alive ∧ s.announced ∧ s.tx = [] ∧ s.writing = none then { s with stopping := true } else s
  | .exit =>
    if s.alive ∧ s.stopping ∧ s.writing = none then emit .ended (emit (.closing stopBytes) { s with alive := false }) else s
  | .die => if s.alive then emit .ended { s with alive := false } else s

def steps (env : REnv σ) (s : Drv σ) (h : List Step) : Drv σ := h.foldl (step env) s

end SlcanDriver
end Dronecan
