import Verif.Model.PyM

/-!
# Model of the tunnelled serial port (dronecan/utility.py)

What the node delivers and how transmissions end are inputs: the state carries a script that is consumed as the port calls
`node.spin` and `node.broadcast`. The wall clock too.
-/

namespace Dronecan
namespace Serial
open PyM

/-- A received `uavcan.tunnel.Targetted` message, as far as the port looks at it. -/
structure Msg where
  src : Nat
  target : Nat
  buffer : List Byte
deriving DecidableEq

/-- A transmitted `uavcan.tunnel.Targetted` message. -/
structure Out where
  target : Nat
  serialId : Int
  lock : Bool
  baudrate : Nat
  buffer : List Byte
deriving DecidableEq

/-- One call of `self.spin()`: the messages delivered to the handler, in order, and the exception that ends it, if any. -/
structure Spin where
  rx : List Msg
  err : Option Err := none

/-- How a call of `broadcast` ends: `none` is success. `TxQueueFullError` is `Err.driverError`, here and in `Spin`. -/
abbrev Tx := Option Err

/-- What is observable at the port: messages delivered by the node, bytes returned by `read`, the input buffer flushed. -/
inductive Ev
  | rx (m : Msg)
  | ret (b : List Byte)
  | flush
deriving DecidableEq

/-- What is observable on the other side: messages broadcast, readings of the wall clock. -/
inductive TxEv
  | sent (m : Out)
  | time (t : Int)
deriving DecidableEq

/-- `DroneCANSerial` (utility.py:10-34). -/
structure Port where
  targetNode : Nat
  dev : Int
  lock : Bool := false
  nodeId : Nat
  baudrate : Nat := 230400
  buf : List Byte := []
  /-- In milliseconds. -/
  lastSend : Int := 0
  /-- Successful broadcasts. -/
  sent : List Out := []
  /-- What was observed. -/
  trace : List Ev := []
  log : List TxEv := []
  /-- Inputs: the outcomes of the calls of `node.spin` loops, of broadcasts, and the readings of the wall clock, to come. -/
  spins : List Spin := []
  txs : List Tx := []
  clock : List Int := []

/-- utility.py:54-59 `handle_Targetted`. -/
def handle (m : Msg) (s : Port) : Port :=
  let s := { s with trace := s.trace ++ [.rx m] }
  if m.src ≠ s.targetNode then s
  else if m.target ≠ s.nodeId then s
  else { s with buf := s.buf ++ m.buffer }

/-- utility.py:36-43 `spin`: a `TransferError` is swallowed. Without further script nothing is received. -/
def spin : PyM Port Unit := fun s =>
  match s.spins with
  | [] => (.ok (), s)
  | x :: rest =>
    let s := x.rx.foldl (fun s m => handle m s) { s with spins := rest }
    match x.err with
    | none => (.ok (), s)
    | some .transferError => (.ok (), s)
    | some e => (.error e, s)

/-- `time.time()`; 0 if the script has ended. -/
def wall : PyM Port Int := fun s =>
  match s.clock with
  | [] => (.ok 0, { s with log := s.log ++ [.time 0] })
  | t :: rest => (.ok t, { s with
      clock := rest
      log := s.log ++ [.time t] })

/-- utility.py:76-77, one attempt to transmit. -/
def attempt (m : Out) (tx : Tx) : PyM Port Unit :=
  spin >>- fun _ =>
  match tx with
  | none => modify fun s => { s with
      sent := s.sent ++ [m]
      log := s.log ++ [.sent m] }
  | some e => raise e

/-- utility.py:73-81: the loop, by recursion over the outcomes to come; each attempt uses up one. If they end before the
message is sent, the call never returns. -/
def sendLoop (m : Out) : List Tx → PyM Port Unit
  | [] => raise .diverge
  | tx :: rest =>
    modify (fun s => { s with txs := rest }) >>- fun _ =>
    PyM.tryCatch (attempt m tx) fun e => if e = .driverError then sendLoop m rest else raise e

/-- utility.py:61-83 `send_bytes`. -/
def sendBytes (b : List Byte) : PyM Port Nat :=
  let n := if b.length > 120 then 120 else b.length
  get >>- fun s =>
  sendLoop { target := s.targetNode, serialId := s.dev, lock := s.lock, baudrate := s.baudrate, buffer := b.take n } s.txs
    >>- fun _ =>
  wall >>- fun t =>
  modify (fun s => { s with lastSend := t }) >>- fun _ =>
  PyM.pure n

/-- utility.py:87-93, the loop of `write`. Every round takes at least one byte off; `fuel` bounds the rounds and is
enough if it is at least the length (see `write`). -/
def writeLoop : Nat → List Byte → Nat → PyM Port Nat
  | 0, _, total => PyM.pure total
  | fuel + 1, b, total =>
    if b.length > 0 then
      sendBytes b >>- fun n =>
      if n ≤ 0 then PyM.pure total else writeLoop fuel (b.drop n) (total + n)
    else PyM.pure total

/-- utility.py:85-94 `write`. -/
def write (b : List Byte) : PyM Port Nat := writeLoop b.length b 0

/-- `self.buf[:n]`, `self.buf[n:]` for any integer `n`: the index at which the buffer is cut. -/
def cutAt (n : Int) (len : Nat) : Nat := if 0 ≤ n then min n.toNat len else (len + n).toNat

/-- utility.py:96-109 `read`. -/
def read (n : Int) : PyM Port (List Byte) :=
  spin >>- fun _ =>
  wall >>- fun t =>
  get >>- fun s =>
  (if t - s.lastSend > 500 then sendBytes [] >>- fun _ => PyM.pure () else PyM.pure ()) >>- fun _ =>
  get >>- fun s =>
  if s.buf.length > 0 then
    let n : Int := if n > s.buf.length then s.buf.length else n
    let k := cutAt n s.buf.length
    modify (fun s => { s with
      buf := s.buf.drop k
      trace := s.trace ++ [.ret (s.buf.take k)] }) >>- fun _ =>
    PyM.pure (s.buf.take k)
  else PyM.pure []

/-- utility.py:111-113 `flushInput`. -/
def flushInput : PyM Port Unit := modify fun s => { s with
  buf := []
  trace := s.trace ++ [.flush] }

/-- utility.py:115-120 `setBaudrate`. -/
def setBaudrate (b : Nat) : PyM Port Unit :=
  get >>- fun s =>
  if s.baudrate = b then PyM.pure ()
  else modify (fun s => { s with baudrate := b }) >>- fun _ => flushInput

/-- The calls of an application; each may end in an exception, which the application is taken to catch. -/
inductive Op
  | write (b : List Byte)
  | read (n : Int)
  | flushInput
  | setBaudrate (b : Nat)
  | flush
  /-- The application (or another port) spins the node. -/
  | spin

def step (s : Port) : Op → Port
  | .write b => (write b s).2
  | .read n => (read n s).2
  | .flushInput => (flushInput s).2
  | .setBaudrate b => (setBaudrate b s).2
  | .flush => (spin s).2
  | .spin => (spin s).2

def run (s : Port) (ops : List Op) : Port := ops.foldl step s

end Serial
end Dronecan
