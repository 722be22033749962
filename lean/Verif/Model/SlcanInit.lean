import Verif.Model.Slcan

/-!
# Model of the initialisation of the SLCAN adapter and of the port that is reopened (dronecan/driver/slcan.py)

The code talks to an adapter through a serial port. The adapter is modelled as far as the code depends on it: it takes what is written apart into
commands, obeys some of them, answers with ACK, NACK or not at all, and sends bytes of its own accord; all that is arbitrary, and what it sends
arrives with arbitrary delays. Each operation on the port may raise an exception (`runtimeError`). A loop that does not end within the given
number of rounds has the exception `diverge`, which is never caught. Left out: the operating system's output buffer, the lock of `RetrySerial`
(one thread).
-/

namespace Dronecan
namespace SlcanInit
open Slcan

/-- How the adapter reacts to a command: it obeys and acknowledges, it refuses, or it does not answer (and obeys or not). -/
inductive React where
  | ack
  | nack
  | mute (obeys : Bool)
deriving DecidableEq, Repr

/-- Everything outside the code; the arguments are the number of the operation, and what the decision may depend on. -/
structure Env where
  react : Nat → List Byte → React
  /-- what the adapter sends of its own accord, if its channel is open or not -/
  chatter : Nat → Bool → List Byte
  /-- how many of the bytes on the way arrive; `none`: all -/
  arrive : Nat → Option Nat
  /-- the operation raises -/
  fails : Nat → Bool
  /-- how much of a write that raises reaches the adapter -/
  written : Nat → Nat
  /-- opening the port again: it raises, or finds the adapter in some state (channel, bit rate, part of a command) -/
  reopen : Nat → Option (Bool × Option Nat × List Byte)

/-- The port and the adapter. -/
structure Port where
  tick : Nat := 0
  /-- the port object is not closed -/
  connected : Bool := true
  /-- received and not read -/
  buf : List Byte := []
  /-- on the way from the adapter -/
  owed : List Byte := []
  /-- the adapter: the beginning of a command, whether the channel is open, the bit rate -/
  inbuf : List Byte := []
  isOpen : Bool := false
  speed : Option Nat := none
  /-- Not in the code: the lines the adapter has got, with the state it was in. -/
  lines : List (List Byte × Bool × Option Nat) := []
  /-- Not in the code: the results of the initialisations by `RetrySerial`. -/
  inits : List Bool := []
deriving DecidableEq

/-- The bit rates of the commands S0 to S8 in the SLCAN protocol. -/
def rateOf (digit : Byte) : Option Nat :=
  [(ch '0', 10000), (ch '1', 20000), (ch '2', 50000), (ch '3', 100000), (ch '4', 125000), (ch '5', 250000), (ch '6', 500000), (ch '7', 800000),
    (ch '8', 1000000)].lookup digit

/-- The adapter obeys a command. -/
def obey (cmd : List Byte) (p : Port) : Port :=
  match cmd with
  | [c] => if c = ch 'C' then { p with isOpen := false } else if c = ch 'O' then { p with isOpen := true } else p
  | [c, d] => if c = ch 'S' then (match rateOf d with
      | some r => { p with speed := some r }
      | none => p) else p
  | _ => p

/-- The adapter gets a command. -/
def command (env : Env) (cmd : List Byte) (p : Port) : Port :=
  let p := { p with lines := p.lines ++ [(cmd, p.isOpen, p.speed)] }
  match env.react p.tick cmd with
  | .ack => obey cmd { p with owed := p.owed ++ [CR] }
  | .nack => { p with owed := p.owed ++ [NACK] }
  | .mute true => obey cmd p
  | .mute false => p

/-- The adapter gets bytes. -/
def feed (env : Env) : List Byte → Port → Port
  | [], p => p
  | c :: cs, p =>
    if c = CR then feed env cs (command env p.inbuf { p with inbuf := [] })
    else feed env cs { p with inbuf := p.inbuf ++ [c] }

/-- Time passes. -/
def advance (env : Env) (p : Port) : Port :=
  let all := p.owed ++ env.chatter p.tick p.isOpen
  let n := (env.arrive p.tick).getD all.length
  { p with
    tick := p.tick + 1
    buf := p.buf ++ all.take n
    owed := all.drop n }

/-- The operations of a port. -/
structure Ops where
  read : PyM Port (Option Byte)
  write : List Byte → PyM Port Unit
  flush : PyM Port Unit
  flushInput : PyM Port Unit

open PyM

/-- An operation that may raise. -/
def mayFail (env : Env) (α : Type) (ok : Port → Except Err α × Port) : PyM Port α := fun p =>
  if p.connected = false ∨ env.fails p.tick = true then (.error .runtimeError, advance env p) else ok p

/-- `serial.Serial`: `read(1)` with a timeout, `write` (time passes before and after the adapter gets the bytes), `flush`, `flushInput`. -/
def rawOps (env : Env) : Ops where
  read := mayFail env _ fun p =>
    let p := advance env p
    match p.buf with
    | [] => (.ok none, p)
    | b :: rest => (.ok (some b), { p with buf := rest })
  write bytes := fun p =>
    if p.connected = false then (.error .runtimeError, advance env p)
    else if env.fails p.tick = true then (.error .runtimeError, advance env (feed env (bytes.take (env.written p.tick)) (advance env p)))
    else (.ok (), advance env (feed env bytes (advance env p)))
  flush := mayFail env _ fun p => (.ok (), advance env p)
  flushInput := mayFail env _ fun p => (.ok (), { advance env p with buf := [] })

/-- `time.sleep`. -/
def sleep (env : Env) : PyM Port Unit := fun p => (.ok (), advance env p)

/-- `wait_for_ack` (slcan.py:468-479). -/
def waitForAck (ops : Ops) : Nat → PyM Port Unit
  | 0 => raise .diverge
  | n + 1 => ops.read >>- fun
    | none => raise .driverError
    | some b =>
      if b = NACK then raise .driverError
      else if b = CR then PyM.pure ()
      else waitForAck ops n

/-- `try: wait_for_ack()  except DriverError: pass` (slcan.py:503-506). -/
def waitForAny (ops : Ops) (fuel : Nat) : PyM Port Unit :=
  tryCatch (waitForAck ops fuel) fun e => if e = .driverError then PyM.pure () else raise e

/-- `send_command` (slcan.py:481-483). -/
def sendCommand (ops : Ops) (cmd : List Byte) : PyM Port Unit := ops.write (cmd ++ [CR])

/-- The dictionary of the speed codes (slcan.py:485-495). -/
def speedCodes : List (Int × Nat) :=
  [(1000000, 8), (800000, 7), (500000, 6), (250000, 5), (125000, 4), (100000, 3), (50000, 2), (20000, 1), (10000, 0)]

/-- `'S%d' % speed_code` for one digit (slcan.py:517). -/
def speedCommand (code : Nat) : List Byte := [ch 'S', BitVec.ofNat 8 (48 + code)]

/-- One attempt to initialise the adapter (slcan.py:500-532). -/
def attempt (env : Env) (ops : Ops) (fuel : Nat) (code : Nat) : PyM Port Unit :=
  sendCommand ops [] >>- fun _ =>
  waitForAny ops fuel >>- fun _ =>
  sleep env >>- fun _ =>
  ops.flushInput >>- fun _ =>
  sendCommand ops [ch 'C'] >>- fun _ =>
  waitForAny ops fuel >>- fun _ =>
  sendCommand ops (speedCommand code) >>- fun _ =>
  ops.flush >>- fun _ =>
  waitForAck ops fuel >>- fun _ =>
  sendCommand ops [ch 'O'] >>- fun _ =>
  ops.flush >>- fun _ =>
  waitForAck ops fuel >>- fun _ =>
  sendCommand ops [ch 'F'] >>- fun _ =>
  ops.flush >>- fun _ =>
  waitForAny ops fuel

/-- The attempts (slcan.py:497-540), `retries` of them after the first. -/
def attempts (env : Env) (ops : Ops) (fuel : Nat) (code : Nat) : Nat → PyM Port Unit
  | 0 => attempt env ops fuel code
  | retries + 1 => tryCatch (attempt env ops fuel code) fun e =>
    if e = .diverge then raise e else attempts env ops fuel code retries

/-- `_init_adapter` (slcan.py:467-544). `none`: the default bit rate, 1000000. -/
def initAdapter (env : Env) (ops : Ops) (fuel : Nat) (bitrate : Option Int) : PyM Port Unit :=
  match speedCodes.lookup (bitrate.getD 1000000) with
  | none => raise .keyError
  | some code =>
    attempts env ops fuel code 3 >>- fun _ =>
    sleep env >>- fun _ =>
    ops.flushInput

/-- `RetrySerial.retry` (slcan.py:94-110): whatever goes wrong is forgotten. -/
def retry (env : Env) (fuel : Nat) (bitrate : Option Int) : PyM Port Unit := fun p =>
  let p := { advance env p with connected := false }
  match env.reopen p.tick with
  | none => (.ok (), advance env p)
  | some (isOpen, speed, inbuf) =>
    match initAdapter env (rawOps env) fuel bitrate { p with
      tick := p.tick + 1
      connected := true
      buf := []
      owed := []
      inbuf := inbuf
      isOpen := isOpen
      speed := speed } with
    | (.ok _, p) => (.ok (), { p with inits := p.inits ++ [true] })
    | (.error e, p) => if e = .diverge then (.error e, p) else (.ok (), { p with inits := p.inits ++ [false] })

/-- The loop of the operations of `RetrySerial` (slcan.py:112-144). -/
def retrying {α : Type} (env : Env) (fuel : Nat) (bitrate : Option Int) (op : PyM Port α) : Nat → PyM Port α
  | 0 => raise .diverge
  | n + 1 => tryCatch op fun e =>
    if e = .diverge then raise e
    else retry env fuel bitrate >>- fun _ => retrying env fuel bitrate op n

/-- The operations of `RetrySerial` (slcan.py:112-157). -/
def retryOps (env : Env) (fuel : Nat) (bitrate : Option Int) : Ops where
  read := retrying env fuel bitrate (rawOps env).read fuel
  write bytes := retrying env fuel bitrate ((rawOps env).write bytes) fuel
  flush := retrying env fuel bitrate (rawOps env).flush fuel
  flushInput := (rawOps env).flushInput

end SlcanInit
end Dronecan
