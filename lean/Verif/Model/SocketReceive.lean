import Verif.Model.Writer
import Verif.Model.Timestamps

/-!
# Model of reception by the SocketCAN driver (dronecan/driver/socketcan.py:215-220, 274-313)

The queues and the writer thread are those of `Model/Writer.lean`; `receive` takes one report from the feedback queue, waits for the socket and reads one
message. What arrives at the socket, and when, is an input, and so are the readings of the clocks. `poll` waits in milliseconds and rounds up;
with a negative timeout it waits for ever. Times of `poll` are in microseconds, time stamps are exact numbers of seconds.
-/

namespace Dronecan
namespace SocketReceive
open Can

/-- What is read from the socket: a message with the time stamp in its ancillary data, if there is one; or `recvmsg` raises `OSError`. -/
inductive Incoming where
  | message (bytes : List Byte) (stamp : Option Rat)
  | error (errno : Nat)
deriving DecidableEq

/-- Readings of `time.monotonic()` and `time.time()`. -/
structure Clocks where
  mono : Rat
  real : Rat
deriving DecidableEq

/-- What can be observed, apart from what the writer thread does. -/
inductive Ev where
  /-- something is read from the socket -/
  | taken (m : Incoming)
  | hook (f : CANFrame)
  /-- `receive` returns a frame with its time stamps (`ts_monotonic`, `ts_real`) -/
  | returned (f : CANFrame) (mono real : Rat)
  /-- `receive` returns `None`, at this time -/
  | nothing (t : Int)
  /-- `receive` raises because of what it has read -/
  | raised
  /-- `receive` raises because the socket is closed -/
  | badSocket
deriving DecidableEq

structure State where
  w : Writer.State := {}
  est : Timestamps.Estimator := {}
  now : Int := 0
  /-- what will arrive, in order, each with its time -/
  incoming : List (Int × Incoming)
  /-- the main thread waits for ever -/
  stuck : Bool := false
  trace : List Ev := []

def emit (e : Ev) (s : State) : State := { s with trace := s.trace ++ [e] }

/-- The estimator (socketcan.py:204-213). -/
def config : Timestamps.Config where
  period := none
  rate := 100 / 1000000
  fixedDelay := 1 / 1000000
  maxPhase := 50 / 1000

/-- `_convert_real_to_monotonic` (socketcan.py:215-220, also python_can.py:70-75). -/
def convert (est : Timestamps.Estimator) (c : Clocks) (value : Rat) : Except Err Rat × Timestamps.Estimator :=
  match Timestamps.update config est c.mono c.real with
  | (.error e, est) => (.error e, est)
  | (.ok estReal, est) => (.ok (value - (estReal - c.mono)), est)

/-- How long `poll` waits (socketcan.py:277-279), `none`: for ever. -/
def limit : Option Int → Option Int
  | none => none
  | some t => if t < 0 then none else some ((t + 999) / 1000 * 1000)

/-- `x or y` -/
def orElse (x : Option Rat) (y : Rat) : Rat :=
  match x with
  | none => y
  | some x => if x = 0 then y else x

/-- What follows reading (socketcan.py:285-313); `c` are the readings in `_convert_real_to_monotonic`, `late` those in the constructor of the
frame (common.py:33-34). -/
def deliver (be : Bool) (c late : Clocks) (m : Incoming) (s : State) : State :=
  match m with
  | .error _ => emit .raised s
  | .message bytes stamp =>
    match Packet.socketParse be bytes with
    | .error _ => emit .raised s
    | .ok f =>
      match stamp.filter (· ≠ 0) with
      | none => emit (.returned f late.mono (orElse stamp late.real)) (emit (.hook f) s)
      | some v =>
        match convert s.est c v with
        | (.error _, est) => emit .raised { s with est := est }
        | (.ok m, est) => emit (.returned f (orElse (some m) late.mono) v) (emit (.hook f) { s with est := est })

/-- `receive` (socketcan.py:274-313). After `close` the socket is closed: `poll` returns at once and reading raises. -/
def receive (be : Bool) (timeout : Option Int) (c late : Clocks) (s : State) : State :=
  match Writer.check s.w with
  | (w, true) => { s with w := w }
  | (w, false) =>
    let s := { s with w := w }
    if s.w.stop then emit .badSocket s
    else match s.incoming, limit timeout with
    | [], none => { s with stuck := true }
    | [], some d => emit (.nothing (s.now + d)) { s with now := s.now + d }
    | (t, m) :: rest, d =>
      if d.all (fun d => t ≤ s.now + d) then
        deliver be c late m (emit (.taken m) { s with
          now := max s.now t
          incoming := rest })
      else emit (.nothing (s.now + d.getD 0)) { s with now := s.now + d.getD 0 }

inductive Step where
  /-- a call of another method, or a step of the writer thread -/
  | other (st : Writer.Step)
  | receive (timeout : Option Int) (c late : Clocks)
  /-- time passes -/
  | wait (d : Nat)
deriving DecidableEq

/-- A step of the writer thread, or of the main thread. -/
def Step.isMain : Step → Bool
  | .other (.take) | .other (.attempt _) | .other .report | .wait _ => false
  | _ => true

def step (be : Bool) (s : State) (st : Step) : State :=
  if st.isMain && s.stuck then s
  else match st with
    | .other st => { s with w := Writer.step be s.w st }
    | .receive timeout c late => receive be timeout c late s
    | .wait d => { s with now := s.now + d }

def run (be : Bool) (incoming : List (Int × Incoming)) (steps : List Step) : State := steps.foldl (step be) { incoming }

end SocketReceive
end Dronecan
