import Verif.Model.Packet

/-!
# Model of the loop of the UDP multicast driver (dronecan/driver/mcast.py)

A history is a list of frames put into the transmission queue by the application and of rounds of the loop of `io_process`. What the
sockets do in a round is an arbitrary input. `getsockname` does not fail, and the reception queue is never full.
-/

namespace Dronecan
namespace Mcast
open Can

/-- What `recvfrom` gives: a datagram with its sender, an error that means that there is none, another error. -/
inductive Recv where
  | datagram (address port : Nat) (bytes : List Byte)
  | nothing
  | error
deriving DecidableEq, Repr

/-- What the sockets do in one round: the port of the new sending socket (`none`: `connect` raises), for each frame whether `send` raises,
whether `select` raises, and what is received. -/
structure Round where
  connect : Option Nat := none
  fails : List Bool := []
  selectFails : Bool := false
  recv : Recv := .nothing
deriving DecidableEq, Repr

/-- What can be observed. -/
inductive Ev where
  | put (f : CANFrame)
  | opened (port : Nat)
  | sent (port : Nat) (bytes : List Byte)
  | lost (f : CANFrame)
  | died
  | got (address port : Nat) (bytes : List Byte)
  | delivered (f : CANFrame)
deriving DecidableEq, Repr

/-- The variables of `io_process` (mcast.py:69-72) and the transmission queue; `port` is that of `port_out`; `alive`: no exception has ended
the process. -/
structure State where
  queue : List CANFrame := []
  port : Nat := 0
  myport : Option Nat := none
  needConnect : Bool := true
  alive : Bool := true
  trace : List Ev := []
deriving DecidableEq, Repr

/-- The loop over the transmission queue (mcast.py:113-127). The list says which calls of `send` raise; after its end none does. -/
def sendAll : List CANFrame → List Bool → State → State
  | [], _, s => { s with queue := [] }
  | f :: fs, fails, s =>
    match Packet.mcastPacket f with
    | .error _ =>
      { s with
        queue := fs
        alive := false
        trace := s.trace ++ [.died] }
    | .ok p =>
      if fails.headD false then
        sendAll fs fails.tail { s with
          needConnect := true
          trace := s.trace ++ [.lost f] }
      else sendAll fs fails.tail { s with trace := s.trace ++ [.sent s.port p] }

/-- Reception (mcast.py:134-163). -/
def receive (r : Recv) (s : State) : State :=
  match r with
  | .nothing => s
  | .error => { s with needConnect := true }
  | .datagram a p bytes =>
    let s := { s with
      myport := some (s.myport.getD s.port)
      trace := s.trace ++ [.got a p bytes] }
    if s.myport = some p then s
    else
      match Packet.mcastParse bytes with
      | none => s
      | some f => { s with trace := s.trace ++ [.delivered f] }

/-- One round of the loop (mcast.py:106-163). -/
def round (r : Round) (s : State) : State :=
  if s.needConnect then
    match r.connect with
    | none =>
      { s with
        alive := false
        trace := s.trace ++ [.died] }
    | some port =>
      { s with
        needConnect := false
        port
        trace := s.trace ++ [.opened port] }
  else
    let s := sendAll s.queue r.fails s
    if s.alive then receive r.recv { s with needConnect := s.needConnect || r.selectFails } else s

inductive Step where
  | put (f : CANFrame)
  | round (r : Round)
deriving DecidableEq, Repr

def step (s : State) : Step → State
  | .put f =>
    { s with
      queue := s.queue ++ [f]
      trace := s.trace ++ [.put f] }
  | .round r => if s.alive then round r s else s

def run (steps : List Step) : State := steps.foldl step {}

end Mcast
end Dronecan
