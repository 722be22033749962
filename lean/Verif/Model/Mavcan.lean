import Verif.Model.LogFile

/-!
# Model of the driver for CAN over MAVLink (dronecan/driver/mavcan.py)

A history is an interleaving of calls of the driver's methods by the application and of steps of `io_process`. What the connection and the
clock do is an arbitrary input. Left out: what the MAVLink library makes of the arguments of its functions, `close` and the death of the
parent process except that they end the process, the packet loss message, the capacity of the reception queue. An exception of
`can_filter_modify_send` is caught and printed (mavcan.py:99-108) and has no other effect.
-/

namespace Dronecan
namespace Mavcan
open Can

/-- An item of the transmission queue: a frame or a `ControlMessage` (mavcan.py:32-35). -/
inductive Item where
  | frame (f : CANFrame)
  | bus (n : Int)
  | filter (ids : Option (List Nat))
  | key (k : List Byte)
deriving DecidableEq, Repr

/-- The arguments of `can_frame_send` or `canfd_frame_send` after the addressee. -/
structure Msg where
  bus : Int
  len : Nat
  id : Int
  data : List Byte
  canfd : Bool
deriving DecidableEq, Repr

/-- What can be observed. -/
inductive Ev where
  /-- a method of the driver has put an item into the queue -/
  | accepted (i : Item)
  /-- the queue was full: the method has raised `queue.Full` -/
  | refused (i : Item)
  /-- `set_bus` has raised `DriverError` -/
  | badBus
  /-- the process has taken an item from the queue -/
  | taken (i : Item)
  /-- a connection has been established -/
  | connected
  /-- `setup_signing` called for the present connection -/
  | signed (k : List Byte)
  /-- `can_frame_send` or `canfd_frame_send` called; it has raised if `raised` -/
  | out (raised : Bool) (target : Nat) (m : Msg)
  /-- MAV_CMD_CAN_FORWARD sent, at time `t` -/
  | forward (t : Int) (target : Nat) (bus : Int)
  /-- `can_filter_modify_send` called -/
  | filtered (target : Nat) (bus : Int) (num : Nat) (ids : List Nat)
  /-- a CAN_FRAME or CANFD_FRAME message received -/
  | got (source id : Nat) (data : List Byte) (len : Nat) (canfd : Bool)
  /-- a frame put into the reception queue -/
  | delivered (f : CANFrame)
  /-- the process has ended, by request or by an exception -/
  | ended
deriving DecidableEq, Repr

/-- What `recv_match` does: a message, nothing within the timeout, an exception. In the last case `reconnect` (mavcan.py:62-74) follows; it
returns with a new connection, or (`quit`) because the process is to end. -/
inductive Recv where
  | message (source id : Nat) (data : List Byte) (len : Nat) (canfd : Bool)
  | nothing
  | error (quit : Bool)
deriving DecidableEq, Repr

/-- The inputs of a step: whether the end of the process has been requested, the clock, the time until `enable_can_forward` reads the clock again,
which calls raise, what is received. -/
structure Io where
  quit : Bool := false
  now : Int := 0
  later : Nat := 0
  sendRaises : Bool := false
  forwardRaises : Bool := false
  recv : Recv := .nothing
deriving DecidableEq, Repr

/-- The variables of `io_process` (mavcan.py:37-47), the transmission queue, and the attribute `bus` of the driver object (`appBus`). -/
structure State where
  queue : List Item := []
  appBus : Int
  bus : Int
  target : Nat
  readonly : Bool
  lastEnable : Int := 0
  filter : Option (List Nat) := none
  key : Option (List Byte) := none
  alive : Bool := true
  trace : List Ev := []
deriving DecidableEq, Repr

/-- One second. -/
def second : Int := 1000000

/-- `TX_QUEUE_SIZE` (mavcan.py:28). -/
def queueSize : Nat := 1000

def emit (e : Ev) (s : State) : State := { s with trace := s.trace ++ [e] }

/-- `x` inserted into a sorted list. -/
def insert (x : Nat) : List Nat → List Nat
  | [] => [x]
  | y :: ys => if x ≤ y then x :: y :: ys else y :: insert x ys

/-- `sorted` for a list of integers. -/
def sorted : List Nat → List Nat
  | [] => []
  | x :: xs => insert x (sorted xs)

/-- The message MAV_CMD_CAN_FORWARD and the filter list (mavcan.py:82-108). -/
def announce (s : State) : State :=
  match s.filter with
  | none => emit (.forward s.lastEnable s.target (s.bus + 1)) s
  | some l =>
    let ids := sorted (l.take 16)
    emit (.filtered s.target (s.bus + 1) ids.length (if ids.length < 16 then ids ++ List.replicate (16 - ids.length) 0 else ids))
      (emit (.forward s.lastEnable s.target (s.bus + 1)) s)

/-- `enable_can_forward` (mavcan.py:76-108). -/
def enable (r : Io) (s : State) : State :=
  if s.readonly then s
  else if r.forwardRaises then
    emit .ended { s with
      lastEnable := r.now + r.later
      alive := false }
  else announce { s with lastEnable := r.now + r.later }

/-- `MAX_DATA_LENGTH` of a frame (common.py:37-40). -/
def maxLength (canfd : Bool) : Nat := if canfd then 64 else 8

/-- The arguments for a frame (mavcan.py:144-167). -/
def encode (bus : Int) (f : CANFrame) : Msg where
  bus
  len := f.data.length
  id := LogFile.messageId f
  data := if f.data.length < maxLength f.canfd then f.data ++ List.replicate (maxLength f.canfd - f.data.length) 0 else f.data
  canfd := f.canfd

/-- An item of the queue (mavcan.py:138-171) and `handle_control_message` (110-121). -/
def handle (r : Io) (i : Item) (s : State) : State :=
  if s.readonly then s
  else
    match i with
    | .bus n => { s with bus := n }
    | .filter ids => { s with filter := ids }
    | .key k => emit (.signed k) { s with key := some k }
    | .frame f =>
      let s := emit (.out r.sendRaises s.target (encode s.bus f)) s
      if r.now - s.lastEnable > second then enable r s else s

/-- `connect` (mavcan.py:49-60) when it succeeds. -/
def connect (s : State) : State :=
  match s.key with
  | none => emit .connected s
  | some k => emit (.signed k) (emit .connected s)

/-- The frame made of a message (mavcan.py:188-191). -/
def decode (id : Nat) (data : List Byte) (len : Nat) (canfd : Bool) : CANFrame :=
  ⟨((id &&& 0x1FFFFFFF : Nat) : Int), data.take len, id.testBit 31, canfd⟩

/-- Reception (mavcan.py:173-192). -/
def receive (r : Io) (s : State) : State :=
  match r.recv with
  | .nothing => if r.now - s.lastEnable > second then enable r s else s
  | .error quit => if quit then emit .ended { s with alive := false } else connect s
  | .message source id data len canfd =>
    let s := emit (.got source id data len canfd) s
    let s := { s with target := if s.target = 0 then source else s.target }
    emit (.delivered (decode id data len canfd)) s

/-- One step of the loop (mavcan.py:126-192): it takes an item from the queue or, when there is none, waits for a message. -/
def io (r : Io) (s : State) : State :=
  if r.quit then emit .ended { s with alive := false }
  else
    match s.queue with
    | i :: rest => handle r i (emit (.taken i) { s with queue := rest })
    | [] => receive r s

/-- A call of `put_nowait`. -/
def put (i : Item) (s : State) : State :=
  if s.queue.length < queueSize then
    { s with
      queue := s.queue ++ [i]
      trace := s.trace ++ [.accepted i] }
  else emit (.refused i) s

inductive Step where
  | send (f : CANFrame)
  | setBus (n : Int)
  | setFilter (ids : Option (List Nat))
  | setKey (k : List Byte)
  | io (r : Io)
deriving DecidableEq, Repr

/-- A call of `send_frame` (mavcan.py:247-249), `set_bus` (270-275), `set_filter_list` (261-264), `set_signing_passphrase` with the
key made of the passphrase (294-297), or a step of the process. -/
def step (s : State) : Step → State
  | .send f => put (.frame f) s
  | .setBus n => if n ≤ 0 then emit .badBus s else put (.bus (n - 1)) { s with appBus := n - 1 }
  | .setFilter ids => put (.filter ids) s
  | .setKey k => put (.key k) s
  | .io r => if s.alive then io r s else s

/-- `get_bus` (mavcan.py:277-279). -/
def getBus (s : State) : Int := s.appBus + 1

/-- The state when the loop begins (mavcan.py:123-124); `bus` and `target` are the arguments `bus_number` and `mavlink_target_system` of
the constructor (204-205); `readonly`: the URL names a log file. The first connection succeeds. -/
def start (bus : Int) (target : Nat) (readonly : Bool) (r : Io) : State :=
  enable r (connect { appBus := bus - 1, bus := bus - 1, target, readonly })

def run (bus : Int) (target : Nat) (readonly : Bool) (r : Io) (steps : List Step) : State := steps.foldl step (start bus target readonly r)

end Mavcan
end Dronecan
