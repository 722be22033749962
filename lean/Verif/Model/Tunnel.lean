import Verif.Model.Prim

/-!
# Model of the example that tunnels MAVLink (examples/mavlink_tunnel.py)

A thread accepts a TCP client and broadcasts what it gets from it as messages `uavcan.tunnel.Targetted`; the handler of these messages writes the data
that is for this node to the client. The periodic `NodeStatus`, the node monitor and the printing are left out. `recv` returns no bytes when the client
has closed its side. An exception in the handler is caught by the node (node.py:120-135) and changes nothing.
-/

namespace Dronecan
namespace Tunnel

/-- A message `uavcan.tunnel.Targetted`, as far as it is set (examples/mavlink_tunnel.py:54-60); `OPTION_LOCK_PORT` is 1. -/
structure Targetted where
  serialId : Nat
  targetNode : Nat
  protocol : Nat
  baudrate : Nat
  options : Nat
  buffer : List Byte
deriving DecidableEq

/-- `[buffer[i:i + 120] for i in range(0, len(buffer), 120)]` (examples/mavlink_tunnel.py:52). -/
def chunks (buffer : List Byte) : List (List Byte) :=
  if h : buffer = [] then [] else buffer.take 120 :: chunks (buffer.drop 120)
termination_by buffer.length
decreasing_by
  have := List.length_pos_iff.2 h
  simp only [List.length_drop]
  omega

/-- The message for a piece of data (examples/mavlink_tunnel.py:54-60). -/
def messageOf (chunk : List Byte) : Targetted :=
  { serialId := 1, targetNode := 10, protocol := 1, baudrate := 115200, options := 1, buffer := chunk }

/-- Where the thread is: in `accept`, in the inner loop with a client, or ended by an exception. -/
inductive Where where
  | waiting
  | serving (client : Nat)
  | ended
deriving DecidableEq

/-- `node` is `args.node_id`; `conn` is the global `connection`: the client, and whether it is open on our side. `accepted`: the clients that `accept`
has returned; `sent`: the messages broadcast; `written`: the bytes written, with the client. -/
structure State where
  node : Nat
  thread : Where := .waiting
  conn : Option (Nat × Bool) := none
  accepted : List Nat := []
  sent : List Targetted := []
  written : List (Nat × List Byte) := []

/-- What happens: a client connects; `recv` returns data, and the broadcast of one of the pieces may raise (its number); `recv` raises; a message
`Targetted` is received, and `sendall` works or raises. -/
inductive Event where
  | connect (client : Nat)
  | data (bytes : List Byte) (fails : Option Nat)
  | error
  | message (targetNode : Nat) (buffer : List Byte) (works : Bool)

/-- The `finally` clause (examples/mavlink_tunnel.py:87-89): the exception leaves the function, the thread ends. -/
def finish (s : State) : State := { s with thread := .ended, conn := s.conn.map fun c => (c.1, false) }

/-- `tcp_server_loop` (examples/mavlink_tunnel.py:69-89), `publish_MavlinkMsg` (48-65) and `handle_Targetted` (27-37). -/
def step (s : State) : Event → State
  | .connect c =>
    if s.thread = .waiting then { s with thread := .serving c, conn := some (c, true), accepted := s.accepted ++ [c] } else s
  | .data bytes fails =>
    match s.thread with
    | .serving _ =>
      match fails with
      | none => { s with sent := s.sent ++ (chunks bytes).map messageOf }
      | some k =>
        if k < (chunks bytes).length then finish { s with sent := s.sent ++ ((chunks bytes).take k).map messageOf }
        else { s with sent := s.sent ++ (chunks bytes).map messageOf }
    | _ => s
  | .error =>
    match s.thread with
    | .serving _ => finish s
    | _ => s
  | .message target buffer works =>
    if target = s.node ∧ buffer ≠ [] then
      match s.conn with
      | some (c, true) => if works then { s with written := s.written ++ [(c, buffer)] } else s
      | _ => s
    else s

/-- The program with node ID `node`. -/
def run (node : Nat) (events : List Event) : State := events.foldl step { node }

end Tunnel
end Dronecan
