import Verif.Model.Packet

/-!
# Model of the SocketCAN driver where Python's socket module does not know CAN (dronecan/driver/socketcan.py:60-168, 229-252, 274-313)

The calls of the C library are inputs: what `read` and `write` do. Opening the socket is not modelled.
-/

namespace Dronecan
namespace LegacySocket
open Can Packet

/-- `ctypes.sizeof` of `can_frame` and `canfd_frame` (socketcan.py:86-125). -/
def sizeOf (canfd : Bool) : Nat := if canfd then 72 else 16

/-- The bytes that `CANSocket.send` gives to `write` (socketcan.py:138-144). `memmove` copies as many bytes as the structure has; they come from the
message, which is not shorter (shown in Props). -/
def given (data : List Byte) (canfd : Bool) : List Byte := data.take (sizeOf canfd)

/-- What `write` does: it accepts the bytes, or returns -1. -/
inductive Write where
  | accepted
  | failed
deriving DecidableEq, Repr

/-- What becomes of a frame in the writer thread: the message on the bus, if any, and what is put into the feedback queue. -/
structure Outcome where
  bus : Option (List Byte)
  feedback : Except Err CANFrame
deriving DecidableEq, Repr

/-- The inner loop of the writer thread for one frame (socketcan.py:229-252). `send` is called without `canfd`, and its result is not used; no OSError is
raised. -/
def transmit (be : Bool) (w : Write) (f : CANFrame) : Outcome :=
  match socketPacket be f with
  | .error e => ⟨none, .error e⟩
  | .ok message =>
    match w with
    | .accepted => ⟨some (given message false), .ok f⟩
    | .failed => ⟨none, .ok f⟩

/-- `CANSocket.recv` (socketcan.py:133-136): `none` is a return value of -1, so that `buf[0:-1]` is returned. -/
def recv (bufsize : Nat) : Option (List Byte) → List Byte
  | none => (List.replicate bufsize 0).dropLast
  | some bs => bs.take bufsize

/-- `receive` after `poll` has returned something (socketcan.py:294-313). -/
def receive (be : Bool) (r : Option (List Byte)) : Except Err CANFrame := socketParse be (recv 72 r)

end LegacySocket
end Dronecan
