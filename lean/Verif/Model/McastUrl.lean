import Verif.Model.MakeDriver
import Verif.Model.Mcast

/-!
# Model of how the multicast driver finds its group (dronecan/driver/mcast.py)

The calls of the operating system succeed if their arguments are sound; that they may fail for other reasons is an input of `Mcast.Round`.
-/

namespace Dronecan
namespace McastUrl
open Parser Text

/-- The exceptions that `connect` raises because of the URL. -/
inductive Fail where
  | valueError
  /-- `OSError` or its subclass `socket.gaierror` -/
  | osError
deriving DecidableEq, Repr

/-- The number of the bus (mcast.py:77-83). -/
def bus (url : Str) : Except Fail Int :=
  match splitOn ':' url with
  | [a] =>
    if 0 < a.length then
      match int10 a with
      | some n => .ok n
      | none => .error .valueError
    else .ok 0
  | _ => .ok 0

/-- Python's `'%u' % n`: the same as `'%d'`. -/
def formatU (n : Int) : Str := if n < 0 then '-' :: decimal n.natAbs else decimal n.natAbs

/-- `mcast_ip` (mcast.py:28, 84). -/
def address (n : Int) : Str := lit "239.65.82" ++ (lit "." ++ formatU n)

/-- One of the four numbers of an address. -/
def octet (s : Str) : Option Nat :=
  if s.all isDigit then
    match digits 10 s with
    | some n => if n < 256 then some n else none
    | none => none
  else none

/-- `socket.inet_aton`, and the look-up of the name in `bind` and `connect` of a socket, of four decimal numbers; `none`: an exception is
raised. Left out: numbers that are octal or hexadecimal because of leading zeros, addresses of fewer parts, and names that a name server
knows; `address` produces none of them. -/
def inetAton (s : Str) : Option (List Nat) :=
  match (splitOn '.' s).map octet with
  | [some a, some b, some c, some d] => some [a, b, c, d]
  | _ => none

/-- `struct.pack("4sl", address, INADDR_ANY)` (mcast.py:94), where a `long` takes `long` bytes, 4 or 8, and begins at a multiple of that. -/
def mreq (long : Nat) (addr : List Nat) : List Nat := addr ++ List.replicate (long - 4) 0 ++ List.replicate long 0

/-- What `connect` sets up: the address to which the receiving socket is bound, the argument of `IP_ADD_MEMBERSHIP`, where the sending socket
is connected to, and the port. -/
structure Sockets where
  bound : List Nat
  membership : List Nat
  target : List Nat
  port : Nat
deriving DecidableEq, Repr

/-- `connect` (mcast.py:74-103) on a machine which may run Windows. -/
def connect (windows : Bool) (long : Nat) (url : Str) : Except Fail Sockets :=
  match bus url with
  | .error e => .error e
  | .ok n =>
    match inetAton (address n) with
    | none => .error .osError
    | some a =>
      .ok {
        bound := if windows then [0, 0, 0, 0] else a
        membership := mreq long a
        target := a
        port := 57732 }

end McastUrl
end Dronecan
