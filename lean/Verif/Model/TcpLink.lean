import Verif.Model.Serial

/-!
# The tool that maps a TCP connection to a serial port behind a node: `/repo/tools/dronecan_tcplink.py`
-/

namespace Dronecan
namespace TcpLink
open Serial

/-- What the socket, which does not block, does in one round: `recv` returns bytes (none if the peer has closed the connection) or raises
`socket.error`; `send` accepts at most so many bytes, or raises. -/
structure Round where
  recv : Option (List Byte)
  send : Option Nat

structure Link where
  port : Port
  /-- The bytes that `recv` returned so far, and those that `send` accepted. -/
  got : List Byte := []
  fed : List Byte := []
  log : List Byte := []
  running : Bool := true

/-- An exception that nothing catches: the program ends. -/
def Link.stop (l : Link) : Link := { l with running := false }

/-- dronecan_tcplink.py:45-54. The log file is as if there always was one. -/
def fromSocket (r : Round) (l : Link) : Link :=
  match r.recv with
  | none => l
  | some b =>
    if b ≠ [] then
      let l := { l with got := l.got ++ b }
      match write b l.port with
      | (.ok _, p) => { l with port := p, log := l.log ++ b }
      | (.error _, p) => Link.stop { l with port := p }
    else l

/-- dronecan_tcplink.py:55-60. -/
def fromPort (r : Round) (l : Link) : Link :=
  match read 1024 l.port with
  | (.error _, p) => Link.stop { l with port := p }
  | (.ok b, p) =>
    let l := { l with port := p }
    if b ≠ [] then
      let l := { l with log := l.log ++ b }
      match r.send with
      | none => l.stop
      | some n => { l with fed := l.fed ++ b.take n }
    else l

/-- The loop (dronecan_tcplink.py:44-68; the counters and what is printed are left out). -/
def loop (l : Link) (r : Round) : Link :=
  if l.running then
    let l := fromSocket r l
    if l.running then fromPort r l else l
  else l

def run (l : Link) (rs : List Round) : Link := rs.foldl loop l

end TcpLink
end Dronecan
