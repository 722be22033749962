import Verif.Model.LogFile
import Verif.Model.TransferManager

/-!
# Model of the example that extracts GNSS data from a log (examples/canlog2gps.py)

The program opens a log (`filein:`, `speedup=-1`), adds a handler for one message type that appends the bytes of the field `data` to a file, and spins
until the log is at its end. Time stamps of frames are left out: the handler does not use them. The field `data` of a message is a function of its
payload here. The other handler of the node, that for `GetNodeInfo`, sends its response to the log's driver, which ignores it (file.py:163-164). What
was written to the output file is in it however the program ends. The progress bar is left out.
-/

namespace Dronecan
namespace Extract
open Can LogFile

/-- What the program is given: the registry of types, the identifier of the message type wanted, and the bytes of `message.data`. -/
structure Env where
  db : Registry
  want : Nat
  data : Val → List Byte

/-- How the program has ended: `sys.exit` at the end of the log or after ctrl-C, or an exception. -/
inductive Ending where
  | finished
  | interrupted
  | failed (e : Err)
deriving DecidableEq

structure State where
  reader : Reader
  tm : TmState := []
  out : List Byte := []
  over : Option Ending := none

/-- The frame handed to the transfer manager (node.py:326). -/
def frameOf (f : CANFrame) : Frame := { id := f.canId.toNat, bytes := f.data, canfd := f.canfd }

/-- `handle_Data` (examples/canlog2gps.py:19-21), called for broadcasts of the type (node.py:348-353). -/
def handle (env : Env) (tr : InTransfer) (s : State) : State :=
  if tr.header.service = false ∧ tr.header.dtid = env.want then { s with out := s.out ++ env.data tr.payload } else s

/-- `_recv_frame` (node.py:322-353); an exception comes out of `spin` and is not caught (examples/canlog2gps.py:30-43). -/
def recvFrame (env : Env) (f : CANFrame) (s : State) : State :=
  if !f.extended then s
  else
    match receiveFrame s.tm 0 (frameOf f) with
    | (tm, none) => { s with tm }
    | (tm, some frames) =>
      match fromFrames env.db frames with
      | .error e => { s with tm, over := some (.failed e) }
      | .ok tr => handle env tr { s with tm }

/-- `node.spin(0.001)` (node.py:409-449): a number of calls of `receive`, each at some time and with some timeout. Each receives a frame or nothing. -/
def spin (env : Env) : List (Rat × Option Rat) → State → State
  | [], s => s
  | c :: cs, s =>
    match receive c.1 c.2 s.reader with
    | (.error e, r) => { s with reader := r, over := some (.failed e) }
    | (.ok none, r) => spin env cs { s with reader := r }
    | (.ok (some x), r) =>
      let s := recvFrame env x.frame { s with reader := r }
      if s.over = none then spin env cs s else s

/-- A round of the loop (examples/canlog2gps.py:29-39), or ctrl-C (lines 40-43). -/
inductive Step where
  | round (calls : List (Rat × Option Rat))
  | interrupt

def step (env : Env) (s : State) (t : Step) : State :=
  if s.over ≠ none then s
  else
    match t with
    | .interrupt => { s with over := some .interrupted }
    | .round calls =>
      let s := spin env calls s
      if s.over = none ∧ endOfStream s.reader = true then { s with over := some .finished } else s

def run (env : Env) (r : Reader) (steps : List Step) : State := steps.foldl (step env) { reader := r }

end Extract
end Dronecan
