import Verif.Model.Node

/-!
# Model of threads that broadcast through one node (dronecan/node.py)

Programs such as examples/mavlink_tunnel.py (lines 72-90, 99, 103-107) broadcast from several threads through one node. The node has no lock. What
the threads share is the dictionary of the transfer IDs and the queue of the driver. A thread can be interrupted between any two of these steps:
reading the dictionary, writing it, handing a frame to the driver. `send` is one step (the drivers put the frame into a queue that is safe for threads:
socketcan.py:277-278, slcan.py:749-754, python_can.py:136, mavcan.py:329-331). Hooks are left out; the node has a node ID.
-/

namespace Dronecan
namespace Threads
open Node

/-- One call of `broadcast`: the payload with its type, the priority, and whether CAN FD is used. -/
structure Msg where
  dt : DataType
  val : Val
  prio : Option Nat := none
  canfd : Bool := false

/-- Where a thread is: outside of `broadcast`, after reading the transfer ID (node.py:356), or sending frames (node.py:542-543). -/
inductive Phase where
  | idle
  | got (m : Msg) (tid : Nat)
  | sending (m : Msg) (tid : Nat) (sent rest : List Frame)

/-- A thread: what it is going to broadcast, and where it is. -/
structure Thread where
  todo : List Msg
  phase : Phase := .idle

/-- A call of `broadcast` that has returned. -/
structure Done where
  thread : Nat
  msg : Msg
  tid : Nat
  frames : List Frame

/-- The node and its threads: `_next_transfer_ids`, the threads, the frames handed to the driver with the thread that sent them, and the calls that
have returned. -/
structure State where
  ids : Dict Nat Nat := []
  threads : Nat → Thread
  bus : List (Nat × Frame) := []
  returned : List Done := []

/-- The transfer and its frames (node.py:532-537, 542). -/
def framesOf (src : Nat) (m : Msg) (tid : Nat) : Except Err (List Frame) :=
  match mkTransfer m.dt { prio := effPrio m.prio, source := src } tid m.val m.canfd with
  | .error e => .error e
  | .ok t =>
    match toFrames t with
    | .error e => .error e
    | .ok (_, frames) => .ok frames

/-- Thread `i` is now like `t`. -/
def put (ths : Nat → Thread) (i : Nat) (t : Thread) : Nat → Thread := fun j => if j = i then t else ths j

/-- The next step of thread `i`, of `broadcast` (node.py:526-543) and `_next_transfer_id` (node.py:355-358). An exception ends the call; the program of
the thread goes on with the next one. -/
def step (src : Nat) (i : Nat) (s : State) : State :=
  match (s.threads i).phase with
  | .idle =>
    match (s.threads i).todo with
    | [] => s
    | m :: todo => { s with threads := put s.threads i ⟨todo, .got m ((s.ids.get? m.dt.dtid).getD 0)⟩ }
  | .got m tid =>
    let s := { s with ids := s.ids.set m.dt.dtid ((tid + 1) &&& 0x1F) }
    match framesOf src m tid with
    | .error _ => { s with threads := put s.threads i ⟨(s.threads i).todo, .idle⟩ }
    | .ok frames => { s with threads := put s.threads i ⟨(s.threads i).todo, .sending m tid [] frames⟩ }
  | .sending m tid sent (f :: rest) =>
    { s with bus := s.bus ++ [(i, f)], threads := put s.threads i ⟨(s.threads i).todo, .sending m tid (sent ++ [f]) rest⟩ }
  | .sending m tid sent [] =>
    { s with returned := s.returned ++ [⟨i, m, tid, sent⟩], threads := put s.threads i ⟨(s.threads i).todo, .idle⟩ }

/-- Threads with these programs, run by the scheduler in this order. -/
def run (src : Nat) (prog : Nat → List Msg) (schedule : List Nat) : State :=
  schedule.foldl (fun s i => step src i s) { threads := fun i => ⟨prog i, .idle⟩ }

end Threads
end Dronecan
