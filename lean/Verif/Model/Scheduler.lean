import Verif.Model.Bits

/-!
# The event queue

Model of Python's `sched.scheduler` (Python 3.10 or later, where events carry a sequence number), which
`dronecan.node.Scheduler` (node.py:33-112) is built on. It is part of the Python standard library, not of the
repository. The binary heap is modelled by the list of its events in ascending order: the order is strict and total
(sequence numbers are never reused), so the first element of the heap is the first element of this list.
Times are integers (ticks of the monotonic clock) instead of floats.
-/

namespace Dronecan

/-- `sched.Event`: deadline, priority, sequence number, and what to run. -/
structure TEvent (α : Type) where
  time : Int
  prio : Nat
  seq : Nat
  action : α
  deriving DecidableEq, Repr

variable {α : Type}

/-- Comparison of events as tuples: by deadline, then priority, then sequence number. -/
def TEvent.before (a b : TEvent α) : Bool :=
  a.time < b.time ||
    (decide (a.time = b.time) && (decide (a.prio < b.prio) || (decide (a.prio = b.prio) && decide (a.seq < b.seq))))

/-- `heapq.heappush`. -/
def insertEvent (e : TEvent α) : List (TEvent α) → List (TEvent α)
  | [] => [e]
  | x :: q => if x.before e then x :: insertEvent e q else e :: x :: q

/-- State of `sched.scheduler`: the queue and the next sequence number. -/
structure Sched (α : Type) where
  queue : List (TEvent α) := []
  nextSeq : Nat := 0

/-- `scheduler.enterabs`; returns the sequence number, which identifies the event. -/
def Sched.enterabs (s : Sched α) (time : Int) (prio : Nat) (action : α) : Nat × Sched α :=
  (s.nextSeq, { queue := insertEvent { time, prio, seq := s.nextSeq, action } s.queue, nextSeq := s.nextSeq + 1 })

/-- `scheduler.cancel`: `none` stands for the `ValueError` of `list.remove`. -/
def Sched.cancel (s : Sched α) (seq : Nat) : Option (Sched α) :=
  if s.queue.any (·.seq == seq) then some { s with queue := s.queue.eraseP (·.seq == seq) } else none

end Dronecan
