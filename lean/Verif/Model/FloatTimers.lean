import Verif.Model.Double

/-!
# Model of timers and of `spin` with the rounding of floats (dronecan/node.py:33-107, 410-449)

Model/Node has exact times. Here every operation on floats is rounded. Infinities and subnormal numbers are left out.
-/

namespace Dronecan
namespace FloatTimers

/-- A periodic timer: when it is due, and its runs so far: when each was due and when the scheduler looked at the clock. -/
structure Timer where
  deadline : Rat
  runs : List (Rat × Rat) := []
deriving DecidableEq

/-- `periodic` at time `now` (node.py:105-106). -/
def periodic (now period : Rat) : Timer := ⟨fl (now + period), []⟩

/-- One iteration of the loop in `sched.scheduler.run(blocking=False)`, with this timer first in the queue and `now` the reading of the clock: the event is
taken if it is due, and `caller` registers it again (node.py:99-103). -/
def step (period : Rat) (t : Timer) (now : Rat) : Timer :=
  if now < t.deadline then t
  else ⟨fl (t.deadline + period), t.runs ++ [(t.deadline, now)]⟩

def run (period : Rat) (t : Timer) (clock : List Rat) : Timer := clock.foldl (step period) t

/-- `_run_scheduler` (node.py:44) if the first event is due at `due`: what `run` returns, which has looked at the clock at `now`, plus the time `later`. -/
def nextEventAt (due now later : Rat) : Rat := fl (fl (due - now) + later)

/-- How long `spin` waits for a frame at most (node.py:427-429), if it has to end at `deadline` (`none`: never). -/
def readTimeout (next : Rat) (deadline : Option Rat) (now : Rat) : Rat :=
  let t := fl ((match deadline with | none => next | some d => min next d) - now)
  min (max t 0) 1

/-- The deadline of `spin(timeout)` (node.py:420). -/
def spinDeadline (now timeout : Rat) : Rat := fl (now + timeout)

end FloatTimers
end Dronecan
