import Verif.Model.Transfer
import Verif.Model.Dict

/-!
# Reassembly of transfers

Model of `TransferManager` (transport.py:888-918). `active_transfers` and `active_transfer_timestamps`, which always have
the same keys, are one dictionary here. Times are integers (ticks of the monotonic clock).
-/

namespace Dronecan

/-- `TransferManager` state, transport.py:889-891: partial frame lists and the time of the last frame, by transfer key. -/
abbrev TmState := Dict (Nat × Option Byte) (List Frame × Int)

/-- `TransferManager.receive_frame`, transport.py:893-911. -/
def receiveFrame (s : TmState) (now : Int) (f : Frame) : TmState × Option (List Frame) :=
  if s.contains f.key || f.sot then
    let frames := if f.sot then [] else ((s.get? f.key).map (·.1)).getD []
    let frames := frames ++ [f]
    let s := s.set f.key (frames, now)
    if f.eot then (s.del f.key, some frames) else (s, none)
  else (s, none)

/-- The loop of `remove_inactive_transfers` over the live key view: after a deletion, the next step of the iterator
raises `RuntimeError` (Python: "dictionary changed size during iteration"), even if no key is left. -/
def removeInactiveLoop (t timeout : Int) (s : TmState) : TmState → TmState × Except Err Unit
  | [] => (s, .ok ())
  | (k, _, ts) :: rest =>
    if t - ts > timeout then (s.del k, .error .runtimeError)
    else removeInactiveLoop t timeout s rest

/-- `TransferManager.remove_inactive_transfers`, transport.py:912-918, at time `t`. -/
def removeInactive (s : TmState) (t timeout : Int) : TmState × Except Err Unit :=
  removeInactiveLoop t timeout s s

/-- A freshly created manager fed with frames (with reception times): final state, and for every frame what
`receive_frame` returned. -/
def runManager (s : TmState) : List (Int × Frame) → TmState × List (Frame × Option (List Frame))
  | [] => (s, [])
  | (now, f) :: rest =>
    let (s, out) := receiveFrame s now f
    let (s, outs) := runManager s rest
    (s, (f, out) :: outs)

end Dronecan
