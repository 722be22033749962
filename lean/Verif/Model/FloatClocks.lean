import Verif.Model.FloatStamps

/-!
# Model of the uptime and of the conversion of time stamps with the rounding of floats (dronecan/node.py:262, 365; dronecan/driver/socketcan.py:204-220)

Model/MonitorWire and Model/SocketReceive have exact times. Here every operation on floats is rounded. Infinities and subnormal numbers are left out.
-/

namespace Dronecan
namespace FloatClocks
open Timestamps (Estimator Config)

/-- `int(time.monotonic() - self.start_time_monotonic + 0.5)` (node.py:365). -/
def uptime (start now : Rat) : Int := truncRat (fl (fl (now - start) + 1 / 2))

/-- The estimator (socketcan.py:204-213, also python_can.py:59-68): 100 / 1e6, 0.001 * 1e-3 and 50 * 1e-3, where 1e-3 is a float. -/
def config : Config where
  period := none
  rate := fl (100 / 1000000)
  fixedDelay := fl (fl (1 / 1000) * fl (1 / 1000))
  maxPhase := fl (50 * fl (1 / 1000))

/-- `_convert_real_to_monotonic` (socketcan.py:215-220, also python_can.py:70-75), if the clocks show `mono` and `real`. -/
def convert (dec : Rat → Rat) (s : Estimator) (mono real value : Rat) : Except Err Rat × Estimator :=
  match FloatStamps.update dec config s mono real with
  | (.error e, s) => (.error e, s)
  | (.ok est, s) => (.ok (fl (value - fl (est - mono))), s)

/-- The driver has converted time stamps before, with these readings of the clocks (`time.monotonic()`, `time.time()`) and these values. -/
def after (dec : Rat → Rat) (s : Estimator) (xs : List (Rat × Rat × Rat)) : Estimator :=
  xs.foldl (fun s x => (convert dec s x.1 x.2.1 x.2.2).2) s

end FloatClocks
end Dronecan
