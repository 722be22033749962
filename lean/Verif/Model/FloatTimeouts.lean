import Verif.Model.Double

/-!
# Model of timeouts with the rounding of floats (dronecan/app/node_monitor.py:20, 127, 158; dronecan/app/message_collector.py:57;
dronecan/app/dynamic_node_id.py:26, 151; dronecan/transport.py:912-918; dronecan/node.py:420, 438)

The models of these classes have exact times. Here every operation on floats is rounded; readings of clocks are floats. Infinities and subnormal
numbers are left out.
-/

namespace Dronecan
namespace FloatTimeouts

/-- A constant in milliseconds divided by 1000: `NodeMonitor.TIMEOUT` (node_monitor.py:20), `CentralizedServer.QUERY_TIMEOUT` (dynamic_node_id.py:26). -/
def seconds (ms : Nat) : Rat := fl (ms / 1000)

/-- Whether a message received at `ts` is outdated (message_collector.py:57). -/
def outdated (timeout ts now : Rat) : Bool := fl (ts + timeout) < now

/-- Whether a node whose last message was received at `ts` is offline (node_monitor.py:127, 158). -/
def offline (ms : Nat) (ts now : Rat) : Bool := outdated (seconds ms) ts now

/-- Whether a transfer of which the last frame was received at `ts` is inactive (transport.py:913, 916). -/
def inactive (timeout ts now : Rat) : Bool := timeout < fl (now - ts)

/-- Whether the query of an allocatee is too long ago (dynamic_node_id.py:151). -/
def forgotten (ms : Nat) (ts now : Rat) : Bool := inactive (seconds ms) ts now

/-- Whether `spin(timeout)`, called at `start`, returns when the clock shows `now` (node.py:420, 438). -/
def returns (timeout start now : Rat) : Bool := !(now < fl (start + timeout))

end FloatTimeouts
end Dronecan
