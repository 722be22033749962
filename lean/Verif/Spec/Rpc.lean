import Verif.Spec.Requests
import Verif.Spec.Timers

/-!
# Specification of the delivery of responses, in terms of the history only
-/

namespace Dronecan.Rpc
open Requests

/-- Request `r` was sent with this header and transfer ID. -/
def Sent (t : List Ev) (r : Nat) (h : Header) (tid : Nat) : Prop := ∃ n d, .requested r n h tid d ∈ t

/-- The transfer is a response of the node that the request went to, addressed to `me`, of the same service and with the same transfer ID. -/
structure Reply (me : Nat) (h : Header) (tid : Nat) (tr : InTransfer) : Prop where
  service : tr.header.service = true
  response : tr.header.request = false
  source : h.dest = some tr.header.source
  dest : tr.header.dest = some me
  dtid : h.dtid = tr.header.dtid
  tid : tid = tr.tid.toNat

/-- A reply cannot tell these two requests apart: they went to the same node, for the same service, with the same transfer ID. -/
def Same (h h' : Header) (tid tid' : Nat) : Prop := h.dest = h'.dest ∧ h.dtid = h'.dtid ∧ tid = tid'

/-- The main loop reads the bus, receives a transfer or starts a scheduled call. -/
def loopEv : Ev → Bool
  | .read _ | .received .. | .fired .. => true
  | _ => false

/-- The node is done with request `r`: its callback was called because of the timeout, or was called with the response and the main loop
went on. -/
def Finished (t : List Ev) (r : Nat) : Prop := ∃ a x b, t = a ++ .called (.response r x) :: b ∧ (x = none ∨ b.any loopEv = true)

/-- Whenever a request is sent the node is done with all earlier ones that a reply could not tell from it. -/
def NoClash (t : List Ev) : Prop := HistAll (fun pre x => ∀ r n h tid d, x = .requested r n h tid d →
  ∀ r' h' tid', Sent pre r' h' tid' → Same h h' tid tid' → Finished pre r') t

/-- Hooks do not add hooks. (Otherwise the loop over the hooks may run for ever.) -/
def HooksSettle (env : Env) : Prop := ∀ s hk n arg, ∀ a ∈ (env.script s (.hook hk n arg)).acts, a.1 ≠ .addHook

/-- Every reply that arrives while its request is waiting is passed to its callback, before the main loop goes on. -/
def Delivered (me : Nat) (t : List Ev) : Prop := ∀ pre m tr post r h tid, t = pre ++ .received m tr :: post → Sent pre r h tid →
  calls pre r = 0 → Reply me h tid tr → ∃ mid post', post = mid ++ .called (.response r (some tr)) :: post' ∧ mid.any loopEv = false

end Dronecan.Rpc
