import Verif.Model.Node

/-! Specification of service requests, in terms of the history only. -/

namespace Dronecan.Requests

/-- Is this an invocation of the callback of request `r`? -/
def isRespCall (r : Nat) : Ev → Bool
  | .called (.response r' _) => r' == r
  | _ => false

/-- Did the callback of a request raise here? -/
def isRespRaise : Ev → Bool
  | .raised (.response _ _) => true
  | _ => false

/-- Number of invocations of the callback of request `r`. -/
def calls (tr : List Ev) (r : Nat) : Nat := tr.countP (isRespCall r)

/-- `tr` answers the transmission `c`, which went to `dest`: it is a service response that came from the destination
to the node that sent the request, for the same service and with the same transfer ID. -/
structure Answers (tr : InTransfer) (c : TxCall) (dest : Nat) : Prop where
  response : tr.header.service = true ∧ tr.header.request = false
  sentTo : c.kind = .request dest
  source : tr.header.source = dest
  dest : tr.header.dest = some c.source
  dtid : tr.header.dtid = c.dtid
  tid : tr.tid.toNat = c.tid

end Dronecan.Requests
