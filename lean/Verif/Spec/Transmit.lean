import Verif.Model.Node

/-! Specification of transmissions, in terms of the history only. -/

namespace Dronecan.Transmit

/-- Is this a transmission of the same stream as `c`: a broadcast of the same type, or a request of the same type to the
same destination? -/
def sameStream (c : TxCall) : Ev → Bool
  | .accepted _ c' => decide (c'.kind = c.kind) && decide (c'.dtid = c.dtid)
  | _ => false

/-- Does this transmission take its transfer ID from the node's counters? -/
def counted (c : TxCall) : Bool :=
  match c.kind with
  | .response _ => false
  | _ => true

/-- Is this a frame handed to the driver? -/
def isFrame : Ev → Bool
  | .frame .. => true
  | _ => false

/-- Is this an accepted transmission? -/
def isAccepted : Ev → Bool
  | .accepted .. => true
  | _ => false

/-- Has the node no node ID? -/
def Anonymous (nid : Option Nat) : Prop := nid = none ∨ nid = some 0

end Dronecan.Transmit
