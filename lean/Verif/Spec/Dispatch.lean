import Verif.Model.Node

/-!
# Vocabulary for dispatching (C26-C28, C32, C62)
-/

namespace Dronecan.Dispatch
open Dronecan

/-- The invocation of a transfer handler: which handler, with which transfer. -/
def handlerEv : Ev → Option (Nat × InTransfer)
  | .called (.handler u t) => some (u, t)
  | _ => none

/-- The invocations of transfer handlers in a history. -/
def handlerLog (tr : List Ev) : List (Nat × InTransfer) := tr.filterMap handlerEv

/-- A registration for data type `type` (`none`: any type) wants transfers with this header. -/
def Wants (type : Option (Nat × Bool)) (h : Header) : Prop := type = none ∨ type = some (h.dtid, h.service)

instance (type : Option (Nat × Bool)) (h : Header) : Decidable (Wants type h) := inferInstanceAs (Decidable (_ ∨ _))

/-- The registered handlers that want a transfer, in order of registration. -/
def wanting (s : Node) (tr : InTransfer) : List HEntry := (s.hlists s.hcur).filter fun e => decide (Wants e.type tr.header)

/-- Calling the registered handlers with this transfer leaves the registrations alone. -/
def TableStable (env : Env) (tr : InTransfer) (s : Node) : Prop :=
  ∀ e ∈ s.hlists s.hcur, ∀ s', s'.hlists s.hcur = s.hlists s.hcur →
    (Node.callHandler env e tr s').2.hlists s.hcur = s.hlists s.hcur

/-- Calls on the handler table. -/
inductive HOp where
  | add (type : Option (Nat × Bool)) (sniff : Bool)
  | remove (handle : Nat)
  | removeType (type : Option (Nat × Bool))
  deriving DecidableEq

/-- Nothing in `ops` removes handler `handle` of type `type`. -/
def kept (handle : Nat) (type : Option (Nat × Bool)) (ops : List HOp) : Bool :=
  decide (.remove handle ∉ ops ∧ .removeType type ∉ ops)

/-- The registrations made by `ops` that are still there at the end; handles are numbered from `k` on. -/
def survivors (k : Nat) : List HOp → List (Nat × Option (Nat × Bool))
  | [] => []
  | .add type _ :: ops => if kept k type ops then (k, type) :: survivors (k + 1) ops else survivors (k + 1) ops
  | .remove _ :: ops | .removeType _ :: ops => survivors k ops

/-- The handles and types in the handler table. -/
def table (s : Node) : List (Nat × Option (Nat × Bool)) := (s.hlists s.hcur).map fun e => (e.uid, e.type)

/-- What a call of the driver's `receive` returned. -/
def readEv : Ev → Option (Option RawFrame)
  | .read f => some f
  | _ => none

/-- What the driver's `receive` returned, in order. -/
def readLog (tr : List Ev) : List (Option RawFrame) := tr.filterMap readEv

/-- The number of frames that the driver's `receive` returned. -/
def framesRead (tr : List Ev) : Nat := (readLog tr).countP Option.isSome

/-- What happens to transfer number `n`. -/
inductive Step where
  | hook (hook : Nat) (arg : HookArg)
  | frame (f : Frame)
  | consumer (c : Call)

/-- The part of a history about transfer number `n`: hooks called for it and frames sent for it; and all invocations of
handlers and request callbacks. -/
def about (n : Nat) : Ev → Option Step
  | .called (.hook hk m arg) => if m = n then some (.hook hk arg) else none
  | .frame m f => if m = n then some (.frame f) else none
  | .called (.handler u tr) => some (.consumer (.handler u tr))
  | .called (.response r x) => some (.consumer (.response r x))
  | _ => none

/-- An invocation of a handler or of a request callback. -/
def Step.isConsumer : Step → Bool
  | .consumer _ => true
  | _ => false

end Dronecan.Dispatch
