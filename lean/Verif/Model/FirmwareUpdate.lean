import Verif.Model.PyM

/-!
# Model of the example that updates the firmware of a node (examples/firmware_update.py)

The part after the file server has been set up (examples/firmware_update.py:71-126). As in `Enumeration`, the node is modelled by what it
does to the program: status messages are handed to the handler, the callback of a request is called once, with the response or with `None`,
a deferred call is made once, not before it is due, and `spin` returns after a while. What is printed is left out, as is the time the update took. Times are
in milliseconds.
-/

namespace Dronecan
namespace FirmwareUpdate

/-- `MODE_SOFTWARE_UPDATE` of `uavcan.protocol.NodeStatus` (examples/firmware_update.py:81). The definitions of the data types are not in the repository; the
number is that of the standard, and nothing depends on it. -/
def softwareUpdate : Nat := 3

/-- `ERROR_IN_PROGRESS` of `uavcan.protocol.file.BeginFirmwareUpdate` (examples/firmware_update.py:97), likewise. -/
def inProgress : Nat := 2

/-- What was seen and done. -/
inductive Act where
  | status (source mode : Nat)
  | ask (time : Nat)
  | answer (error : Option Nat)
deriving DecidableEq, Repr

inductive End where
  | running
  /-- The loop has ended and the node has been closed (line 126). -/
  | finished
  /-- `sys.exit(0)` on ctrl-C (line 122). -/
  | interrupted
deriving DecidableEq, Repr

structure Tool where
  target : Nat
  started : Bool := false
  complete : Bool := false
  now : Nat := 0
  /-- How many requests have neither been answered nor timed out. -/
  outstanding : Nat := 0
  /-- When the deferred calls are due. -/
  deferred : List Nat := []
  fin : End := .running
  log : List Act := []
deriving DecidableEq, Repr

inductive Ev where
  | status (source mode : Nat)
  /-- The callback of an outstanding request is called, with the error code or `None`. -/
  | answer (error : Option Nat)
  /-- Time passes. -/
  | tick (d : Nat)
  /-- The scheduler makes the `i`-th deferred call if it is due. -/
  | fire (i : Nat)
  /-- `spin` returns, or raises TransferError, which is caught (lines 119-124). -/
  | pause
  | interrupt
deriving DecidableEq, Repr

/-- `request_update` (examples/firmware_update.py:103-111). -/
def requestUpdate (t : Tool) : Tool :=
  if t.started then t else { t with outstanding := t.outstanding + 1, log := t.log ++ [.ask t.now] }

/-- `on_node_status` (examples/firmware_update.py:75-91). -/
def onStatus (source mode : Nat) (t : Tool) : Tool :=
  if source = t.target then
    if mode = softwareUpdate then { t with started := true }
    else if t.started then { t with complete := true } else t
  else t

/-- `on_response` (examples/firmware_update.py:94-100). -/
def onResponse (e : Option Nat) (t : Tool) : Tool :=
  match e with
  | none => t
  | some error => if error ≠ inProgress then { t with deferred := t.deferred ++ [t.now + 4000] } else t

/-- One thing that happens, as long as the loop runs (examples/firmware_update.py:118-126). -/
def step (t : Tool) (e : Ev) : Tool :=
  if t.fin ≠ .running then t
  else match e with
    | .status source mode => onStatus source mode { t with log := t.log ++ [.status source mode] }
    | .answer error =>
      if t.outstanding = 0 then t
      else onResponse error { t with outstanding := t.outstanding - 1, log := t.log ++ [.answer error] }
    | .tick d => { t with now := t.now + d }
    | .fire i =>
      match t.deferred[i]? with
      | none => t
      | some due => if due ≤ t.now then requestUpdate { t with deferred := t.deferred.eraseIdx i } else t
    | .pause => if t.started && t.complete then { t with fin := .finished } else t
    | .interrupt => { t with fin := .interrupted }

/-- The first request (examples/firmware_update.py:116) and what follows. -/
def run (target : Nat) (es : List Ev) : Tool := es.foldl step (requestUpdate { target := target })

end FirmwareUpdate
end Dronecan
