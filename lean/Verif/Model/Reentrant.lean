/-!
# Model of `spin` called from callbacks (dronecan/node.py)

A handler, or the callback of a request, may itself call `spin`, directly or through other code (code that waits for a response does so). Then the
frames that this inner `spin` receives are dealt with in the middle of the dispatch of another transfer. `Model/Node.lean` excludes that; here it is
modelled, and other things are left out: a callback's doing is a script, a tree of what happens while it runs. Reassembly of transfers is an arbitrary
machine. Which timer fires when is arbitrary. The handlers do not change and raise nothing of their own accord; hooks, deferred calls of the application and
periodic timers are left out.
-/

namespace Dronecan
namespace Reentrant

variable {φ σ τ ρ : Type}

/-- What the node does with frames and transfers. -/
structure Env (φ σ τ ρ : Type) where
  /-- `TransferManager.receive_frame` and `Transfer.from_frames` (node.py:328-333): the new state, and a transfer if one is complete -/
  reassemble : σ → φ → σ × Option τ
  /-- a response with the own node ID as its destination (node.py:337-338) -/
  toUs : τ → Bool
  /-- `is_response_to` (transport.py:875-885) -/
  answers : τ → ρ → Bool
  /-- the registered handlers: whether a handler is called for a transfer (node.py:349-353, 194-203) -/
  handlers : List (τ → Bool)

/-- What happens while a callback runs, or at the outermost level. -/
inductive Script (φ ρ : Type) where
  | done
  /-- `Node.request` is called -/
  | request (r : ρ) (next : Script φ ρ)
  /-- a call of `spin` receives a frame; if it completes a transfer, the handlers do what `inner` says, by their number, or the callback of the
  request what `answer` says -/
  | frame (f : φ) (inner : Nat → Script φ ρ) (answer : Script φ ρ) (next : Script φ ρ)
  /-- a call of `spin` runs the scheduler, and a request times out; then its callback does what `inner` says -/
  | timeout (r : ρ) (inner : Script φ ρ) (next : Script φ ρ)

/-- What can be observed. -/
inductive Ev (φ τ ρ : Type) where
  | received (f : φ)
  | transfer (t : τ)
  /-- the handler with this number is called -/
  | called (n : Nat) (t : τ)
  | asked (r : ρ)
  /-- the callback of the request is called with a response -/
  | answered (r : ρ) (t : τ)
  /-- that call has returned -/
  | returned (r : ρ)
  /-- the callback of the request is called with `None` -/
  | expired (r : ρ)
  /-- `spin` raises `KeyError` -/
  | keyError
deriving DecidableEq

structure State (φ σ τ ρ : Type) where
  reassembly : σ
  /-- the keys of `_outstanding_requests` -/
  outstanding : List ρ := []
  /-- the requests whose timeout is in the scheduler -/
  timers : List ρ := []
  trace : List (Ev φ τ ρ) := []

def emit (e : Ev φ τ ρ) (s : State φ σ τ ρ) : State φ σ τ ρ := { s with trace := s.trace ++ [e] }

variable [DecidableEq ρ]

/-- `request` (node.py:451-499). -/
def ask (r : ρ) (s : State φ σ τ ρ) : State φ σ τ ρ :=
  emit (.asked r) { s with
    timers := s.timers ++ [r]
    outstanding := if r ∈ s.outstanding then s.outstanding else s.outstanding ++ [r] }

/-- `on_timeout` until the callback (node.py:476-485); `sched.scheduler` has removed the event. -/
def expire (r : ρ) (s : State φ σ τ ρ) : State φ σ τ ρ :=
  emit (.expired r) { s with
    timers := s.timers.erase r
    outstanding := s.outstanding.erase r }

/-- `call_handlers` (node.py:194-203): exceptions are caught and logged. `cb n` is the execution of what handler `n` does. -/
def callAll (cb : Nat → State φ σ τ ρ → State φ σ τ ρ × Bool) (t : τ) : Nat → List (τ → Bool) → State φ σ τ ρ → State φ σ τ ρ
  | _, [], s => s
  | n, h :: hs, s => callAll cb t (n + 1) hs (if h t then (cb n (emit (.called n t) s)).1 else s)

/-- The reaction to a response (node.py:340-348, 491-493); the result tells whether an exception leaves it. -/
def respond (env : Env φ σ τ ρ) (answer : State φ σ τ ρ → State φ σ τ ρ × Bool) (t : τ) (s : State φ σ τ ρ) : State φ σ τ ρ × Bool :=
  match s.outstanding.find? (env.answers t) with
  | none => (s, false)
  | some r =>
    match answer (emit (.answered r t) { s with timers := s.timers.erase r }) with
    | (s, true) => (s, true)
    | (s, false) =>
      let s := emit (.returned r) s
      if r ∈ s.outstanding then ({ s with outstanding := s.outstanding.erase r }, false) else (emit .keyError s, true)

/-- `_recv_frame` (node.py:322-353). -/
def receive (env : Env φ σ τ ρ) (f : φ) (cb : Nat → State φ σ τ ρ → State φ σ τ ρ × Bool) (answer : State φ σ τ ρ → State φ σ τ ρ × Bool)
    (s : State φ σ τ ρ) : State φ σ τ ρ × Bool :=
  let s := emit (.received f) s
  match env.reassemble s.reassembly f with
  | (st, none) => ({ s with reassembly := st }, false)
  | (st, some t) =>
    let s := emit (.transfer t) { s with reassembly := st }
    if env.toUs t then respond env answer t s else (callAll cb t 0 env.handlers s, false)

/-- A script; it ends early when an exception leaves `spin` (node.py:409-449). The result tells whether. -/
def exec (env : Env φ σ τ ρ) : Script φ ρ → State φ σ τ ρ → State φ σ τ ρ × Bool
  | .done, s => (s, false)
  | .request r next, s => exec env next (ask r s)
  | .frame f inner answer next, s =>
    match receive env f (fun n => exec env (inner n)) (exec env answer) s with
    | (s, true) => (s, true)
    | (s, false) => exec env next s
  | .timeout r inner next, s =>
    if r ∈ s.timers then
      match exec env inner (expire r s) with
      | (s, true) => (s, true)
      | (s, false) => exec env next s
    else exec env next s

/-- The outermost level: the application catches exceptions and goes on with the next script. -/
def run (env : Env φ σ τ ρ) (s : State φ σ τ ρ) (scripts : List (Script φ ρ)) : State φ σ τ ρ :=
  scripts.foldl (fun s x => (exec env x s).1) s

end Reentrant
end Dronecan
