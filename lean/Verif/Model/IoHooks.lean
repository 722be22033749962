import Verif.Model.Can
import Verif.Model.PyM

/-!
# Model of the I/O hooks of a driver (dronecan/driver/common.py:93-131)

A hook is identified by the number of its registration (each registration has its own `proxy` object, which is what is removed). When a hook is
called, the environment chooses what it does, depending on the whole state: it adds hooks, removes hooks, sends frames through the driver (the
SLCAN, MAVLink and multicast drivers call the hooks inside `send_frame`), raises; each of these optionally inside `try: ... except Exception: pass`.
Python's recursion limit is the parameter `depth`. A loop over a list that the hooks keep extending is cut off with the exception `diverge`
after `lim` more rounds than there were hooks.
-/

namespace Dronecan
namespace IoHooks
open Can PyM

/-- What can be observed; frames that pass the driver are numbered. -/
inductive Ev where
  | added (hook : Nat)
  | removed (hook : Nat)
  /-- frame number `n` passes -/
  | passes (n : Nat) (incoming : Bool) (f : CANFrame)
  /-- a hook is called for frame number `n` with these arguments -/
  | called (hook n : Nat) (incoming : Bool) (f : CANFrame)
deriving DecidableEq, Repr

structure State where
  /-- `_io_hooks` -/
  hooks : List Nat := []
  nextHook : Nat := 0
  nextNum : Nat := 0
  trace : List Ev := []
deriving DecidableEq, Repr

/-- A statement of a hook, or of the application. -/
inductive Act where
  | add
  | remove (hook : Nat)
  /-- a frame passes the driver -/
  | frame (incoming : Bool) (f : CANFrame)
  | raise (e : Err)
deriving DecidableEq, Repr

structure Env where
  /-- what a hook does when it is called for a frame: statements, and whether they are inside `try` -/
  script : State → Nat → Nat → List (Act × Bool)
  lim : Nat := 1000

/-- `add_io_hook` (common.py:106-118). -/
def add : PyM State Unit := modify fun s =>
  { s with
    hooks := s.hooks ++ [s.nextHook]
    nextHook := s.nextHook + 1
    trace := s.trace ++ [.added s.nextHook] }

/-- `HookRemover.remove` (common.py:99-101, 118). -/
def remove (hook : Nat) : PyM State Unit := fun s =>
  if hook ∈ s.hooks then (.ok (), { s with
    hooks := s.hooks.erase hook
    trace := s.trace ++ [.removed hook] })
  else (.error .valueError, s)

/-- One statement. -/
def runAct (frame : Bool → CANFrame → PyM State Unit) : Act → PyM State Unit
  | .add => add
  | .remove h => remove h
  | .frame incoming f => frame incoming f
  | .raise e => PyM.raise e

/-- The statements of a hook. -/
def runActs (frame : Bool → CANFrame → PyM State Unit) : List (Act × Bool) → PyM State Unit
  | [] => PyM.pure ()
  | (a, guarded) :: rest =>
    (if guarded then PyM.tryCatch (runAct frame a) (fun _ => PyM.pure ()) else runAct frame a) >>- fun _ => runActs frame rest

/-- Calling one hook (common.py:113-114). -/
def callHook (env : Env) (frame : Bool → CANFrame → PyM State Unit) (n : Nat) (incoming : Bool) (f : CANFrame) (hook : Nat) : PyM State Unit :=
  modify (fun s => { s with trace := s.trace ++ [.called hook n incoming f] }) >>- fun _ =>
  get >>- fun s => runActs frame (env.script s hook n)

/-- The loop of `_call_io_hooks` (common.py:120-125) over the live list. -/
def loop (call : Nat → PyM State Unit) : Nat → Nat → PyM State Unit
  | 0, _ => PyM.raise .diverge
  | fuel + 1, i => get >>- fun s =>
    match s.hooks[i]? with
    | none => PyM.pure ()
    | some h => PyM.tryCatch (call h) (fun _ => PyM.pure ()) >>- fun _ => loop call fuel (i + 1)

/-- `_tx_hook` and `_rx_hook` (common.py:120-131): a frame passes. -/
def pass (env : Env) : Nat → Bool → CANFrame → PyM State Unit
  | 0, _, _ => PyM.raise .runtimeError
  | depth + 1, incoming, f =>
    get >>- fun s =>
    modify (fun s => { s with
      nextNum := s.nextNum + 1
      trace := s.trace ++ [.passes s.nextNum incoming f] }) >>- fun _ =>
    loop (callHook env (pass env depth) s.nextNum incoming f) (s.hooks.length + env.lim + 1) 0

/-- A statement of the application. -/
def step (env : Env) (depth : Nat) (s : State) (a : Act) : State := (runAct (pass env depth) a s).2

/-- A history. -/
def run (env : Env) (depth : Nat) (s : State) (acts : List Act) : State := acts.foldl (step env depth) s

end IoHooks
end Dronecan
