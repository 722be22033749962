import Verif.Model.Bits

/-!
# Model of the example that asks a node for its information again and again (examples/get_nodeinfo.py)

Times are integers (ticks). What `spin` does (node.py:409-449) is given by steps: time passes, timers that are due are run, a response arrives, the end of the loop is
looked at. `GetNodeInfo.Request(timeout_sec=0.5)` sets an attribute that nothing reads (transport.py:517-520, 602-603), so `request` gets no timeout. Exceptions of
the driver and other messages are left out. Requests are numbered.
-/

namespace Dronecan
namespace InfoLoop

inductive Ev where
  /-- a request is sent -/
  | asked (n : Nat) (at' : Int)
  /-- the response is printed (get_nodeinfo.py:25-27) -/
  | printed (n : Nat) (at' : Int)
  /-- the text of the AttributeError is printed: `handle_node_info(None)` accesses `None.transfer` (get_nodeinfo.py:26, 37-38) -/
  | failed (n : Nat) (at' : Int)
deriving DecidableEq, Repr

/-- `1.0/args.rate`, the timeout of `request` (node.py:486), and `last_req` (get_nodeinfo.py:23). -/
structure Config where
  period : Int
  timeout : Int
  last : Int

/-- `pending` are the requests with timers, with the times at which they are due. -/
structure State where
  now : Int
  deadline : Int
  pending : List (Nat × Int) := []
  asked : Nat := 0
  trace : List Ev := []
deriving DecidableEq, Repr

inductive Step where
  /-- time passes -/
  | wait (d : Nat)
  /-- `spin` runs the scheduler (node.py:423) -/
  | poll
  /-- the response to a request arrives -/
  | answer (n : Nat)
  /-- `spin` compares the time with its deadline (node.py:437); `wall` is what `time.time()` returns afterwards (get_nodeinfo.py:32) -/
  | check (wall : Int)
deriving DecidableEq, Repr

def emit (e : Ev) (s : State) : State := { s with trace := s.trace ++ [e] }

/-- `node.spin(timeout=1.0/args.rate)` begins. -/
def spin (c : Config) (s : State) : State := { s with deadline := s.now + c.period }

/-- The timer that is run first. -/
def due (s : State) : Option (Nat × Int) := (s.pending.filter fun x => x.2 ≤ s.now).head?

/-- `while True` (get_nodeinfo.py:29-38). -/
def step (c : Config) (s : State) : Step → State
  | .wait d => { s with now := s.now + d }
  | .poll =>
    match due s with
    | none => s
    | some (n, _) => spin c (emit (.failed n s.now) { s with pending := s.pending.filter fun x => x.1 ≠ n })
  | .answer n =>
    if s.pending.any (fun x => x.1 = n) then emit (.printed n s.now) { s with pending := s.pending.filter fun x => x.1 ≠ n }
    else s
  | .check wall =>
    if s.now < s.deadline then s
    else if wall - c.last > c.period then
      spin c (emit (.asked s.asked s.now) { s with
        pending := s.pending ++ [(s.asked, s.now + c.timeout)]
        asked := s.asked + 1 })
    else spin c s

def start (c : Config) (now : Int) : State := { now := now, deadline := now + c.period }

def run (c : Config) (now : Int) (steps : List Step) : State := steps.foldl (step c) (start c now)

/-- The steps of a run in which nothing is late and no response arrives: the driver returns at the next timer or at the deadline, the comparison comes first. -/
def ideal (c : Config) : Nat → State → State
  | 0, s => s
  | k + 1, s =>
    let s := step c s (.check s.now)
    let s := step c s .poll
    let next := s.pending.foldl (fun t x => min t x.2) s.deadline
    ideal c k { s with now := max s.now next }

end InfoLoop
end Dronecan
