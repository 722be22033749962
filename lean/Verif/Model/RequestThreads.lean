import Verif.Model.Bits
import Verif.Model.Dict

/-!
# Model of requests made by other threads than the one that runs `spin` (dronecan/node.py:322-353, 355-358, 451-499)

The node has no lock. A thread can be interrupted between any two accesses to what the threads share: the transfer IDs, the driver, the scheduler
(which has a lock of its own), and the two dictionaries of outstanding requests. Simplifications: a request that is sent does not raise; its frames are handed
to the driver in one step; callbacks raise nothing and do not use the node; when a timer runs is not related to a clock, it may be at any time.
-/

namespace Dronecan
namespace RequestThreads

/-- A service of a node (the data type ID and the node ID of the server), and the priority of the request. -/
structure Req where
  svc : Nat
  prio : Nat := 20
deriving DecidableEq, Repr

/-- `Transfer.key` of a request (transport.py:871-873): service, priority, transfer ID. -/
abbrev Key := Nat × Nat × Nat

/-- A response that arrives: service, transfer ID, and content. -/
structure Resp where
  svc : Nat
  tid : Nat
  data : Nat := 0
deriving DecidableEq, Repr

/-- `is_response_to` (transport.py:875-885). -/
def Resp.answers (r : Resp) (k : Key) : Bool := k.1 = r.svc && k.2.2 = r.tid

/-- Where a thread is in `request` (node.py:451-499). Calls are numbered when their timers are made. -/
inductive Phase where
  | idle
  /-- the transfer ID has been read (node.py:356) -/
  | got (r : Req) (tid : Nat)
  /-- it has been incremented (node.py:357) -/
  | ready (r : Req) (tid : Nat)
  /-- the frames are with the driver (node.py:471-472) -/
  | sent (r : Req) (tid : Nat)
  /-- the timer is made (node.py:487) -/
  | timed (n : Nat) (k : Key)
  /-- the request is in `_outstanding_requests` (node.py:495) -/
  | listed (n : Nat) (k : Key)
deriving DecidableEq, Repr

structure Thread where
  todo : List Req
  phase : Phase := .idle
deriving DecidableEq, Repr

/-- Where the thread is that runs `spin`. -/
inductive Spin where
  | idle
  /-- in the loop over the keys (node.py:340-341), which has begun with a dictionary of this size -/
  | looking (r : Resp) (size pos : Nat)
  /-- the response answers this request (node.py:341) -/
  | found (r : Resp) (k : Key)
  /-- the callback has returned (node.py:344) -/
  | answered (k : Key)
  /-- the request is deleted from `_outstanding_requests` (node.py:345) -/
  | cleared (k : Key)
  /-- in `on_timeout` (node.py:475-484), before and after the first deletion -/
  | expired (n : Nat) (k : Key)
  | expiring (n : Nat) (k : Key)
deriving DecidableEq, Repr

/-- What can be observed: requests sent, callbacks called, exceptions that leave `spin`, and calls of `request` that return. -/
inductive Ev where
  | sent (k : Key)
  | called (n : Nat) (r : Option Resp)
  | raised (e : Err)
  | returned (n : Nat)
deriving DecidableEq, Repr

/-- `calls` are the calls of `request` that have made their timer. -/
structure State where
  ids : Dict Nat Nat := []
  requests : Dict Key Unit := []
  callbacks : Dict Key Nat := []
  timers : List Nat := []
  calls : List Key := []
  threads : Nat → Thread
  spin : Spin := .idle
  trace : List Ev := []

inductive Step where
  /-- the next step of a thread that makes requests -/
  | thread (i : Nat)
  /-- the scheduler takes a timer from its queue -/
  | timeout (n : Nat)
  /-- a response has been received (node.py:336-340) -/
  | arrive (r : Resp)
  /-- the next step of `spin` -/
  | spin
deriving DecidableEq, Repr

def put (ths : Nat → Thread) (i : Nat) (t : Thread) : Nat → Thread := fun j => if j = i then t else ths j

/-- Thread `i` goes on to another phase. -/
def go (i : Nat) (p : Phase) (s : State) : State := { s with threads := put s.threads i ⟨(s.threads i).todo, p⟩ }

def emit (e : Ev) (s : State) : State := { s with trace := s.trace ++ [e] }

/-- `request` (node.py:451-499). -/
def threadStep (i : Nat) (s : State) : State :=
  match (s.threads i).phase with
  | .idle =>
    match (s.threads i).todo with
    | [] => s
    | r :: rest => { s with threads := put s.threads i ⟨rest, .got r ((s.ids.get? r.svc).getD 0)⟩ }
  | .got r tid => go i (.ready r tid) { s with ids := s.ids.set r.svc ((tid + 1) &&& 0x1F) }
  | .ready r tid => emit (.sent (r.svc, r.prio, tid)) (go i (.sent r tid) s)
  | .sent r tid =>
    go i (.timed s.calls.length (r.svc, r.prio, tid)) { s with
      timers := s.timers ++ [s.calls.length]
      calls := s.calls ++ [(r.svc, r.prio, tid)] }
  | .timed n k => go i (.listed n k) { s with requests := s.requests.set k () }
  | .listed n k => emit (.returned n) (go i .idle { s with callbacks := s.callbacks.set k n })

/-- `_recv_frame` from node.py:339 on, and `on_timeout`. -/
def spinStep (s : State) : State :=
  match s.spin with
  | .idle => s
  | .looking r size pos =>
    if s.requests.length ≠ size then emit (.raised .runtimeError) { s with spin := .idle }
    else match s.requests.keys[pos]? with
      | none => { s with spin := .idle }
      | some k => if r.answers k then { s with spin := .found r k } else { s with spin := .looking r size (pos + 1) }
  | .found r k =>
    match s.callbacks.get? k with
    | none => emit (.raised .keyError) { s with spin := .idle }
    | some n => emit (.called n (some r)) { s with
        timers := s.timers.filter (· ≠ n)
        spin := .answered k }
  | .answered k => { s with
      requests := s.requests.del k
      spin := .cleared k }
  | .cleared k => { s with
      callbacks := s.callbacks.del k
      spin := .idle }
  | .expired n k => { s with
      requests := s.requests.del k
      spin := .expiring n k }
  | .expiring n k => emit (.called n none) { s with
      callbacks := s.callbacks.del k
      spin := .idle }

def step (s : State) : Step → State
  | .thread i => threadStep i s
  | .timeout n =>
    match s.spin, s.calls[n]? with
    | .idle, some k =>
      if n ∈ s.timers then { s with
        timers := s.timers.filter (· ≠ n)
        spin := .expired n k }
      else s
    | _, _ => s
  | .arrive r =>
    match s.spin with
    | .idle => { s with spin := .looking r s.requests.length 0 }
    | _ => s
  | .spin => spinStep s

/-- Threads that make these requests, one after another. -/
def start (prog : Nat → List Req) : State := { threads := fun i => ⟨prog i, .idle⟩ }

def run (prog : Nat → List Req) (schedule : List Step) : State := schedule.foldl step (start prog)

end RequestThreads
end Dronecan
