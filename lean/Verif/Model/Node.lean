import Verif.Model.PyM
import Verif.Model.Scheduler
import Verif.Model.TransferManager

/-!
# The node

Model of `dronecan.node` (node.py:33-543): `Scheduler`, `HandlerDispatcher`, `TransferHookDispatcher` and `Node`.

How the application is modelled. Every function passed to the API (timer callback, request callback, transfer handler,
transfer hook) is identified by the number of its registration. When it is called, the *environment* chooses what
it does: a list of API calls (each of them optionally inside `try/except`), possibly an exception, and a return value.
The choice may depend on the whole state including the complete history, so every deterministic program is
covered. Callbacks do not call `spin()` (no re-entrance) and do not modify the transfer objects given to them.

The state carries a ghost history `trace` of everything observable: callback invocations, frames handed to the
driver, timers armed, fired and cancelled.

Simplifications: times are integers (`sec` ticks per second) instead of floats; the clock is part of the state and
advances by `tick`; `can_driver.send` may fail in any way the environment chooses; the fill-in of `node_info.status` is
not modelled (the two built-in payloads are functions of the environment); a class passed as a handler (node.py:155-165)
is the function that adapts it; `_outstanding_requests` and `_outstanding_request_callbacks` (always updated together)
are one dictionary; data types are identified by (default_dtid, is service); logging is omitted. Python's recursion
limit is the parameter `lim`; a loop over a list that callbacks keep extending is cut off with the exception
`diverge`.
-/

namespace Dronecan
open PyM

/-- Ticks of the clock per second. -/
def sec : Int := 1000000

/-- What a scheduler event runs. -/
inductive Action where
  /-- a callback registered with `defer` -/
  | once (timer : Nat)
  /-- `caller` of a callback registered with `periodic`, node.py:99-103 -/
  | every (timer : Nat) (period : Int)
  /-- `caller` of `Node._send_node_status`, node.py:285 -/
  | status (period : Int)
  /-- `on_timeout` of a request, node.py:476-485 -/
  | timeout (req : Nat) (key : Nat × Nat)
  deriving DecidableEq, Repr

/-- An entry of `HandlerDispatcher._handlers`, node.py:187; `uid` stands for the identity of the closure `call`. -/
structure HEntry where
  uid : Nat
  type : Option (Nat × Bool)
  sniff : Bool
  /-- the built-in GetNodeInfo server, node.py:288-294 -/
  builtin : Bool := false
  deriving DecidableEq, Repr

/-- An entry of `_outstanding_requests`, with the timeout event that its callback wrapper cancels, node.py:487-497. -/
structure OutReq where
  req : Nat
  seq : Nat
  header : Header
  tid : Nat
  deriving DecidableEq, Repr

/-- A transfer as seen by a hook. -/
inductive HookArg where
  | tx (t : OutTransfer)
  | rx (t : InTransfer)

/-- An invocation of application code. -/
inductive Call where
  | timer (timer : Nat)
  | response (req : Nat) (tr : Option InTransfer)
  | handler (uid : Nat) (tr : InTransfer)
  /-- `n` is the number of the transfer -/
  | hook (hook : Nat) (n : Nat) (arg : HookArg)

/-- Direction and kind of a transmission. -/
inductive TxKind where
  | broadcast
  | request (dest : Nat)
  | response (dest : Nat)
  deriving DecidableEq, Repr

/-- A transmission accepted by `broadcast`, `request` or `respond`: its kind, type ID, transfer ID and the priority that
the caller asked for. -/
structure TxCall where
  kind : TxKind
  dtid : Nat
  tid : Nat
  prio : Option Nat
  /-- the local node ID at that time -/
  source : Nat
  deriving DecidableEq, Repr

/-- A frame from the driver. -/
structure RawFrame where
  id : Nat
  data : List Byte
  extended : Bool := true
  ts : Option Int := none
  canfd : Bool := false

/-- The ghost history. -/
inductive Ev where
  | called (c : Call)
  | raised (c : Call)
  /-- `defer` / `periodic` called at time `now` -/
  | armed (timer : Nat) (now delay : Int) (periodic : Bool)
  /-- the scheduler runs event `e` at time `now`; `queue` is the queue before -/
  | fired (e : TEvent Action) (now : Int) (queue : List (TEvent Action))
  | cancelled (timer : Nat) (ok : Bool)
  /-- transmission number `n` passed the anonymity check and got its transfer ID -/
  | accepted (n : Nat) (c : TxCall)
  /-- a frame of transmission `n` was handed to the driver -/
  | frame (n : Nat) (f : Frame)
  /-- request `r` registered; `n` is its transmission number -/
  | requested (r n : Nat) (header : Header) (tid : Nat) (deadline : Int)
  /-- transfer number `n` was received -/
  | received (n : Nat) (tr : InTransfer)
  /-- `can_driver.receive` returned this -/
  | read (f : Option RawFrame)

/-- Keys of `_next_transfer_ids`: a type ID (broadcast), or a pair of type ID and destination (request). -/
inductive TidKey where
  | msg (dtid : Nat)
  | svc (dtid dest : Nat)
  deriving DecidableEq, Repr

/-- The state of a `Node` and the clock. -/
structure Node where
  now : Int := 0
  sched : Sched Action := {}
  /-- `event_holder[0]` / `event` of the handle of a timer -/
  holder : Nat → Nat := fun _ => 0
  nextTimer : Nat := 0
  nodeId : Option Nat := none
  sendCanfd : Bool := false
  /-- handler lists by identity; `remove_handlers` creates a new list object, node.py:192 -/
  hlists : Nat → List HEntry := fun _ => []
  hcur : Nat := 0
  nextUid : Nat := 0
  catchExc : Bool := true
  hooks : List Nat := []
  nextHook : Nat := 0
  tm : TmState := []
  outstanding : Dict (Nat × Nat) OutReq := []
  tids : Dict TidKey Nat := []
  nextReq : Nat := 0
  nextNum : Nat := 0
  trace : List Ev := []

/-- A payload object: its type and its value. -/
structure Payload where
  dt : DataType
  val : Val

/-- API calls that application code makes. -/
inductive Cmd where
  | tick (d : Nat)
  | defer (timeout : Int)
  | periodic (period : Int)
  | cancel (timer : Nat)
  | request (p : Payload) (dest : Nat) (prio : Option Nat) (timeout : Option Int) (canfd : Option Bool)
  | respond (p : Payload) (dest tid : Nat) (prio : Option Nat) (canfd : Option Bool)
  | broadcast (p : Payload) (prio : Option Nat) (canfd : Option Bool)
  | addHandler (type : Option (Nat × Bool)) (sniff : Bool)
  | removeHandler (uid : Nat)
  | removeHandlers (type : Option (Nat × Bool))
  | addHook
  | removeHook (hook : Nat)
  | setNodeId (v : Int)
  | setCanfd (b : Bool)
  | raise (e : Err)

/-- What a callback does: API calls, each optionally guarded by `try: ... except Exception: pass`, and the value it
returns. -/
structure Script where
  acts : List (Cmd × Bool) := []
  result : Option Payload := none

/-- Everything outside the node: loaded data types, application code, the driver's failures, the built-in payloads. -/
structure Env where
  db : Registry
  script : Node → Call → Script
  txFails : Node → Frame → Option Err := fun _ _ => none
  statusPayload : Node → Payload
  infoPayload : Node → Payload
  lim : Nat := 1000

/-! ## Scheduler (node.py:33-112) -/

namespace Node

/-- Append to the history. -/
def log (e : Ev) : PyM Node Unit := modify fun s => { s with trace := s.trace ++ [e] }

/-- Time passes. -/
def tick (d : Nat) : PyM Node Unit := modify fun s => { s with now := s.now + d }

/-- `Scheduler.defer`, node.py:84-90; returns the handle. -/
def defer (timeout : Int) : PyM Node Nat := fun s =>
  let i := s.nextTimer
  let (seq, q) := s.sched.enterabs (s.now + timeout) 1 (.once i)
  (.ok i, { s with
    sched := q
    holder := fun j => if j = i then seq else s.holder j
    nextTimer := i + 1
    trace := s.trace ++ [.armed i s.now timeout false] })

/-- `Scheduler.periodic`, node.py:92-107. -/
def periodic (period : Int) : PyM Node Nat := fun s =>
  let i := s.nextTimer
  let (seq, q) := s.sched.enterabs (s.now + period) 0 (.every i period)
  (.ok i, { s with
    sched := q
    holder := fun j => if j = i then seq else s.holder j
    nextTimer := i + 1
    trace := s.trace ++ [.armed i s.now period true] })

/-- `EventHandle.remove`, node.py:67-69. A handle that does not exist yet is an error of the model only. -/
def cancel (timer : Nat) : PyM Node Unit := fun s =>
  if timer < s.nextTimer then
    match s.sched.cancel (s.holder timer) with
    | some q => (.ok (), { s with sched := q, trace := s.trace ++ [.cancelled timer true] })
    | none => (.error .valueError, { s with trace := s.trace ++ [.cancelled timer false] })
  else (.error .attributeError, s)

/-- `EventHandle.try_remove`, node.py:71-77 (`cancel` raises nothing but `ValueError` on an existing handle). -/
def tryCancel (timer : Nat) : PyM Node Bool := fun s =>
  match cancel timer s with
  | (.ok (), s) => (.ok true, s)
  | (.error .valueError, s) => (.ok false, s)
  | (.error e, s) => (.error e, s)

/-- What happens before the callback when the scheduler runs event `e` (already popped): a periodic event is entered
again with its next deadline (node.py:99-103); an expired request is forgotten (node.py:476-484). -/
def beforeCallback (e : TEvent Action) (s : Node) : Node :=
  match e.action with
  | .once _ => s
  | .every i p =>
    let (seq, q) := s.sched.enterabs (e.time + p) 0 (.every i p)
    { s with sched := q, holder := fun j => if j = i then seq else s.holder j }
  | .status p => { s with sched := (s.sched.enterabs (e.time + p) 0 (.status p)).2 }
  | .timeout _ key => { s with outstanding := s.outstanding.del key }

/-- One iteration of `sched.scheduler.run(blocking=False)`: pop the first event if it is due, and do what precedes its
callback. -/
def takeDue (s : Node) : Option (TEvent Action × Node) :=
  match s.sched.queue with
  | [] => none
  | e :: q =>
    if e.time > s.now then none
    else some (e, beforeCallback e
      { s with sched := { s.sched with queue := q }, trace := s.trace ++ [.fired e s.now s.sched.queue] })

/-! ## Handlers and hooks (node.py:128-236) -/

/-- `dronecan_type is not None and dronecan_type.kind == dronecan_type.KIND_SERVICE`, node.py:150-152. -/
def isService (type : Option (Nat × Bool)) : Bool :=
  match type with
  | some (_, service) => service
  | none => false

/-- `HandlerDispatcher.add_handler`, node.py:149-189; returns the identity of the entry. -/
def addHandler (type : Option (Nat × Bool)) (sniff : Bool) (builtin : Bool := false) : PyM Node Nat := fun s =>
  let e : HEntry := { uid := s.nextUid, type, sniff := sniff && isService type, builtin }
  (.ok s.nextUid, { s with
    hlists := fun j => if j = s.hcur then s.hlists s.hcur ++ [e] else s.hlists j
    nextUid := s.nextUid + 1 })

/-- `HandleRemover.remove` of a handler, node.py:132-133, 189. -/
def removeHandler (uid : Nat) : PyM Node Unit := fun s =>
  if (s.hlists s.hcur).any (·.uid == uid) then
    (.ok (), { s with
      hlists := fun j => if j = s.hcur then (s.hlists s.hcur).eraseP (·.uid == uid) else s.hlists j })
  else (.error .valueError, s)

/-- `HandleRemover.try_remove` of a handler, node.py:135-141. -/
def tryRemoveHandler (uid : Nat) : PyM Node Bool := fun s =>
  match removeHandler uid s with
  | (.ok (), s) => (.ok true, s)
  | (.error .valueError, s) => (.ok false, s)
  | (.error e, s) => (.error e, s)

/-- `HandlerDispatcher.remove_handlers`, node.py:191-192. -/
def removeHandlers (type : Option (Nat × Bool)) : PyM Node Unit := modify fun s =>
  { s with
    hlists := fun j => if j = s.hcur + 1 then (s.hlists s.hcur).filter (·.type ≠ type) else s.hlists j
    hcur := s.hcur + 1 }

/-- `TransferHookDispatcher.add_hook`, node.py:223-227. -/
def addHook : PyM Node Nat := fun s =>
  (.ok s.nextHook, { s with hooks := s.hooks ++ [s.nextHook], nextHook := s.nextHook + 1 })

/-- `HandleRemover.remove` of a hook, node.py:227. -/
def removeHook (hook : Nat) : PyM Node Unit := fun s =>
  if hook ∈ s.hooks then (.ok (), { s with hooks := s.hooks.erase hook }) else (.error .valueError, s)

/-! ## Node attributes (node.py:296-316, 355-362) -/

/-- `Node.is_anonymous`, node.py:300-302. -/
def isAnonymous (s : Node) : Bool := s.nodeId.getD 0 == 0

/-- `Node.node_id` setter, node.py:308-316. -/
def setNodeId (v : Int) : PyM Node Unit := fun s =>
  if s.isAnonymous then
    if ¬ (1 ≤ v ∧ v ≤ 127) then (.error .valueError, s)
    else (.ok (), { s with nodeId := some v.toNat })
  else (.error .uavcanException, s)

/-- `Node.set_canfd`, node.py:296-298. -/
def setCanfd (b : Bool) : PyM Node Unit := modify fun s => { s with sendCanfd := b }

/-- The part common to `request` and `broadcast` up to the allocation of the transfer ID: `_throw_if_anonymous`,
`_next_transfer_id` (node.py:355-362). Returns the number of the transmission, the local node ID and the transfer ID. -/
def acceptTid (kind : TxKind) (dtid : Nat) (prio : Option Nat) (key : TidKey) : PyM Node (Nat × Nat × Nat) := fun s =>
  match s.nodeId with
  | none | some 0 => (.error .uavcanException, s)
  | some id =>
    let tid := (s.tids.get? key).getD 0
    (.ok (s.nextNum, id, tid), { s with
      tids := s.tids.set key ((tid + 1) &&& 0x1F)
      nextNum := s.nextNum + 1
      trace := s.trace ++ [.accepted s.nextNum { kind, dtid, tid, prio, source := id }] })

/-- The anonymity check of `respond`, node.py:502. -/
def acceptResponse (dest dtid tid : Nat) (prio : Option Nat) : PyM Node (Nat × Nat) := fun s =>
  match s.nodeId with
  | none | some 0 => (.error .uavcanException, s)
  | some id =>
    (.ok (s.nextNum, id), { s with
      nextNum := s.nextNum + 1
      trace := s.trace ++ [.accepted s.nextNum { kind := .response dest, dtid, tid, prio, source := id }] })

/-- `can_driver.send(...)`. -/
def sendFrame (env : Env) (n : Nat) (f : Frame) : PyM Node Unit := fun s =>
  match env.txFails s f with
  | some e => (.error e, s)
  | none => (.ok (), { s with trace := s.trace ++ [.frame n f] })

/-- Registration of a request after its frames were sent, node.py:487-497. -/
def registerRequest (n : Nat) (h : Header) (tid : Nat) (key : Nat × Nat) (timeout : Int) : PyM Node Unit := fun s =>
  let r := s.nextReq
  let (seq, q) := s.sched.enterabs (s.now + timeout) 1 (.timeout r key)
  (.ok (), { s with
    sched := q
    nextReq := r + 1
    outstanding := s.outstanding.set key { req := r, seq, header := h, tid }
    trace := s.trace ++ [.requested r n h tid (s.now + timeout)] })

/-! ## Sending (node.py:451-543) -/

/-- `TransferHookDispatcher.call_hooks`, node.py:229-236: iteration over the live list `_hooks`. -/
def hooksLoop (call : Call → PyM Node (Option Payload)) (n : Nat) (arg : HookArg) : Nat → Nat → PyM Node Unit
  | 0, _ => raise .diverge
  | fuel + 1, i => get >>- fun s =>
    match s.hooks[i]? with
    | none => PyM.pure ()
    | some hk =>
      tryCatch (call (.hook hk n arg) >>- fun _ => PyM.pure ()) (fun _ => PyM.pure ()) >>- fun _ =>
        hooksLoop call n arg fuel (i + 1)

/-- `TransferHookDispatcher.call_hooks`, node.py:229-236. -/
def callHooks (env : Env) (call : Call → PyM Node (Option Payload)) (n : Nat) (arg : HookArg) : PyM Node Unit :=
  get >>- fun s => hooksLoop call n arg (s.hooks.length + env.lim + 1) 0

/-- Construction of the transfer, hooks and transmission: the part common to `request`, `respond` and `broadcast`. -/
def sendTransfer (env : Env) (call : Call → PyM Node (Option Payload)) (n : Nat) (p : Payload) (h : Header) (tid : Nat)
    (canfd : Bool) : PyM Node OutTransfer :=
  lift (mkTransfer p.dt h tid p.val canfd) >>- fun t =>
  callHooks env call n (.tx t) >>- fun _ =>
  lift (toFrames t) >>- fun (t, frames) =>
  forEach frames (sendFrame env n) >>- fun _ =>
  PyM.pure t

/-- `priority or DEFAULT_TRANSFER_PRIORITY`, node.py:463, 536. -/
def effPrio (prio : Option Nat) : Nat :=
  match prio with
  | none | some 0 => 20
  | some p => p

/-- `timeout or DEFAULT_SERVICE_TIMEOUT`, node.py:487. -/
def effTimeout (timeout : Option Int) : Int :=
  match timeout with
  | none | some 0 => sec
  | some t => t

/-- `Node.request`, node.py:451-499. -/
def request (env : Env) (call : Call → PyM Node (Option Payload)) (p : Payload) (dest : Nat) (prio : Option Nat)
    (timeout : Option Int) (canfd : Option Bool) : PyM Node Unit :=
  get >>- fun s =>
  acceptTid (.request dest) p.dt.dtid prio (.svc p.dt.dtid dest) >>- fun (n, id, tid) =>
  sendTransfer env call n p
    { prio := effPrio prio, source := id, dest := some dest, service := true, request := true } tid
    (canfd.getD s.sendCanfd) >>- fun t =>
  lift (encodeId t.header) >>- fun mid =>
  registerRequest n t.header t.tid (mid, t.tid) (effTimeout timeout)

/-- `Node.respond`, node.py:501-524 (`priority` is passed on as is; `None` means the lowest priority, 31). -/
def respond (env : Env) (call : Call → PyM Node (Option Payload)) (p : Payload) (dest tid : Nat) (prio : Option Nat)
    (canfd : Option Bool) : PyM Node Unit :=
  get >>- fun s =>
  acceptResponse dest p.dt.dtid tid prio >>- fun (n, id) =>
  sendTransfer env call n p
    { prio := prio.getD 31, source := id, dest := some dest, service := true, request := false } tid
    (canfd.getD s.sendCanfd) >>- fun _ =>
  PyM.pure ()

/-- `Node.broadcast`, node.py:526-543. -/
def broadcast (env : Env) (call : Call → PyM Node (Option Payload)) (p : Payload) (prio : Option Nat)
    (canfd : Option Bool) : PyM Node Unit :=
  get >>- fun s =>
  acceptTid .broadcast p.dt.dtid prio (.msg p.dt.dtid) >>- fun (n, id, tid) =>
  sendTransfer env call n p { prio := effPrio prio, source := id } tid (canfd.getD s.sendCanfd) >>- fun _ =>
  PyM.pure ()

/-! ## Application code -/

/-- One API call. -/
def exec (env : Env) (call : Call → PyM Node (Option Payload)) : Cmd → PyM Node Unit
  | .tick d => tick d
  | .defer t => defer t >>- fun _ => PyM.pure ()
  | .periodic p => periodic p >>- fun _ => PyM.pure ()
  | .cancel i => cancel i
  | .request p dest prio timeout canfd => request env call p dest prio timeout canfd
  | .respond p dest tid prio canfd => respond env call p dest tid prio canfd
  | .broadcast p prio canfd => broadcast env call p prio canfd
  | .addHandler type sniff => addHandler type sniff >>- fun _ => PyM.pure ()
  | .removeHandler uid => removeHandler uid
  | .removeHandlers type => removeHandlers type
  | .addHook => addHook >>- fun _ => PyM.pure ()
  | .removeHook hk => removeHook hk
  | .setNodeId v => setNodeId v
  | .setCanfd b => setCanfd b
  | .raise e => PyM.raise e

/-- The body of a callback. -/
def runActs (env : Env) (call : Call → PyM Node (Option Payload)) (acts : List (Cmd × Bool)) : PyM Node Unit :=
  forEach acts fun (c, guarded) =>
    if guarded then tryCatch (exec env call c) (fun _ => PyM.pure ()) else exec env call c

/-- A call of application code `c`; `call` runs the hooks called meanwhile. -/
def runScript (env : Env) (call : Call → PyM Node (Option Payload)) (c : Call) : PyM Node (Option Payload) :=
  get >>- fun s =>
  log (.called c) >>- fun _ =>
  tryCatch (runActs env call (env.script s c).acts)
    (fun e => log (.raised c) >>- fun _ => raise e) >>- fun _ =>
  PyM.pure (env.script s c).result

/-- A call of application code at recursion depth `lim - n`. -/
def invoke (env : Env) : Nat → Call → PyM Node (Option Payload)
  | 0, _ => raise .runtimeError
  | n + 1, c => runScript env (invoke env n) c

/-- A hook called from the top level. -/
def hookCall (env : Env) : Call → PyM Node (Option Payload) := invoke env env.lim

/-! ## Receiving (node.py:168-214, 322-353) -/

/-- The closure `call` of a handler entry, node.py:168-185. -/
def callHandler (env : Env) (e : HEntry) (tr : InTransfer) : PyM Node Unit :=
  (if e.builtin then log (.called (.handler e.uid tr)) >>- fun _ => get >>- fun s => PyM.pure (some (env.infoPayload s))
   else runScript env (hookCall env) (.handler e.uid tr)) >>- fun result =>
  if isService e.type && !e.sniff then
    if !tr.header.request then PyM.pure ()
    else match result with
      | none => raise .uavcanException
      | some p => respond env (hookCall env) p tr.header.source tr.tid.toNat (some tr.header.prio) none
  else match result with
    | some _ => raise .uavcanException
    | none => PyM.pure ()

/-- The test at node.py:196. -/
def HEntry.accepts (e : HEntry) (tr : InTransfer) : Bool :=
  match e.type with
  | none => true
  | some t => t == (tr.header.dtid, tr.header.service)

/-- `HandlerDispatcher.call_handlers`, node.py:194-203: iteration over the list object that was current at the start. -/
def handlersLoop (env : Env) (tr : InTransfer) (gen : Nat) : Nat → Nat → PyM Node Unit
  | 0, _ => raise .diverge
  | fuel + 1, i => get >>- fun s =>
    match (s.hlists gen)[i]? with
    | none => PyM.pure ()
    | some e =>
      (if HEntry.accepts e tr then
        tryCatch (callHandler env e tr) (fun err => if s.catchExc then PyM.pure () else raise err)
       else PyM.pure ()) >>- fun _ =>
      handlersLoop env tr gen fuel (i + 1)

/-- `HandlerDispatcher.call_handlers`, node.py:194-203. -/
def callHandlers (env : Env) (tr : InTransfer) : PyM Node Unit :=
  get >>- fun s => handlersLoop env tr s.hcur ((s.hlists s.hcur).length + env.lim + 1) 0

/-- `HandlerDispatcher.is_response_sniffing_enabled`, node.py:205-214. -/
def sniffing (s : Node) (tr : InTransfer) : Bool :=
  tr.header.service && !tr.header.request &&
    (s.hlists s.hcur).any fun e => e.type == some (tr.header.dtid, tr.header.service) && e.sniff

/-- The search for the request that a response answers, node.py:340-342. -/
def findRequest (tr : InTransfer) (d : Dict (Nat × Nat) OutReq) : Option ((Nat × Nat) × OutReq) :=
  d.find? fun (_, q) => isResponseTo tr.header tr.tid.toNat q.header q.tid

/-- `timeout_caller_handle.try_remove()`, node.py:492: the result is not used. -/
def dropTimeout (seq : Nat) : PyM Node Unit := modify fun s =>
  { s with sched := (s.sched.cancel seq).getD s.sched }

/-- `del self._outstanding_requests[key]`, node.py:345-346. -/
def delOutstanding (key : Nat × Nat) : PyM Node Unit := fun s =>
  if s.outstanding.contains key then (.ok (), { s with outstanding := s.outstanding.del key })
  else (.error .keyError, s)

/-- Delivery of a complete transfer, node.py:334-353. -/
def dispatch (env : Env) (tr : InTransfer) : PyM Node Unit :=
  get >>- fun s =>
  if tr.header.service && !tr.header.request && decide (tr.header.dest = s.nodeId) then
    match findRequest tr s.outstanding with
    | none => PyM.pure ()
    | some (key, q) =>
      dropTimeout q.seq >>- fun _ =>
      runScript env (hookCall env) (.response q.req (some tr)) >>- fun _ =>
      delOutstanding key
  else if !tr.header.service || sniffing s tr || decide (tr.header.dest = s.nodeId) then callHandlers env tr
  else PyM.pure ()

/-- `TransferManager.receive_frame` called by the node, node.py:326-330. -/
def tmReceive (f : Frame) : PyM Node (Option (List Frame)) := fun s =>
  let (tm, out) := receiveFrame s.tm s.now f
  (.ok out, { s with tm })

/-- A received transfer gets a number. -/
def acceptRx (tr : InTransfer) : PyM Node Nat := fun s =>
  (.ok s.nextNum, { s with nextNum := s.nextNum + 1, trace := s.trace ++ [.received s.nextNum tr] })

/-- `Node._recv_frame`, node.py:322-353. -/
def recvFrame (env : Env) (raw : RawFrame) : PyM Node Unit :=
  if !raw.extended then PyM.pure ()
  else
    tmReceive { id := raw.id, bytes := raw.data, ts := raw.ts, canfd := raw.canfd } >>- fun out =>
    match out with
    | none => PyM.pure ()
    | some frames =>
      lift (fromFrames env.db frames) >>- fun tr =>
      acceptRx tr >>- fun n =>
      callHooks env (hookCall env) n (.rx tr) >>- fun _ =>
      dispatch env tr

/-! ## Polling and spinning (node.py:44, 81-82, 364-376, 409-449) -/

/-- `Node._send_node_status`, node.py:370-376. -/
def sendNodeStatus (env : Env) : PyM Node Unit :=
  get >>- fun s =>
  match s.nodeId with
  | none | some 0 => PyM.pure ()
  | some _ => broadcast env (hookCall env) (env.statusPayload s) none none

/-- The callback part of a scheduler event. -/
def runAction (env : Env) : Action → PyM Node Unit
  | .once i | .every i _ => runScript env (hookCall env) (.timer i) >>- fun _ => PyM.pure ()
  | .status _ => sendNodeStatus env
  | .timeout r _ => runScript env (hookCall env) (.response r none) >>- fun _ => PyM.pure ()

/-- `_poll_scheduler_and_get_next_deadline`, node.py:44, 81-82, with the loop of `sched.scheduler.run(blocking=False)`.
The numbers say by how much the clock advances before each of its readings; the result is the next deadline, or `none`
when the numbers are used up while the loop is still running. With an empty queue, `run` returns `None` and
`None + float` is a `TypeError`. -/
def poll (env : Env) : List Nat → PyM Node (Option Int)
  | [] => PyM.pure none
  | d :: ds => tick d >>- fun _ => get >>- fun s =>
    match s.sched.queue with
    | [] => raise .typeError
    | e :: _ =>
      match takeDue s with
      | none => PyM.pure (some e.time)
      | some (e, s') => put s' >>- fun _ => runAction env e.action >>- fun _ => poll env ds

/-- The loop of `spin(0)`, node.py:440-446; `reads` is what successive calls of `receive(0)` return (nothing more when the
list ends). -/
def drain (env : Env) : List (Option RawFrame) → Nat → PyM Node Nat
  | [], count | none :: _, count => log (.read none) >>- fun _ => PyM.pure count
  | some f :: reads, count =>
    log (.read (some f)) >>- fun _ => recvFrame env f >>- fun _ => drain env reads (count + 1)

/-- `spin(0)`, node.py:439-448. -/
def spin0 (env : Env) (reads : List (Option RawFrame)) (clock : List Nat) : PyM Node Nat :=
  drain env reads 0 >>- fun count =>
  poll env clock >>- fun _ =>
  PyM.pure count

/-- One round of `execute_once`, node.py:422-434: how the clock behaves in the poll, and what `receive` returns after
how long. -/
structure Round where
  clock : List Nat
  frame : Option RawFrame
  elapsed : Nat

/-- `execute_once`, node.py:422-434. -/
def executeOnce (env : Env) (r : Round) : PyM Node Nat :=
  poll env r.clock >>- fun _ =>
  tick r.elapsed >>- fun _ =>
  log (.read r.frame) >>- fun _ =>
  match r.frame with
  | some f => recvFrame env f >>- fun _ => PyM.pure 1
  | none => PyM.pure 0

/-- `time.monotonic() < deadline`; `none` stands for `sys.float_info.max`. -/
def beforeDeadline (now : Int) (deadline : Option Int) : Bool :=
  match deadline with
  | some d => now < d
  | none => true

/-- `while time.monotonic() < deadline: execute_once()`, node.py:437-438. The rounds are what the driver does; the loop stops when there are none left. -/
def spinLoop (env : Env) (deadline : Option Int) : List Round → PyM Node Unit
  | [] => PyM.pure ()
  | r :: rs => get >>- fun s =>
    if beforeDeadline s.now deadline then
      executeOnce env r >>- fun _ => spinLoop env deadline rs
    else PyM.pure ()

/-- `spin(timeout)` for a timeout other than 0, node.py:416-438. -/
def spinTimeout (env : Env) (timeout : Option Int) (first : Round) (rounds : List Round) : PyM Node Nat :=
  get >>- fun s =>
  executeOnce env first >>- fun count =>
  spinLoop env (timeout.map (s.now + ·)) rounds >>- fun _ =>
  PyM.pure count

/-! ## Histories -/

/-- What the main program does. -/
inductive Op where
  | api (c : Cmd)
  | poll (clock : List Nat)
  | frame (f : RawFrame)
  | spin0 (reads : List (Option RawFrame)) (clock : List Nat)
  | spin (timeout : Option Int) (first : Round) (rounds : List Round)

/-- One operation; an exception ends it and the program continues with the next. -/
def step (env : Env) (op : Op) (s : Node) : Node :=
  match op with
  | .api c => (exec env (hookCall env) c s).2
  | .poll ds => (Node.poll env ds s).2
  | .frame f => (recvFrame env f s).2
  | .spin0 fs ds => (Node.spin0 env fs ds s).2
  | .spin t r rs => (spinTimeout env t r rs s).2

/-- A history of operations. -/
def run (env : Env) (ops : List Op) (s : Node) : Node := ops.foldl (fun s op => step env op s) s

/-- `Node.__init__`, node.py:240-294: the state of a new node at time `now`. `interval` is `node_status_interval`. -/
def init (nodeId : Option Nat) (now : Int) (interval : Option Int) (catchExc sendCanfd : Bool)
    (infoType : Nat × Bool) : Node :=
  let p := effTimeout interval
  let s : Node := { now, nodeId, catchExc, sendCanfd, sched := (Sched.enterabs {} (now + p) 0 (.status p)).2 }
  (addHandler (some infoType) false true s).2

end Node
end Dronecan
