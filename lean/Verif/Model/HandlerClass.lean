import Verif.Model.PyM
import Verif.Model.Transfer

/-!
# Handlers that are classes

`HandlerDispatcher.add_handler` (node.py:149-188) takes functions and classes; `node.Monitor` and `node.Service`
(node.py:558-576) are base classes for the latter. Application code is arbitrary: it works on a state `σ` and may raise.

Simplification: the application code that is called here does not itself add or remove handlers (`Model/Node.lean` has
that, for functions).
-/

namespace Dronecan
namespace HandlerClass
open PyM

/-- What a handler can see of a transfer. `header` and `tid` are those of `Transfer`; the type of the payload is
`(header.dtid, header.service)` as in `Model/Node.lean`. -/
structure Xfer where
  header : Header
  tid : Nat
  payload : List Byte
  deriving DecidableEq, Repr

/-- The name of the attribute of the event that holds the payload, node.py:116-117, 169-170. -/
inductive Attr where
  | message | request | response
  deriving DecidableEq, Repr

/-- `TransferEvent`, node.py:115-119. -/
structure Event where
  attr : Attr
  transfer : Xfer
  deriving DecidableEq, Repr

/-- A class: what calling it, its methods and reading `response` do. A method or attribute that it lacks raises
`AttributeError`. Objects are references; their contents are part of `σ`. -/
structure Cls (σ Kw Obj Resp : Type) where
  init : Event → Kw → PyM σ Obj
  onRequest : Obj → PyM σ Unit
  onMessage : Obj → PyM σ Unit
  response : Obj → PyM σ (Option Resp)

/-- The argument `handler` of `add_handler`. -/
inductive Handler (σ Kw Obj Resp : Type) where
  | func (f : Event → Kw → PyM σ (Option Resp))
  | cls (c : Cls σ Kw Obj Resp)

/-- What happens to application code, in order. -/
inductive Ev (Kw Obj Resp : Type) where
  /-- a function is called -/
  | called (uid : Nat) (e : Event) (kw : Kw)
  /-- a class is called -/
  | new (uid : Nat) (e : Event) (kw : Kw)
  | onRequest (uid : Nat) (o : Obj)
  | onMessage (uid : Nat) (o : Obj)
  /-- `Node.respond` is called -/
  | respond (r : Resp) (dest tid prio : Nat)
  /-- the closure of a handler has raised, node.py:199-203 -/
  | raised (uid : Nat) (e : Err)
  deriving DecidableEq, Repr

/-- An element of `_handlers`, node.py:187: the type, the closure `call` and `sniff_response`; `uid` is only a name. -/
structure Entry (σ Kw Obj Resp : Type) where
  uid : Nat
  type : Option (Nat × Bool)
  call : Xfer → PyM (σ × List (Ev Kw Obj Resp)) Unit
  sniff : Bool

variable {σ Kw Obj Resp : Type}

/-- Application code within the dispatcher. -/
def app {α : Type} (m : PyM σ α) : PyM (σ × List (Ev Kw Obj Resp)) α := fun s =>
  ((m s.1).1, ((m s.1).2, s.2))

/-- Something observable happens. -/
def log (e : Ev Kw Obj Resp) : PyM (σ × List (Ev Kw Obj Resp)) Unit := modify fun s => (s.1, s.2 ++ [e])

/-- `service` in `add_handler`, node.py:150-152. -/
def isService (type : Option (Nat × Bool)) : Bool :=
  match type with
  | some t => t.2
  | none => false

/-- What the rest of the program provides. -/
structure Env (σ Resp : Type) where
  /-- `Node.respond`, node.py:505-523; it may raise. -/
  respond : Resp → Nat → Nat → Nat → PyM σ Unit
  /-- `catch_handler_exceptions`, node.py:147 -/
  catchExc : Bool

/-- The closure `call`, node.py:168-185. `f` calls the handler with an event; the keyword arguments are bound in it
(for a class, the adapter takes them, and `call` has none: node.py:158, 165). -/
def call (env : Env σ Resp) (service sniff : Bool) (f : Event → PyM (σ × List (Ev Kw Obj Resp)) (Option Resp)) (t : Xfer) :
    PyM (σ × List (Ev Kw Obj Resp)) Unit :=
  let msgtype := if sniff then Attr.response else Attr.request
  f { attr := if service then msgtype else .message, transfer := t } >>- fun result =>
  if service && !sniff then
    if !t.header.request then PyM.pure ()
    else match result with
      | none => raise .uavcanException
      | some r =>
        log (.respond r t.header.source t.tid t.header.prio) >>- fun _ =>
        app (env.respond r t.header.source t.tid t.header.prio)
  else match result with
    | some _ => raise .uavcanException
    | none => PyM.pure ()

/-- `class_handler_adapter`, node.py:157-163. -/
def adapter (uid : Nat) (service sniff : Bool) (c : Cls σ Kw Obj Resp) (kw : Kw) (e : Event) :
    PyM (σ × List (Ev Kw Obj Resp)) (Option Resp) :=
  log (.new uid e kw) >>- fun _ =>
  app (c.init e kw) >>- fun o =>
  if service && !sniff then
    log (.onRequest uid o) >>- fun _ =>
    app (c.onRequest o) >>- fun _ =>
    app (c.response o)
  else
    log (.onMessage uid o) >>- fun _ =>
    app (c.onMessage o) >>- fun _ =>
    PyM.pure none

/-- `HandlerDispatcher.add_handler`, node.py:149-188. For a class it calls itself with the adapter, and with
`sniff_response` as it is then (node.py:165). -/
def entry (env : Env σ Resp) (uid : Nat) (type : Option (Nat × Bool)) (h : Handler σ Kw Obj Resp) (sniff : Bool) (kw : Kw) :
    Entry σ Kw Obj Resp :=
  let service := isService type
  let sniff := sniff && service
  match h with
  | .cls c =>
    let sniff' := sniff && service
    { uid, type, sniff := sniff', call := call env service sniff' (adapter uid service sniff c kw) }
  | .func f =>
    { uid, type, sniff, call := call env service sniff (fun e => log (.called uid e kw) >>- fun _ => app (f e kw)) }

/-- The test at node.py:196. -/
def Entry.accepts (e : Entry σ Kw Obj Resp) (t : Xfer) : Bool :=
  match e.type with
  | none => true
  | some ty => ty == (t.header.dtid, t.header.service)

/-- `HandlerDispatcher.call_handlers`, node.py:194-203. -/
def callHandlers (env : Env σ Resp) (t : Xfer) : List (Entry σ Kw Obj Resp) → PyM (σ × List (Ev Kw Obj Resp)) Unit
  | [] => PyM.pure ()
  | e :: es =>
    (if e.accepts t then
      tryCatch (e.call t) (fun err => log (.raised e.uid err) >>- fun _ => if env.catchExc then PyM.pure () else raise err)
     else PyM.pure ()) >>- fun _ =>
    callHandlers env t es

/-- What is passed to `Node.add_handler`, node.py:386-402. -/
structure Reg (σ Kw Obj Resp : Type) where
  type : Option (Nat × Bool)
  handler : Handler σ Kw Obj Resp
  sniff : Bool
  kw : Kw

/-- The list of handlers after some registrations; the k-th gets the name `k`. -/
def entries (env : Env σ Resp) (regs : List (Reg σ Kw Obj Resp)) : List (Entry σ Kw Obj Resp) :=
  regs.zipIdx.map fun (r, uid) => entry env uid r.type r.handler r.sniff r.kw

/-- Dispatching transfers one after another; an exception that leaves `call_handlers` ends that one only. -/
def deliver (env : Env σ Resp) (regs : List (Reg σ Kw Obj Resp)) (ts : List Xfer) (a : σ) : σ × List (Ev Kw Obj Resp) :=
  ts.foldl (fun s t => (callHandlers env t (entries env regs) s).2) (a, [])

/-- `node.Monitor`, node.py:558-565, with `on_message` overridden by `f`. An object is its event: `message`, `transfer`
and `node` are taken from it, in this order. -/
def monitor (f : Event → PyM σ Unit) : Cls σ Kw Event Resp where
  init e _ := if e.attr = .message then PyM.pure e else raise .attributeError
  onRequest _ := raise .attributeError
  onMessage := f
  response _ := raise .attributeError

/-- The state of a program whose services have an attribute `response`: the rest of the state, how many of them have been
constructed, and the attribute of each of them. -/
abbrev Heap (τ Resp : Type) := τ × Nat × (Nat → Option Resp)

/-- `node.Service`, node.py:568-576, with `on_request` overridden by `f`. An object is its event and its number.
`default` is `Response()` of a type. -/
def service {τ : Type} (default : Nat → Resp) (f : Event × Nat → PyM (Heap τ Resp) Unit) : Cls (Heap τ Resp) Kw (Event × Nat) Resp where
  init e _ := if e.attr = .request then
      fun s => (.ok (e, s.2.1), (s.1, s.2.1 + 1, fun i => if i = s.2.1 then some (default e.transfer.header.dtid) else s.2.2 i))
    else raise .attributeError
  onRequest := f
  onMessage _ := raise .attributeError
  response o := get >>- fun s => PyM.pure (s.2.2 o.2)

end HandlerClass
end Dronecan
