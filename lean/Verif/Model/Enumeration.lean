import Verif.Model.PyM

/-!
# Model of the example that enumerates ESCs (examples/esc_enumeration.py)

The node is modelled by what it does to the program: the callback of a request is called once, with the response or, when the request has
timed out, with `None` (C24), handlers are called for the messages received while they are registered, and `spin` returns after a while.
Exceptions raised in callbacks come out of `spin` and, since nothing catches them, end the program. What is printed is left out. A `param` answer
whose value is no integer raises as well (`integer_value` is then no attribute): it is an answer `result false` here. The names are compared
as lists of bytes (C144). Requests are taken to be sent: the node has an ID.
-/

namespace Dronecan
namespace Enumeration

abbrev Name := List Nat

/-- The requests of the program (examples/esc_enumeration.py:52-55, 90, 104-107, 120-123). -/
inductive Req where
  | begin (node timeout : Nat)
  | getSet (node : Nat) (name : Name) (value : Nat)
  | save (node : Nat)
deriving DecidableEq, Repr

/-- What a callback is called with: `None`, or a response. `ok` of a `Begin` response is `error == ERROR_OK`. -/
inductive Answer where
  | timeout
  | result (ok : Bool)
  | param (name : Name) (value : Nat)
deriving DecidableEq, Repr

/-- What was sent and what came back. -/
inductive Act where
  | ask (r : Req)
  | told (r : Req) (a : Answer)
deriving DecidableEq, Repr

/-- Where the program is: in one of the loops around `spin` (examples/esc_enumeration.py:57-58, 78-81, 91-92, 125-126), or at the end. -/
inductive Phase where
  | starting (succeeded : Nat)
  | listening (received : Option (Nat × Name))
  | stopping (target : Nat) (name : Name) (succeeded : Nat)
  | setting (target : Nat) (name : Name) (finished : Bool)
  | returned
  | raised
deriving DecidableEq, Repr

structure Tool where
  /-- The argument `esc_nodes`, a set. -/
  nodes : List Nat
  phase : Phase := .starting 0
  outstanding : List Req := []
  enumerated : List Nat := []
  nextIndex : Nat := 0
  log : List Act := []
deriving DecidableEq, Repr

inductive Ev where
  /-- The callback of the `i`-th outstanding request is called. -/
  | answer (i : Nat) (a : Answer)
  /-- An `Indication` message is received. -/
  | indication (source : Nat) (name : Name)
  /-- `spin` returns; `late` says whether the deadline has passed then. -/
  | pause (late : Bool)
deriving DecidableEq, Repr

/-- `node.request`. -/
def request (r : Req) (t : Tool) : Tool := { t with outstanding := t.outstanding ++ [r], log := t.log ++ [.ask r] }

/-- `set(enumerated_nodes) != esc_nodes` (examples/esc_enumeration.py:63), negated. -/
def sameSet (a b : List Nat) : Bool := a.all (fun x => b.contains x) && b.all (fun x => a.contains x)

/-- The head of the loop (examples/esc_enumeration.py:63-77). -/
def head (t : Tool) : Tool := if sameSet t.enumerated t.nodes then { t with phase := .returned } else { t with phase := .listening none }

/-- What follows when `spin` has returned (examples/esc_enumeration.py:57-58, 78-92, 120-133). -/
def pause (late : Bool) (t : Tool) : Tool :=
  match t.phase with
  | .starting k => if k < t.nodes.length then t else head t
  | .listening received =>
    if late then { t with phase := .raised }
    else match received with
      | none => t
      | some (n, name) => request (.begin n 0) { t with phase := .stopping n name 0 }
  | .stopping n name k =>
    if k < 1 then t else request (.getSet n name t.nextIndex) { t with phase := .setting n name false }
  | .setting n _ finished =>
    if finished then head { t with nextIndex := t.nextIndex + 1, enumerated := t.enumerated ++ [n] } else t
  | .returned => t
  | .raised => t

/-- `begin_response_checker` (examples/esc_enumeration.py:39-47). -/
def onBegin (a : Answer) (t : Tool) : Tool :=
  match a with
  | .result true =>
    match t.phase with
    | .starting k => { t with phase := .starting (k + 1) }
    | .stopping n name k => { t with phase := .stopping n name (k + 1) }
    | _ => t
  | _ => { t with phase := .raised }

/-- `param_set_response` (examples/esc_enumeration.py:97-107). -/
def onSet (a : Answer) (t : Tool) : Tool :=
  match a, t.phase with
  | .param name value, .setting n name' _ =>
    if name = name' ∧ value = t.nextIndex then request (.save n) t else { t with phase := .raised }
  | _, _ => { t with phase := .raised }

/-- `param_opcode_response` (examples/esc_enumeration.py:109-118). -/
def onSave (a : Answer) (t : Tool) : Tool :=
  match a, t.phase with
  | .result true, .setting n name _ => { t with phase := .setting n name true }
  | _, _ => { t with phase := .raised }

/-- `indication_callback` (examples/esc_enumeration.py:66-72), which is registered in the loop of lines 78-81 only. -/
def onIndication (n : Nat) (name : Name) (t : Tool) : Tool :=
  match t.phase with
  | .listening _ => if n ∈ t.enumerated then t else { t with phase := .listening (some (n, name)) }
  | _ => t

/-- One thing that happens; nothing does after the function has returned or raised (examples/esc_enumeration.py:36-133). -/
def step (t : Tool) (e : Ev) : Tool :=
  if t.phase = .returned ∨ t.phase = .raised then t
  else match e with
    | .answer i a =>
      match t.outstanding[i]? with
      | none => t
      | some r =>
        let t := { t with outstanding := t.outstanding.eraseIdx i, log := t.log ++ [.told r a] }
        match r with
        | .begin _ _ => onBegin a t
        | .getSet _ _ _ => onSet a t
        | .save _ => onSave a t
    | .indication n name => onIndication n name t
    | .pause late => pause late t

/-- examples/esc_enumeration.py:37-58: the requests that start the enumeration; the loop is left at once if there are no nodes. -/
def start (nodes : List Nat) (timeout : Nat) : Tool :=
  pause false (nodes.foldl (fun t n => request (.begin n timeout) t) { nodes := nodes })

/-- `enumerate_all_esc` (examples/esc_enumeration.py:36-133). -/
def run (nodes : List Nat) (timeout : Nat) (es : List Ev) : Tool := es.foldl step (start nodes timeout)

end Enumeration
end Dronecan
