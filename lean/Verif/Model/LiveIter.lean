import Verif.Model.Monitor

/-!
# Going through a dictionary that changes: `NodeMonitor.find_all`

`find_all` (node_monitor.py:137-144) is a generator over `self._registry.items()`, and `get_all_node_id` (node_monitor.py:133-135) returns
`self._registry.keys()`: both go through the dictionary itself while the application, the predicate and whatever they call (the node may
spin in between) change it.

What then happens is Python's (CPython 3.8 and later): a dictionary is an array of slots in the order of insertion; deletion leaves a hole;
insertion appends, and may close the holes first, which depends on the size of the array, here on a flag. An iterator has a position in the
array, the number of entries that the dictionary had when it began, and the number of entries still expected. `Dict` (`Model/Dict.lean`) is
what is left of the slots without the holes.
-/

namespace Dronecan
namespace LiveIter

variable {κ ν : Type} [DecidableEq κ]

/-- The array of slots. -/
abbrev Slots (κ ν : Type) := List (Option (κ × ν))

/-- The dictionary. -/
def live (s : Slots κ ν) : Dict κ ν := s.filterMap id

/-- A change of the dictionary: `d[k] = v`, `del d[k]`. `compact`: if the key is new then holes are closed first. -/
inductive Change (κ ν : Type) where
  | set (k : κ) (v : ν) (compact : Bool)
  | del (k : κ)

/-- The new content of a slot when `d[k] = v` finds the key. -/
def over (k : κ) (v : ν) : Option (κ × ν) → Option (κ × ν)
  | some (k', v') => if k' = k then some (k, v) else some (k', v')
  | none => none

/-- The new content of a slot after `del d[k]`. -/
def cut (k : κ) : Option (κ × ν) → Option (κ × ν)
  | some (k', v') => if k' = k then none else some (k', v')
  | none => none

/-- The effect of a change. -/
def change (s : Slots κ ν) : Change κ ν → Slots κ ν
  | .set k v compact =>
    if (live s).contains k then s.map (over k v)
    else (if compact then (live s).map some else s) ++ [some (k, v)]
  | .del k => s.map (cut k)

/-- A dictionary iterator. -/
structure Iter where
  pos : Nat
  left : Nat
  used : Nat
  deriving DecidableEq, Repr

/-- The first entry at or after a position. -/
def seek : Slots κ ν → Nat → Option (Nat × κ × ν)
  | [], _ => none
  | none :: s, i => seek s (i + 1)
  | some (k, v) :: s, i => some (i, k, v)

/-- Where the generator is. -/
inductive Phase where
  /-- `next` has not been called -/
  | fresh
  | running (it : Iter)
  /-- it has ended -/
  | done
  /-- it has raised RuntimeError -/
  | failed
  deriving DecidableEq, Repr

/-- The registry and the generator, with the entries that it has looked at. -/
structure State (κ ν : Type) where
  slots : Slots κ ν
  phase : Phase := .fresh
  visited : List (κ × ν) := []

/-- One step of the iterator. -/
def next (it : Iter) (s : State κ ν) : State κ ν :=
  if it.used ≠ (live s.slots).length then { s with phase := .failed }
  else match seek (s.slots.drop it.pos) it.pos with
    | none => { s with phase := .done }
    | some (i, k, v) =>
      if it.left = 0 then { s with phase := .failed }
      else { s with phase := .running { it with pos := i + 1, left := it.left - 1 }, visited := s.visited ++ [(k, v)] }

/-- One step of the generator, up to the result of the predicate, node_monitor.py:142-144. -/
def advance (s : State κ ν) : State κ ν :=
  match s.phase with
  | .fresh => next { pos := 0, left := (live s.slots).length, used := (live s.slots).length } s
  | .running it => next it s
  | _ => s

/-- What happens: the generator goes on, or something changes the registry. -/
inductive Step (κ ν : Type) where
  | advance
  | change (c : Change κ ν)

/-- A step. -/
def step (s : State κ ν) : Step κ ν → State κ ν
  | .advance => advance s
  | .change c => { s with slots := change s.slots c }

/-- Steps. -/
def run (steps : List (Step κ ν)) (s : State κ ν) : State κ ν := steps.foldl step s

/-- What the application has got from `find_all(predicate)`. -/
def yielded (pred : ν → Bool) (s : State κ ν) : List ν := (s.visited.map (·.2)).filter pred

/-- `NodeMonitor.are_all_nodes_discovered`, node_monitor.py:146-149: nothing happens while `list` goes through the generator. -/
def allDiscovered (slots : Slots Nat Monitor.Entry) : Bool :=
  (yielded (fun e => !e.discovered) (run (List.replicate ((live slots).length + 1) .advance) { slots })).length == 0

end LiveIter
end Dronecan
