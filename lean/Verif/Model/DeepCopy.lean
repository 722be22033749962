import Verif.Model.Alias

/-!
# Deep copies of message objects

`copy.deepcopy(message)` calls `CompoundValue.__deepcopy__` (transport.py:536-545), which notes the copy in the memo before it copies the
attributes; the rest is Python's `copy` module: a dictionary is noted in the memo before its values are copied, and what is in the memo is not
copied again. The heap is that of `Model/Alias.lean`: integers, nested structures, arrays of structures.

Simplifications: the fields are put into the copy of a dictionary together, after all of them have been copied, and the dictionary into the copy
of the object after that (nothing looks at the copies before); the copies of the type, the constants and the mode are not modelled, nor is
Python's limit of the depth of calls.
-/

namespace Dronecan
namespace DeepCopy

/-- The heap and the memo: copies of objects and of dictionaries. -/
structure State where
  heap : Heap
  objs : List (Nat × Nat) := []
  dicts : List (Nat × Nat) := []
  deriving DecidableEq, Repr

/-- The elements of an array (its `__items`), one by one. -/
def items (rec : Nat → State → Option (Nat × State)) : List Nat → State → Option (List Nat × State)
  | [], s => some ([], s)
  | o :: os, s =>
    match rec o s with
    | none => none
    | some (o', s) =>
      match items rec os s with
      | none => none
      | some (os', s) => some (o' :: os', s)

/-- The value in a field. -/
def slot (rec : Nat → State → Option (Nat × State)) : Slot → State → Option (Slot × State)
  | .prim x, s => some (.prim x, s)
  | .comp o, s => (rec o s).map fun r => (.comp r.1, r.2)
  | .arr os, s => (items rec os s).map fun r => (.arr r.1, r.2)

/-- The fields of a dictionary, one by one. -/
def slots (rec : Nat → State → Option (Nat × State)) : List Slot → State → Option (List Slot × State)
  | [], s => some ([], s)
  | x :: xs, s =>
    match slot rec x s with
    | none => none
    | some (x', s) =>
      match slots rec xs s with
      | none => none
      | some (xs', s) => some (x' :: xs', s)

/-- `copy.deepcopy(o, memo)`. The first argument bounds the depth of the calls (`none` if it is too small). -/
def copyObj : Nat → Nat → State → Option (Nat × State)
  | 0, _, _ => none
  | n + 1, o, s =>
    match s.objs.lookup o with
    | some o' => some (o', s)
    | none =>
      match s.heap.objs[o]? with
      | none => none
      | some d =>
        -- `result = cls.__new__(cls)`, `memo[id(self)] = result`; it has no fields yet
        let o' := s.heap.objs.length
        let s := { s with heap := { s.heap with objs := s.heap.objs ++ [0] }, objs := (o, o') :: s.objs }
        match s.dicts.lookup d with
        | some d' => some (o', { s with heap := { s.heap with objs := s.heap.objs.set o' d' } })
        | none =>
          match s.heap.dicts[d]? with
          | none => none
          | some fs =>
            let d' := s.heap.dicts.length
            let s := { s with heap := { s.heap with dicts := s.heap.dicts ++ [[]] }, dicts := (d, d') :: s.dicts }
            match slots (copyObj n) fs s with
            | none => none
            | some (fs', s) =>
              some (o', { s with heap := { objs := s.heap.objs.set o' d', dicts := s.heap.dicts.set d' fs' } })

/-- `copy.deepcopy(o)`. -/
def deepcopy (h : Heap) (o : Nat) : Option (Nat × Heap) :=
  (copyObj (h.objs.length + 1) o { heap := h }).map fun r => (r.1, r.2.heap)

/-- What an application does with one message object, `r`, that it holds. -/
inductive Op where
  /-- `r.path.field = x` -/
  | setInt (path : List AStep) (i : Nat) (x : Int)
  /-- `r.path.field = r.path'` -/
  | setComp (path : List AStep) (i : Nat) (path' : List AStep)
  /-- `r.path.field.append(r.path')` -/
  | append (path : List AStep) (i : Nat) (path' : List AStep)
  deriving DecidableEq, Repr

/-- Execute an operation (`Heap.exec`). -/
def act (h : Heap) (r : Nat) : Op → Heap
  | .setInt p i x => h.exec (.setInt r p i x)
  | .setComp p i p' => h.exec (.setComp r p i r p')
  | .append p i p' =>
    match h.resolve r p' with
    | some o => h.exec (.append r p i o)
    | none => h

/-- A history. -/
def acts (h : Heap) (r : Nat) (ops : List Op) : Heap := ops.foldl (fun h op => act h r op) h

end DeepCopy
end Dronecan
