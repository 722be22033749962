import Verif.Model.PyM

/-!
# Sharing between message objects

Heap model of `CompoundValue` objects (transport.py:477-545, 564-603) for structures with integer fields, nested structures
and arrays of structures. A `CompoundValue` refers to a `_fields` dictionary, and `copy.copy` (`__copy__`, transport.py:529-534)
creates an object that refers to the *same* dictionary. Unions and integer ranges are not modelled here (see
`Verif/Model/Compound.lean`); field names are positions.
-/

namespace Dronecan

/-- The value object in one field: a `PrimitiveValue`, a nested `CompoundValue` (by object identity), or an `ArrayValue`
holding `CompoundValue`s (by identity). -/
inductive Slot where
  | prim (x : Int)
  | comp (obj : Nat)
  | arr (objs : List Nat)
  deriving DecidableEq, Repr

/-- The Python heap: `objs[o]` is the identity of the `_fields` dictionary of object `o`; `dicts[d]` are the fields of
dictionary `d`. -/
structure Heap where
  objs : List Nat
  dicts : List (List Slot)
  deriving DecidableEq, Repr

/-- The fields of an object. -/
def Heap.fields (h : Heap) (o : Nat) : Option (List Slot) := (h.objs[o]?).bind fun d => h.dicts[d]?

/-- Update field `i` of object `o`. -/
def Heap.setField (h : Heap) (o i : Nat) (s : Slot) : Heap :=
  match h.objs[o]? with
  | some d => { h with dicts := h.dicts.modify d (·.set i s) }
  | none => h

/-- A step of a path: field `i`, or element `k` of the array in field `i`. -/
inductive AStep where
  | field (i : Nat)
  | item (i k : Nat)
  deriving DecidableEq, Repr

/-- The object reached by an attribute path such as `msg.a.b[2]` (`__getattr__`, transport.py:547-562). -/
def Heap.resolve (h : Heap) (o : Nat) : List AStep → Option Nat
  | [] => if (h.objs[o]?).isSome then some o else none
  | .field i :: p => match (h.fields o).bind (·[i]?) with
    | some (.comp o') => h.resolve o' p
    | _ => none
  | .item i k :: p => match (h.fields o).bind (·[i]?) with
    | some (.arr os) => match os[k]? with
      | some o' => h.resolve o' p
      | none => none
    | _ => none

/-- Read an integer attribute through a path: `msg.a.b.x`. -/
def Heap.read (h : Heap) (o : Nat) (p : List AStep) (i : Nat) : Option Int :=
  match h.resolve o p with
  | some o' => match (h.fields o').bind (·[i]?) with
    | some (.prim x) => some x
    | _ => none
  | none => none

/-- What a user does with message objects. Objects held in Python variables are the roots `root`. -/
inductive HeapOp where
  /-- `root.path.field = x` for an integer field (transport.py:576-577). -/
  | setInt (root : Nat) (path : List AStep) (i : Nat) (x : Int)
  /-- `root.path.field = other.path'` for a nested structure: `copy.copy` (transport.py:579-586). -/
  | setComp (root : Nat) (path : List AStep) (i : Nat) (other : Nat) (path' : List AStep)
  /-- `root.path.field.append(other)`: the object itself is stored (transport.py:410-411). -/
  | append (root : Nat) (path : List AStep) (i : Nat) (other : Nat)
  deriving DecidableEq, Repr

/-- Execute an operation; operations that raise leave the heap unchanged. -/
def Heap.exec (h : Heap) : HeapOp → Heap
  | .setInt r p i x => match h.resolve r p with
    | some o => match (h.fields o).bind (·[i]?) with
      | some (.prim _) => h.setField o i (.prim x)
      | _ => h
    | none => h
  | .setComp r p i r' p' => match h.resolve r p, h.resolve r' p' with
    | some o, some o' => match (h.fields o).bind (·[i]?), h.objs[o']? with
      | some (.comp _), some d => { h with objs := h.objs ++ [d] }.setField o i (.comp h.objs.length)
      | _, _ => h
    | _, _ => h
  | .append r p i r' => match h.resolve r p with
    | some o => match (h.fields o).bind (·[i]?) with
      | some (.arr os) => if r' < h.objs.length then h.setField o i (.arr (os ++ [r'])) else h
      | _ => h
    | none => h

/-- A history of operations. -/
def Heap.run (h : Heap) (ops : List HeapOp) : Heap := ops.foldl Heap.exec h

end Dronecan
