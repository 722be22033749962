import Verif.Model.Codec
import Verif.Model.Container

/-!
# Using message objects: attributes, union fields, array elements

Model of `CompoundValue.__getattr__`/`__setattr__` (transport.py:547-603), `switch_union_field` (59-64), the container
operations on array fields (through `Verif/Model/Container.lean`) and decoding into an object (605-613), at any depth of
nesting.

Simplifications: fields are positions; constants and attribute names that are not fields are left out (reading them is
`AttributeError`, writing them creates an unrelated Python attribute: `Verif/Model/Names.lean`); floating-point fields cannot be written here
(`setInt` reports an error); an object put into an array or a field is taken as a fresh tree of values: sharing between objects
is the subject of `Verif/Model/Alias.lean`; Python stores any object in an array of structures, here a wrong kind
of element is a `TypeError`.
-/

namespace Dronecan

open PyM

mutual
/-- Equality of values is decidable (the deriving mechanism does not support nested lists). -/
def Val.decEq : (a b : Val) → Decidable (a = b)
  | .void, .void => isTrue rfl
  | .prim x, .prim y => if h : x = y then isTrue (h ▸ rfl) else isFalse (fun e => h (Val.prim.inj e))
  | .arr x, .arr y => match Val.decEqs x y with
    | isTrue h => isTrue (h ▸ rfl)
    | isFalse h => isFalse (fun e => h (Val.arr.inj e))
  | .comp a x, .comp b y =>
    if ha : a = b then
      match Val.decEqs x y with
      | isTrue h => isTrue (h ▸ ha ▸ rfl)
      | isFalse h => isFalse (fun e => h (Val.comp.inj e).2)
    else isFalse (fun e => ha (Val.comp.inj e).1)
  | .void, .prim _ | .void, .arr _ | .void, .comp _ _ => isFalse (by simp)
  | .prim _, .void | .prim _, .arr _ | .prim _, .comp _ _ => isFalse (by simp)
  | .arr _, .void | .arr _, .prim _ | .arr _, .comp _ _ => isFalse (by simp)
  | .comp _ _, .void | .comp _ _, .prim _ | .comp _ _, .arr _ => isFalse (by simp)
/-- Equality of lists of values. -/
def Val.decEqs : (a b : List Val) → Decidable (a = b)
  | [], [] => isTrue rfl
  | x :: xs, y :: ys => match Val.decEq x y with
    | isTrue h => match Val.decEqs xs ys with
      | isTrue h' => isTrue (h ▸ h' ▸ rfl)
      | isFalse h' => isFalse (fun e => h' (List.cons.inj e).2)
    | isFalse h => isFalse (fun e => h (List.cons.inj e).1)
  | [], _ :: _ => isFalse (by simp)
  | _ :: _, [] => isFalse (by simp)
end

instance : DecidableEq Val := Val.decEq

/-- A Python value used as an array element: a number, or an object. -/
inductive Elt where
  | int (x : Int)
  | obj (v : Val)
  deriving DecidableEq

/-- A Python value assigned to an attribute: a number, a `CompoundValue` (with the outcome of the comparison of type names
at transport.py:583), or a sequence of elements. -/
inductive Arg where
  | int (x : Int)
  | obj (sameType : Bool) (v : Val)
  | list (xs : List Elt)
  deriving DecidableEq

/-- Storing and reading elements of an array of type `e`: transport.py:366-370, 375-378, 407-411. -/
def valElem (e : Ty) : ElemOps Elt Val where
  wr := fun x => match e, x with
    | .prim p, .int n => match setInt p n with
      | .ok b => .ok (.prim b)
      | .error err => .error err
    | .prim _, .obj _ => .error .typeError
    | _, .obj v => .ok v
    | _, .int _ => .error .typeError
  rd := fun v => match e, v with
    | .prim p, .prim b => .int ((getInt p b).getD 0)
    | _, v => .obj v

/-- The value part of `CompoundValue.__setattr__` (transport.py:572-601): what happens to the field object. -/
def assignField (t : Ty) (old : Val) (a : Arg) : Except Err Unit × Val :=
  match t, old, a with
  | .prim p, _, .int x => match setInt p x with
    | .ok b => (.ok (), .prim b)
    | .error e => (.error e, old)
  | .prim _, _, _ => (.error .typeError, old)
  | .comp _ _, _, .obj same v => if same then (.ok (), v) else (.error .attributeError, old)
  | .comp _ _, _, _ => (.error .attributeError, old)
  | .arr e _ m, .arr items, .list xs =>
    match arrSetAttr (valElem e) m xs items with
    | (r, items) => (r, .arr items)
  | .arr e _ _, .arr items, _ =>                       -- not iterable: cleared, then AttributeError
    match arrClear (valElem e) items with
    | (.ok _, items) => (.error .attributeError, .arr items)
    | (r, items) => (r, .arr items)
  | _, _, _ => (.error .attributeError, old)

/-- The union test common to `__getattr__` (551-555) and `__setattr__` (567-571): either the exception, or the new active
field. -/
def touch (isUnion : Bool) (active : Option Nat) (i : Nat) : Except Err (Option Nat) :=
  if isUnion then
    match active with
    | some j => if j ≠ i then .error .attributeError else .ok (some i)
    | none => .ok (some i)
  else .ok active

/-- What a user can do with one object. -/
inductive ObjOp where
  | get (i : Nat)                    -- read attribute number `i`
  | set (i : Nat) (a : Arg)          -- assign attribute number `i`
  | switch (o : Option Nat)          -- `switch_union_field` to a field (or to `None`)
  | decode (s : Bits) (tao : Bool)   -- overwrite by decoding
  | arr (op : ArrOp Elt)             -- container operation (on an array object)

/-- `CompoundValue._unpack` (transport.py:605-613) into an existing object. Simplification: alternatives of nested unions that
are not selected are reset (Python leaves stale values there), and when decoding a field fails the field keeps its old value. -/
def decodeInto (isUnion : Bool) (fs : List Ty) (active : Option Nat) (vs : List Val) (s : Bits) (tao : Bool) :
    Except Err Unit × Val :=
  if isUnion then
    let tagLen := unionTagBits fs.length
    if s.take tagLen = [] then (.error .valueError, .comp active vs)
    else
      let tag := natOfBits (s.take tagLen)
      match fs[tag]? with
      | none => (.error .indexError, .comp active vs)
      | some f => match unpack f (s.drop tagLen) tao with
        | .error e => (.error e, .comp (some tag) vs)
        | .ok (v, _) => (.ok (), .comp (some tag) (vs.set tag v))
  else match unpackFields fs s tao with
    | .error e => (.error e, .comp active vs)
    | .ok (vs, _) => (.ok (), .comp active vs)

/-- One operation on one object; reading yields the field object. -/
def execOp (t : Ty) (v : Val) (op : ObjOp) : Except Err (Option Val) × Val :=
  match t, v, op with
  | .comp u fs, .comp active vs, .get i =>
    match fs[i]?, vs[i]? with
    | some _, some w => match touch u active i with
      | .ok active => (.ok (some w), .comp active vs)
      | .error e => (.error e, v)
    | _, _ => (.error .attributeError, v)
  | .comp u fs, .comp active vs, .set i a =>
    match fs[i]?, vs[i]? with
    | some f, some w => match touch u active i with
      | .ok active => match assignField f w a with
        | (.ok _, w) => (.ok none, .comp active (vs.set i w))
        | (.error e, w) => (.error e, .comp active (vs.set i w))
      | .error e => (.error e, v)
    | _, _ => (.ok none, v)
  | .comp u _, .comp _ vs, .switch o => if u then (.ok none, .comp o vs) else (.error .valueError, v)
  | .comp u fs, .comp active vs, .decode s tao => match decodeInto u fs active vs s tao with
    | (.ok _, w) => (.ok none, w)
    | (.error e, w) => (.error e, w)
  | .arr e _ m, .arr items, .arr op => match arrExec (valElem e) m op items with
    | (.ok _, items) => (.ok none, .arr items)
    | (.error e, items) => (.error e, .arr items)
  | _, _, _ => (.error .attributeError, v)

/-- One step of a path into an object: attribute number `i`, or element `i` of an array. -/
inductive PathStep where
  | field (i : Nat)
  | item (i : Int)

/-- An operation on the object reached by a path such as `msg.a[2].b`: reading the attributes on the way has the side
effect of `__getattr__` on unions (transport.py:551-555). -/
def access (t : Ty) (v : Val) (path : List PathStep) (op : ObjOp) : Except Err (Option Val) × Val :=
  match path with
  | [] => execOp t v op
  | .field i :: path => match t, v with
    | .comp u fs, .comp active vs =>
      match fs[i]?, vs[i]? with
      | some f, some w => match touch u active i with
        | .ok active => match access f w path op with
          | (r, w) => (r, .comp active (vs.set i w))
        | .error e => (.error e, v)
      | _, _ => (.error .attributeError, v)
    | _, _ => (.error .attributeError, v)
  | .item i :: path => match t, v with
    | .arr e _ _, .arr items => match pyIndex items.length i with
      | none => (.error .indexError, v)
      | some j => match items[j]? with
        | none => (.error .indexError, v)
        | some w => match access e w path op with
          | (r, w) => (r, .arr (items.set j w))
    | _, _ => (.error .typeError, v)

/-- A history of operations on one message object; the user catches exceptions and carries on. -/
def objRun (t : Ty) : List (List PathStep × ObjOp) → Val → List (Except Err (Option Val)) × Val
  | [], v => ([], v)
  | (path, op) :: rest, v =>
    let (r, v) := access t v path op
    let (rs, v) := objRun t rest v
    (r :: rs, v)

end Dronecan
