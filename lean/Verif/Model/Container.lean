import Verif.Model.PyM

/-!
# Array values as containers

Model of the container interface of `ArrayValue` (transport.py:337-411, 454-468) and of the methods it inherits from
`collections.abc.MutableSequence`/`Sequence` (`append`, `extend`, `pop`, `remove`, `reverse`, `index`), which are defined
by the standard library in terms of the five methods of `ArrayValue`.

The state is the private list `__items`. `V` is what the user reads and writes, `S` is what is stored (for primitive
element types a `PrimitiveValue`, i.e. its bits; for other element types the object itself). Python integers used as indexes
are `Int`: negative indexes count from the end. Slices are modelled for deletion only (`del a[i:j]`; assigning to a slice
raises `TypeError` at transport.py:373, and steps are not modelled).
-/

namespace Dronecan

open PyM

/-- Elements: `wr` is the setter used at transport.py:376 and 408 (`.value = value` for primitives, plain storing
otherwise) and `rd` the reading at 366-370. -/
structure ElemOps (V S : Type) where
  wr : V → Except Err S
  rd : S → V

/-- Python's normalisation of a list index: `none` is `IndexError`. -/
def pyIndex (n : Nat) (i : Int) : Option Nat :=
  let j := if i < 0 then i + n else i
  if 0 ≤ j ∧ j < n then some j.toNat else none

/-- Python's normalisation of an insertion point or slice bound: clamped to `0..n`. -/
def pyClamp (n : Nat) (i : Int) : Nat :=
  let j := if i < 0 then i + n else i
  if j < 0 then 0 else if j > n then n else j.toNat

/-- Python's built-in `list.insert`. -/
def pyListInsert {S : Type} (l : List S) (i : Int) (x : S) : List S :=
  l.take (pyClamp l.length i) ++ x :: l.drop (pyClamp l.length i)

section
variable {V S : Type} (ops : ElemOps V S) (maxSize : Nat)

/-- `ArrayValue.__getitem__` with an integer index, transport.py:366-370. -/
def arrGet (i : Int) : PyM (List S) V := fun l =>
  match pyIndex l.length i with
  | some j => match l[j]? with
    | some x => (.ok (ops.rd x), l)
    | none => (.error .indexError, l)
  | none => (.error .indexError, l)

/-- `ArrayValue.__setitem__` with an integer index, transport.py:372-378. For primitive elements the look-up of the item
comes before the conversion, as in Python (`self.__items[idx].value = value` evaluates the target first). -/
def arrSet (i : Int) (v : V) : PyM (List S) Unit := fun l =>
  if i ≥ maxSize then (.error .indexError, l)
  else match pyIndex l.length i with
    | none => (.error .indexError, l)
    | some j => match ops.wr v with
      | .ok x => (.ok (), l.take j ++ x :: l.drop (j + 1))
      | .error e => (.error e, l)

/-- `ArrayValue.__delitem__` with an integer index, transport.py:380-381. -/
def arrDel (i : Int) : PyM (List S) Unit := fun l =>
  match pyIndex l.length i with
  | some j => (.ok (), l.take j ++ l.drop (j + 1))
  | none => (.error .indexError, l)

/-- `ArrayValue.__delitem__` with a slice `start:stop` (`none` is an omitted bound), transport.py:380-381. -/
def arrDelSlice (start stop : Option Int) : PyM (List S) Unit := fun l =>
  let a := match start with | some i => pyClamp l.length i | none => 0
  let b := match stop with | some i => pyClamp l.length i | none => l.length
  (.ok (), l.take a ++ l.drop (max a b))

/-- `ArrayValue.insert`, transport.py:402-411. -/
def arrInsert (i : Int) (v : V) : PyM (List S) Unit := fun l =>
  if i ≥ maxSize then (.error .indexError, l)
  else if l.length = maxSize then (.error .indexError, l)
  else match ops.wr v with
    | .ok x => (.ok (), pyListInsert l i x)
    | .error e => (.error e, l)

/-- `MutableSequence.append`: `self.insert(len(self), value)`. -/
def arrAppend (v : V) : PyM (List S) Unit := fun l => arrInsert ops maxSize l.length v l

/-- `MutableSequence.extend`: append the values one by one. -/
def arrExtend (vs : List V) : PyM (List S) Unit := PyM.forEach vs (arrAppend ops maxSize)

/-- `MutableSequence.pop`: read the item, delete it, return it. -/
def arrPop (i : Int := -1) : PyM (List S) V :=
  arrGet ops i >>- fun v =>
  arrDel i >>- fun _ =>
  PyM.pure v

/-- The loop of `ArrayValue.clear`, transport.py:393-398: pop until `IndexError`. The first argument bounds the number
of iterations so that the definition is total (`diverge` is proved unreachable for the bound used by `arrClear`). -/
def arrClearLoop : Nat → PyM (List S) Unit
  | 0 => PyM.raise .diverge
  | fuel + 1 => fun l =>
    match arrPop ops (-1) l with
    | (.ok _, l) => arrClearLoop fuel l
    | (.error .indexError, l) => (.ok (), l)
    | (.error e, l) => (.error e, l)

/-- `ArrayValue.clear`, transport.py:393-398. -/
def arrClear : PyM (List S) Unit := fun l => arrClearLoop ops (l.length + 1) l

/-- The loop of `Sequence.index`: look at `self[i]`, `self[i+1]`, ... until the value or the end is found. The first
argument bounds the number of iterations. -/
def arrIndexFrom [DecidableEq V] (v : V) : Nat → Nat → PyM (List S) Nat
  | 0, _ => PyM.raise .diverge
  | fuel + 1, i => fun l =>
    match arrGet ops i l with
    | (.ok w, l) => if w = v then (.ok i, l) else arrIndexFrom v fuel (i + 1) l
    | (.error .indexError, l) => (.error .valueError, l)
    | (.error e, l) => (.error e, l)

/-- `MutableSequence.remove`: `del self[self.index(value)]`. -/
def arrRemove [DecidableEq V] (v : V) : PyM (List S) Unit := fun l =>
  match arrIndexFrom ops v (l.length + 1) 0 l with
  | (.ok i, l) => arrDel i l
  | (.error e, l) => (.error e, l)

/-- The loop of `MutableSequence.reverse`: swap the items `i` and `n - i - 1` for the first `k` positions starting with
`i`. -/
def arrReverseFrom (n : Nat) : Nat → Nat → PyM (List S) Unit
  | 0, _ => PyM.pure ()
  | k + 1, i =>
    arrGet ops ((n : Int) - i - 1) >>- fun a =>
    arrGet ops i >>- fun b =>
    arrSet ops maxSize i a >>- fun _ =>
    arrSet ops maxSize ((n : Int) - i - 1) b >>- fun _ =>
    arrReverseFrom n k (i + 1)

/-- `MutableSequence.reverse`. -/
def arrReverse : PyM (List S) Unit := fun l => arrReverseFrom ops maxSize l.length (l.length / 2) 0 l

/-- `ArrayValue.from_bytes` (transport.py:454-457) and `encode` of a string-like array (462-468, after the UTF-8
conversion): empty the array and append every element. -/
def arrAssignAll (vs : List V) : PyM (List S) Unit :=
  arrDelSlice none none >>- fun _ =>
  arrExtend ops maxSize vs

/-- Array branch of `CompoundValue.__setattr__`, transport.py:588-598: any exception becomes `AttributeError`. -/
def arrSetAttr (vs : List V) : PyM (List S) Unit := fun l =>
  match arrClear ops l with
  | (.error e, l) => (.error e, l)
  | (.ok _, l) => match arrExtend ops maxSize vs l with
    | (.ok _, l) => (.ok (), l)
    | (.error _, l) => (.error .attributeError, l)

/-- The operations a user can perform on an array field. -/
inductive ArrOp (V : Type) where
  | append (v : V)
  | insert (i : Int) (v : V)
  | setItem (i : Int) (v : V)
  | delItem (i : Int)
  | delSlice (start stop : Option Int)
  | pop (i : Int)
  | remove (v : V)
  | reverse
  | clear
  | extend (vs : List V)
  | assign (vs : List V)
  | fromBytes (vs : List V)

/-- Execute one operation (the value returned by `pop` is dropped). -/
def arrExec [DecidableEq V] : ArrOp V → PyM (List S) Unit
  | .append v => arrAppend ops maxSize v
  | .insert i v => arrInsert ops maxSize i v
  | .setItem i v => arrSet ops maxSize i v
  | .delItem i => arrDel i
  | .delSlice a b => arrDelSlice a b
  | .pop i => arrPop ops i >>- fun _ => PyM.pure ()
  | .remove v => arrRemove ops v
  | .reverse => arrReverse ops maxSize
  | .clear => arrClear ops
  | .extend vs => arrExtend ops maxSize vs
  | .assign vs => arrSetAttr ops maxSize vs
  | .fromBytes vs => arrAssignAll ops maxSize vs

/-- A history of operations; exceptions are caught by the user, who carries on. Returns what every operation did and the
final contents. -/
def arrRun [DecidableEq V] : List (ArrOp V) → List S → List (Except Err Unit) × List S
  | [], l => ([], l)
  | op :: rest, l =>
    let (r, l) := arrExec ops maxSize op l
    let (rs, l) := arrRun rest l
    (r :: rs, l)

end
end Dronecan
