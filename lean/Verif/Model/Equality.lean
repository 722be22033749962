import Verif.Model.FloatField
import Verif.Model.TextField

/-!
# Model of comparisons of array fields (dronecan/transport.py)

`ArrayValue.__eq__` (transport.py:385-389) and the methods `__contains__`, `index` and `count` that `ArrayValue` inherits from
`collections.abc.Sequence`. Python objects are modelled as far as comparisons can tell them apart: numbers by their values (`bool` is a
subclass of `int`), texts by their code points, message objects (`CompoundValue` defines no `__eq__`) by their identities. Every reading of
an element of a primitive type makes a new number object, so that the test for identity which Python makes before `==` in lists never
succeeds for NaN. Elements of other types are taken to be message objects.
-/

namespace Dronecan
namespace Equality
open FloatField (Num)

/-- The type of the elements of an array; arrays of arrays do not exist (parser.py:505-506). -/
inductive Elem where
  | int (p : PrimTy)
  | float (bitlen : Nat) (truncated : Bool)
  | compound
deriving DecidableEq, Repr

/-- An element as it is stored: `PrimitiveValue._bits`, or a message object. -/
inductive Cell where
  | bits (b : Bits)
  | obj (id : Nat)
deriving DecidableEq, Repr

/-- An object in a list, or an element of an array as it is read. `other` is any object that is no number, text or message (`None`, say). -/
inductive Item where
  | num (x : Num)
  | obj (id : Nat)
  | text (s : List Nat)
  | other
deriving DecidableEq, Repr

/-- An array (transport.py:338-355). -/
structure Arr where
  elem : Elem
  dynamic : Bool
  items : List Cell
deriving DecidableEq, Repr

/-- What an array is compared with. `other` is any object that is no string, list or array (a tuple, `bytes`, a number, `None`). -/
inductive Operand where
  | text (s : List Nat)
  | list (l : List Item)
  | arr (a : Arr)
  | other

/-- `a == b` for numbers; integers and floats are compared exactly. -/
def numEq : Num → Num → Bool
  | .int a, .int b => a == b
  | .int a, .float (.fin neg q) => (a : Rat) == (if neg then -q else q)
  | .float (.fin neg q), .int b => (if neg then -q else q) == (b : Rat)
  | .float (.fin neg q), .float (.fin neg' q') => (if neg then -q else q) == (if neg' then -q' else q')
  | .float (.inf neg), .float (.inf neg') => neg == neg'
  | _, _ => false

/-- `a is b or a == b` for an object `a` that has been read from an array and an object `b`, or the other way round. -/
def itemEq : Item → Item → Bool
  | .num a, .num b => numEq a b
  | .obj i, .obj j => i == j
  | .text s, .text t => s == t
  | _, _ => false

/-- Reading an element (transport.py:366-370). -/
def read (e : Elem) : Cell → Except Err Item
  | .obj id => .ok (.obj id)
  | .bits b =>
    if b = [] then .ok (.num (.int 0))
    else match e with
      | .int p => match getInt p b with
        | some v => .ok (.num (.int v))
        | none => .error .typeError
      | .float n _ => match FloatField.get n b with
        | .ok (some x) => .ok (.num (.float x))
        | .ok none => .error .typeError
        | .error e => .error e
      | .compound => .error .typeError

/-- `a[i]` (transport.py:366-370). -/
def getItem (a : Arr) (i : Int) : Except Err Item :=
  match pyIndex a.items.length i with
  | some j => match a.items[j]? with
    | some c => read a.elem c
    | none => .error .indexError
  | none => .error .indexError

/-- `list(a)`: the elements one after the other. -/
def readAll (e : Elem) : List Cell → Except Err (List Item)
  | [] => .ok []
  | c :: cs =>
    match read e c with
    | .error e => .error e
    | .ok v => match readAll e cs with
      | .error e => .error e
      | .ok vs => .ok (v :: vs)

/-- `list.__eq__` for two lists. -/
def listEq : List Item → List Item → Bool
  | [], [] => true
  | a :: as, b :: bs => itemEq a b && listEq as bs
  | _, _ => false

/-- An element as the model of texts has it. -/
def cellVal : Cell → Val
  | .bits b => .prim b
  | .obj _ => .void

/-- `ArrayValue.decode` (transport.py:470-473). -/
def decode (a : Arr) : Except Err (List Nat) :=
  match a.elem with
  | .int p => TextField.decode p a.dynamic (a.items.map cellVal)
  | _ => .error .valueError

/-- `list(a) == l` for a list `l`. -/
def eqList (a : Arr) (l : List Item) : Except Err Bool :=
  match readAll a.elem a.items with
  | .error e => .error e
  | .ok vs => .ok (listEq vs l)

/-- `ArrayValue.__eq__` (transport.py:385-389). A list does not know how to compare itself with an array, so that the array is asked; it
answers `False` to all other objects, which do not know either. -/
def eq (a : Arr) : Operand → Except Err Bool
  | .text s => match decode a with
    | .error e => .error e
    | .ok t => .ok (t == s)
  | .list l => eqList a l
  | .arr b => match readAll a.elem a.items with
    | .error e => .error e
    | .ok l => eqList b l
  | .other => match readAll a.elem a.items with
    | .error e => .error e
    | .ok _ => .ok false

/-- `a != x`: `object.__ne__` asks `__eq__`. -/
def ne (a : Arr) (x : Operand) : Except Err Bool :=
  match eq a x with
  | .error e => .error e
  | .ok r => .ok (!r)

/-- `v in a` (`Sequence.__contains__`; Python stops at the first equal element, which makes no difference since no reading fails). -/
def contains (a : Arr) (v : Item) : Except Err Bool :=
  match readAll a.elem a.items with
  | .error e => .error e
  | .ok vs => .ok (vs.any fun w => itemEq w v)

/-- `a.count(v)` (`Sequence.count`). -/
def count (a : Arr) (v : Item) : Except Err Nat :=
  match readAll a.elem a.items with
  | .error e => .error e
  | .ok vs => .ok (vs.countP fun w => itemEq w v)

/-- The loop of `Sequence.index` from position `i` on. -/
def indexFrom (e : Elem) (v : Item) : Nat → List Cell → Except Err Nat
  | _, [] => .error .valueError
  | i, c :: cs =>
    match read e c with
    | .error e => .error e
    | .ok w => if itemEq w v then .ok i else indexFrom e v (i + 1) cs

/-- `a.index(v)`. -/
def index (a : Arr) (v : Item) : Except Err Nat := indexFrom a.elem v 0 a.items

/-- Storing a number in an element (transport.py:309-333, 376, 408). Floats are modelled for floating-point elements only. -/
def write : Elem → Num → Except Err Cell
  | .int p, .int n => match setInt p n with
    | .ok b => .ok (.bits b)
    | .error e => .error e
  | .float n t, x => match FloatField.set n t x with
    | .ok b => .ok (.bits b)
    | .error e => .error e
  | _, _ => .error .typeError

/-- The elements after a list of numbers has been assigned and accepted (transport.py:588-598). -/
def writeAll (e : Elem) : List Num → Except Err (List Cell)
  | [] => .ok []
  | x :: xs =>
    match write e x with
    | .error e => .error e
    | .ok c => match writeAll e xs with
      | .error e => .error e
      | .ok cs => .ok (c :: cs)

end Equality
end Dronecan
