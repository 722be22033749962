import Verif.Model.Compound
import Verif.Model.Parser

/-!
# The names of attributes

Model of the lookup of names in `CompoundValue.__init__`, `__getattr__` and `__setattr__` (transport.py:478-520, 547-603); what happens to the field with
the name is `Verif/Model/Compound.lean`.

Simplifications: the values of constants are integers; floating-point fields cannot be written (as in `Compound`); the attributes that the class uses for
itself, all of which begin with `_`, are left out.
-/

namespace Dronecan
namespace Names
open Parser Text

/-- The fields and constants of a message, or of the request or the response of a service (transport.py:484-500). Fields without name are void. -/
structure Cls where
  isUnion : Bool := false
  fields : List (Option Str × Ty)
  constants : List (Str × Int) := []

/-- The type. -/
def Cls.ty (c : Cls) : Ty := .comp c.isUnion (c.fields.map (·.2))

/-- The keys of `_fields` (transport.py:507-515). -/
def Cls.keys (c : Cls) : List Str := c.fields.mapIdx fun i f => f.1.getD (lit "_void_" ++ decimal i)

/-- The place of a name in `_fields`. -/
def Cls.position (c : Cls) (name : Str) : Option Nat := c.keys.findIdx? (· == name)

/-- An object: its fields, and the attributes that Python has given it. -/
structure Obj where
  val : Val
  attrs : List (Str × Arg) := []

inductive Exc where
  | nameError
  | raised (e : Err)
deriving DecidableEq

/-- What reading an attribute yields. -/
inductive Got where
  | constant (x : Int)
  | field (v : Val)
  | plain (a : Arg)
deriving DecidableEq

/-- `object.__setattr__`. -/
def store (name : Str) (a : Arg) : List (Str × Arg) → List (Str × Arg)
  | [] => [(name, a)]
  | (n, b) :: rest => if n = name then (n, a) :: rest else (n, b) :: store name a rest

/-- Reading an attribute: what Python finds by itself, or `__getattr__` (transport.py:547-562). -/
def getattr (c : Cls) (name : Str) (o : Obj) : Except Err Got × Obj :=
  match o.attrs.lookup name with
  | some a => (.ok (.plain a), o)
  | none => match c.constants.lookup name with
    | some x => (.ok (.constant x), o)
    | none => match c.position name with
      | some i => match execOp c.ty o.val (.get i) with
        | (.ok (some v), w) => (.ok (.field v), { o with val := w })
        | (.ok none, w) => (.error .attributeError, { o with val := w })
        | (.error e, w) => (.error e, { o with val := w })
      | none => (.error .attributeError, o)

/-- `__setattr__` (transport.py:564-603). -/
def setattr (c : Cls) (name : Str) (a : Arg) (o : Obj) : Except Err Unit × Obj :=
  match c.constants.lookup name with
  | some _ => (.error .attributeError, o)
  | none => match c.position name with
    | some i => match execOp c.ty o.val (.set i a) with
      | (.ok _, w) => (.ok (), { o with val := w })
      | (.error e, w) => (.error e, { o with val := w })
    | none => (.ok (), { o with attrs := store name a o.attrs })

/-- The keyword arguments of the constructor (transport.py:517-520). -/
def setAll (c : Cls) : List (Str × Arg) → Obj → Except Exc Obj
  | [], o => .ok o
  | (name, a) :: rest, o =>
    if name.head? = some '_' then .error .nameError
    else match setattr c name a o with
      | (.error e, _) => .error (.raised e)
      | (.ok _, o) => setAll c rest o

/-- `CompoundValue(type, mode, **kwargs)` (transport.py:478-520). -/
def construct (c : Cls) (kwargs : List (Str × Arg)) : Except Exc Obj := setAll c kwargs { val := newVal c.ty }

end Names
end Dronecan
