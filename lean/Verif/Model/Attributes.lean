import Verif.Model.Bits
import Verif.Model.Dict

/-!
# Model of the attributes that load_dsdl creates (dronecan/__init__.py:99-122, 185-225)

A full name is given by the components of its namespace and the short name; as components contain no dots (parser.py:770-782),
`partition('.')` and `rpartition('.')` split between them. Attributes of data types are not modelled. Of the globals of the module only those
assigned by `load_dsdl` are modelled.
-/

namespace Dronecan
namespace Attributes

/-- What is used of a data type: its full name and its identity. -/
structure DType where
  path : List String
  name : String
  id : Nat
deriving DecidableEq, Repr

/-- A data type, or a `Namespace` (dronecan/__init__.py:99-103) with its set `__namespaces` and its other attributes. -/
inductive Obj where
  | type (t : DType)
  | ns (names : List String) (attrs : List (String × Obj))

/-- `Namespace()` (dronecan/__init__.py:102-103). -/
def empty : Obj := .ns [] []

/-- `root._path(path).__dict__[name] = dtype` (dronecan/__init__.py:106-118, 188); `_path` descends from attribute to attribute and creates what is
missing. A data type has no `_path`. -/
def assign (t : DType) : List String → Obj → Except Err Obj
  | _, .type _ => .error .attributeError
  | [], .ns names attrs => .ok (.ns names (Dict.set attrs t.name (.type t)))
  | a :: path, .ns names attrs =>
    match Dict.get? attrs a with
    | none =>
      match assign t path empty with
      | .ok o => .ok (.ns (names ++ [a]) (Dict.set attrs a o))
      | .error e => .error e
    | some o =>
      match assign t path o with
      | .ok o => .ok (.ns names (Dict.set attrs a o))
      | .error e => .error e

/-- The loop over the data types (dronecan/__init__.py:186-188). -/
def assignAll : List DType → Obj → Except Err Obj
  | [], root => .ok root
  | t :: ts, root =>
    match assign t t.path root with
    | .ok root => assignAll ts root
    | .error e => .error e

/-- `root._path(n)` for a name without dots: the root afterwards, and the object. -/
def child (n : String) : Obj → Except Err (Obj × Obj)
  | .type _ => .error .attributeError
  | .ns names attrs =>
    match Dict.get? attrs n with
    | none => .ok (.ns (names ++ [n]) (Dict.set attrs n empty), empty)
    | some o => .ok (.ns names attrs, o)

/-- A new `Namespace` with those attributes of another one that were created as namespaces and satisfy a condition
(dronecan/__init__.py:216-218, 220-224). -/
def copy (keep : String → Bool) : Obj → Except Err Obj
  | .type _ => .error .attributeError
  | .ns names attrs => .ok (.ns [] (names.foldl (fun d a =>
      match keep a, Dict.get? attrs a with
      | true, some o => Dict.set d a o
      | _, _ => d) []))

/-- `toplevel` (dronecan/__init__.py:214). -/
def toplevel : List String := ["dronecan", "uavcan", "ardupilot", "com", "cuav"]

/-- The attributes of the module that `load_dsdl` assigns. -/
abbrev Mod := List (String × Obj)

/-- The loop over `toplevel` (dronecan/__init__.py:215-219). -/
def publish : List String → Obj → Mod → Except Err (Obj × Mod)
  | [], root, m => .ok (root, m)
  | n :: ns, root, m =>
    match child n root with
    | .error e => .error e
    | .ok (root, o) =>
      match copy (fun _ => true) o with
      | .error e => .error e
      | .ok c => publish ns root (Dict.set m n c)

/-- `load_dsdl` after parsing (dronecan/__init__.py:184-225). -/
def load (ts : List DType) (m : Mod) : Except Err Mod :=
  match assignAll ts empty with
  | .error e => .error e
  | .ok root =>
    match publish toplevel root m with
    | .error e => .error e
    | .ok (root, m) =>
      match copy (fun a => a != "uavcan") root with
      | .error e => .error e
      | .ok c => .ok (Dict.set m "thirdparty" c)

/-- Several calls. -/
def loads : List (List DType) → Mod → Except Err Mod
  | [], m => .ok m
  | ts :: calls, m =>
    match load ts m with
    | .error e => .error e
    | .ok m => loads calls m

/-- `getattr` along a chain of names. -/
def lookup : List String → Obj → Option Obj
  | [], o => some o
  | _ :: _, .type _ => none
  | a :: path, .ns _ attrs =>
    match Dict.get? attrs a with
    | none => none
    | some o => lookup path o

/-- The data type that the expression `dronecan.a.b.c` stands for. -/
def typeOf (m : Mod) (path : List String) : Option DType :=
  match lookup path (.ns [] m) with
  | some (.type t) => some t
  | _ => none

end Attributes
end Dronecan
