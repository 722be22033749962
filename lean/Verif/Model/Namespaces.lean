import Verif.Model.Dict
import Verif.Model.Struct
import Verif.Model.Crc

/-!
# Model of loading sets of definitions (dronecan/dsdl/parser.py: parse_namespaces; dronecan/__init__.py: load_dsdl)

Files are strings; the files found below a list of directories are a list in any order. Parsing one file is an arbitrary
function here (`Model/Parser.lean` models it). Exceptions of the parser are passed on.
-/

namespace Dronecan
namespace Namespaces

/-- `KIND_SERVICE`, `KIND_MESSAGE` (parser.py:212-213). -/
inductive Kind where
  | service
  | message
deriving DecidableEq, Repr

/-- What is used of a `CompoundType` here. `dsdlSignature` and `dataTypeSignature` are what the two methods return; `rest` stands for everything
else that the object has. -/
structure Parsed (α : Type) where
  fullName : String
  kind : Kind
  defaultDtid : Option Nat
  dsdlSignature : Int
  dataTypeSignature : Nat
  rest : α
deriving DecidableEq, Repr

variable {α : Type}

/-- `all_default_dtid` (parser.py:858): the types seen by kind and data type ID. -/
abbrev Seen (α : Type) := Dict (Kind × Nat) (Parsed α)

/-- `ensure_unique_dtid` (parser.py:861-875). -/
def ensureUnique (seen : Seen α) (t : Parsed α) : Except Err (Seen α) :=
  match t.defaultDtid with
  | none => .ok seen
  | some i =>
    match seen.get? (t.kind, i) with
    | some first => if t.dsdlSignature ≠ first.dsdlSignature then .error .dsdlException else .ok seen
    | none => .ok (seen.set (t.kind, i) t)

/-- One of the two loops (parser.py:880-882, 884-887). -/
def parseAll (parse : String → Except Err (Parsed α)) : List String → Seen α → Except Err (List (Parsed α) × Seen α)
  | [], seen => .ok ([], seen)
  | f :: fs, seen => do
    let t ← parse f
    let seen ← ensureUnique seen t
    let (ts, seen) ← parseAll parse fs seen
    .ok (t :: ts, seen)

/-- `parse_namespaces` (parser.py:818-888). `none` is an absent list of search directories. -/
def parseNamespaces (parse : String → Except Err (Parsed α)) (source : List String) (search : Option (List String)) : Except Err (List (Parsed α)) := do
  let (_, seen) ← parseAll parse (search.getD []) []
  let (ts, _) ← parseAll parse source seen
  .ok ts

/-- An entry of `DATATYPES`: the type and its `base_crc`. -/
structure Entry (α : Type) where
  type : Parsed α
  baseCrc : BitVec 16
deriving DecidableEq, Repr

/-- The two tables of the package (dronecan/__init__.py:126-127). -/
structure Tables (α : Type) where
  datatypes : Dict (Nat × Kind) (Entry α) := []
  typenames : Dict String (Parsed α) := []
deriving DecidableEq, Repr

/-- The body of the loop of `load_dsdl` (dronecan/__init__.py:187-195), as far as the tables are concerned.
A data type ID of zero is falsy. -/
def register (tb : Tables α) (t : Parsed α) : Tables α :=
  let tb := { tb with typenames := tb.typenames.set t.fullName t }
  match t.defaultDtid with
  | none => tb
  | some i =>
    if i = 0 then tb
    else { tb with datatypes := tb.datatypes.set (i, t.kind) ⟨t, crc16 0xFFFF (packLE 8 t.dataTypeSignature)⟩ }

/-- `load_dsdl` (dronecan/__init__.py:131-212), given the files found. The namespaces created are modelled in `Model.Attributes`. -/
def loadDsdl (parse : String → Except Err (Parsed α)) (files : List String) (tb : Tables α) : Except Err (Tables α) := do
  let ts ← parseNamespaces parse files none
  .ok (ts.foldl register tb)

end Namespaces
end Dronecan
