import Verif.Model.Namespaces
import Verif.Model.Parser
import Verif.Model.Node

/-!
# Model of the types that nodes use (dronecan/__init__.py: load_dsdl; dronecan/transport.py: the lookups of `Transfer`)

This joins the models of the parser (`Model/Parser.lean`), of the tables (`Model/Namespaces.lean`) and of transfers
(`Model/Transfer.lean`).
-/

namespace Dronecan
namespace Loaded
open Parser Text Namespaces

/-- How a type is laid out, as far as serialization looks at it (transport.py:165-204, 256-300, 315-370): the attributes of the type objects
that the parser makes (parser.py:40-350), without names. -/
def layout (a : Attrs) : Ty := .comp a.isUnion (go (a.fields.map Field.type))
where
  one : PTy → Ty
    | .void n => .void n
    | .prim p => .prim p
    | .array e dynamic m => .arr (one e) dynamic m
    | .compound _ _ isUnion _ types => .comp isUnion (go types)
  go : List PTy → List Ty
    | [] => []
    | t :: ts => one t :: go ts

/-- The layout of the response, for services. -/
def responseLayout : Option Attrs → Ty
  | some r => layout r
  | none => .comp false []

/-- A computer: its files, its `eval`, the directories given (parser.py:411-416) and the recursion limit. -/
structure Computer where
  fs : FS
  eval : Str → Option PyVal
  dirs : List Str
  depth : Nat

/-- `Parser.parse` (parser.py:633-647) there. -/
def Computer.parse (c : Computer) (filename : String) : Except Err Def := Parser.parse c.fs c.eval c.dirs c.depth filename.toList

/-- The `CompoundType` of a definition (parser.py:676-720). The ID is not negative if the parser has accepted it (parser.py:789-800). -/
def parsedOf (d : Def) : Parsed Def where
  fullName := String.ofList d.fullName
  kind := if d.response.isSome then .service else .message
  defaultDtid := d.defaultDtid.map Int.toNat
  dsdlSignature := d.dsdlSignature
  dataTypeSignature := d.dataTypeSignature
  rest := d

/-- `load_dsdl` (dronecan/__init__.py:131-212) there, given the files found. -/
def Computer.load (c : Computer) (files : List String) (tb : Tables Def) : Except Err (Tables Def) :=
  loadDsdl (fun f => (c.parse f).map parsedOf) files tb

/-- What `Transfer` uses of a type object (transport.py:702-710, 839-857), if it has a `base_crc`: that is given to those with a data type ID that
is not zero (dronecan/__init__.py:192-195). -/
def typeOf (d : Def) : Option DataType :=
  match d.defaultDtid.map Int.toNat with
  | none => none
  | some i =>
    if i = 0 then none
    else some {
      dtid := i
      baseCrc := crc16 0xFFFF (packLE 8 d.dataTypeSignature)
      msg := layout d.body
      resp := responseLayout d.response }

/-- `DATATYPES.get((data_type_id, kind))` (transport.py:831-842) and what `Transfer` uses of the result. -/
def registry (tb : Tables Def) : Registry := fun i service =>
  match tb.datatypes.get? (i, if service then .service else .message) with
  | none => none
  | some e => some {
      dtid := e.type.defaultDtid.getD 0
      baseCrc := e.baseCrc
      msg := layout e.type.rest.body
      resp := responseLayout e.type.rest.response }

end Loaded
end Dronecan
