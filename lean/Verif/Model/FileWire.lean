import Verif.Model.FileServer
import Verif.Model.TextField
import Verif.Model.Node

/-!
# The messages of the file server (dronecan/app/file_server.py)

`Verif/Model/FileServer.lean` models what the handlers of the server do with paths and offsets; here they work on the messages that arrive.

The definitions of `uavcan.protocol.file` are not part of the library. A `Path` has one field `path`, an array of `uint8`; an `Error` has one
field `value` of type `int16` with `OK = 0` and `UNKNOWN_ERROR = 32767`; an `EntryType` has one field `flags` of type `uint8` with
`FLAG_FILE = 1` and `FLAG_READABLE = 8`. The capacities of the arrays and the cast modes are left open.
-/

namespace Dronecan
namespace FileWire
open Files PyM

/-- The cast modes and the capacities. -/
structure Shape where
  offsetTrunc : Bool := true
  pathTrunc : Bool := false
  errorTrunc : Bool := false
  dataTrunc : Bool := false
  sizeTrunc : Bool := true
  flagsTrunc : Bool := false
  pathMax : Nat := 200
  dataMax : Nat := 256

/-- `uavcan.protocol.file.Path`. -/
def Shape.path (d : Shape) : Ty := .comp false [.arr (.prim ⟨.unsigned, 8, d.pathTrunc⟩) true d.pathMax]

/-- `uavcan.protocol.file.Error`. -/
def Shape.error (d : Shape) : Ty := .comp false [.prim ⟨.signed, 16, d.errorTrunc⟩]

/-- The request of `uavcan.protocol.file.Read`: `offset` and `path`. -/
def Shape.readRequest (d : Shape) : Ty := .comp false [.prim ⟨.unsigned, 40, d.offsetTrunc⟩, d.path]

/-- The response: `error` and `data`. -/
def Shape.readResponse (d : Shape) : Ty := .comp false [d.error, .arr (.prim ⟨.unsigned, 8, d.dataTrunc⟩) true d.dataMax]

/-- The request of `uavcan.protocol.file.GetInfo`: `path`. -/
def Shape.infoRequest (d : Shape) : Ty := .comp false [d.path]

/-- The response: `size`, `error` and `entry_type`. -/
def Shape.infoResponse (d : Shape) : Ty :=
  .comp false [.prim ⟨.unsigned, 40, d.sizeTrunc⟩, d.error, .comp false [.prim ⟨.unsigned, 8, d.flagsTrunc⟩]]

/-- A new object, and assignments to its attributes; the first exception ends it. -/
def build (t : Ty) (ops : List (List PathStep × ObjOp)) : Except Err Val :=
  ops.foldlM (fun v op => match access t v op.1 op.2 with
    | (.ok _, v) => .ok v
    | (.error e, _) => .error e) (newVal t)

/-- `path.path.decode()` (file_server.py:61, 74, 92). -/
def decodePath (d : Shape) (items : List Val) : Except Err Str :=
  match TextField.decode ⟨.unsigned, 8, d.pathTrunc⟩ true items with
  | .ok text => .ok (text.map Char.ofNat)
  | .error e => .error e

/-- The response made in the `except` part of `_read` (file_server.py:102-103). -/
def readFailed (d : Shape) : Except Err Val := build d.readResponse [([.field 0], .set 0 (.int 32767))]

/-- `_read` (file_server.py:90-105): the call of the logger, which decodes the path and formats the offset, comes before the `try`. -/
def onRead (d : Shape) (fs : FS) (request : Val) : PyM Server Val := fun s =>
  match request with
  | .comp _ [.prim offset, .comp _ [.arr path]] =>
    match decodePath d path with
    | .error e => (.error e, s)
    | .ok p =>
      match getInt ⟨.unsigned, 40, d.offsetTrunc⟩ offset with
      | none => (.error .typeError, s)
      | some o =>
        match Files.read fs (some p) o.toNat { s with maxSize := d.dataMax } with
        | (.error e, s) => (.error e, s)
        | (.ok .unknownError, s) => (readFailed d, s)
        | (.ok (.ok data), s) =>
          match build d.readResponse [([], .set 1 (.list (data.map fun b => .int b.toNat))), ([.field 0], .set 0 (.int 0))] with
          | .ok v => (.ok v, s)
          | .error _ => (readFailed d, s)
  | _ => (.error .attributeError, s)

/-- The response made in the `except` part of `_get_info` (file_server.py:85-86). -/
def infoFailed (d : Shape) : Except Err Val := build d.infoResponse [([.field 1], .set 0 (.int 32767))]

/-- `_get_info` (file_server.py:72-88). -/
def onInfo (d : Shape) (fs : FS) (request : Val) : PyM Server Val := fun s =>
  match request with
  | .comp _ [.comp _ [.arr path]] =>
    match decodePath d path with
    | .error e => (.error e, s)
    | .ok p =>
      match Files.getInfo fs (some p) s with
      | (.error e, s) => (.error e, s)
      | (.ok .unknownError, s) => (infoFailed d, s)
      | (.ok (.ok size), s) =>
        match build d.infoResponse [([.field 1], .set 0 (.int 0)), ([], .set 0 (.int size)), ([.field 2], .set 0 (.int 9))] with
        | .ok v => (.ok v, s)
        | .error _ => (infoFailed d, s)
  | _ => (.error .attributeError, s)

/-- The handler `_read` as the node calls it (file_server.py:48, node.py:171): it calls nothing of the node, raises, or returns a response of
type `dt`. What it returns does not depend on the counters of the server. -/
def readScript (d : Shape) (dt : DataType) (fs : FS) (s : Server) (tr : InTransfer) : Script :=
  match (onRead d fs tr.payload s).1 with
  | .ok v => { result := some ⟨dt, v⟩ }
  | .error e => { acts := [(.raise e, false)] }

end FileWire
end Dronecan
