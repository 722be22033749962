import Verif.Model.TextField
import Verif.Model.Parser

/-!
# Model of the log message monitor (dronecan/app/log_message_monitor.py)

The definition of `uavcan.protocol.debug.LogMessage` is not part of the library: a structure `level` with one field `value` of three bits, and
the texts `source` and `text`, arrays of `uint8`. The capacities of the texts and the cast modes are left open.
-/

namespace Dronecan
namespace LogMonitor
open Parser

/-- The functions of the logger (log_message_monitor.py:27). -/
inductive Level where
  | debug | info | warning | error
deriving DecidableEq, Repr

/-- The cast modes of the three fields and the capacities of the texts. -/
structure Shape where
  levelTrunc : Bool := false
  sourceTrunc : Bool := false
  textTrunc : Bool := false
  sourceMax : Nat := 31
  textMax : Nat := 90

/-- The type of the message. -/
def Shape.type (d : Shape) : Ty :=
  .comp false [.comp false [.prim ⟨.unsigned, 3, d.levelTrunc⟩], .arr (.prim ⟨.unsigned, 8, d.sourceTrunc⟩) true d.sourceMax,
    .arr (.prim ⟨.unsigned, 8, d.textTrunc⟩) true d.textMax]

/-- A text of the program, by code points. -/
def points (s : String) : List Nat := s.toList.map Char.toNat

/-- `'{0:03d}'.format(n)`. -/
def format03 (n : Nat) : List Nat := List.replicate (3 - (decimal n).length) 48 ++ (decimal n).map Char.toNat

/-- `(logger.debug, logger.info, logger.warning, logger.error)[i]` (log_message_monitor.py:27); `none` is `IndexError`. -/
def levelAt (i : Int) : Option Level :=
  match pyIndex 4 i with
  | some 0 => some .debug
  | some 1 => some .info
  | some 2 => some .warning
  | some 3 => some .error
  | _ => none

/-- `LogMessageMonitor._on_message` (log_message_monitor.py:24-27): the call of the logger, or the exception. The source of the transfer is
`node`. A level that has no bits reads as `None`, which is no index; the fields of a received message have bits. -/
def onMessage (d : Shape) (node : Nat) (message : Val) : Except Err (Level × List Nat) :=
  match message with
  | .comp _ [.comp _ [.prim level], .arr source, .arr text] =>
    match TextField.decode ⟨.unsigned, 8, d.sourceTrunc⟩ true source with
    | .error e => .error e
    | .ok source =>
      match TextField.decode ⟨.unsigned, 8, d.textTrunc⟩ true text with
      | .error e => .error e
      | .ok text =>
        let logmsg := points "LogMessageMonitor [#" ++ format03 node ++ points ":" ++ source ++ points "] " ++ text
        match getInt ⟨.unsigned, 3, d.levelTrunc⟩ level with
        | none => .error .typeError
        | some i =>
          match levelAt i with
          | some f => .ok (f, logmsg)
          | none => .error .indexError
  | _ => .error .attributeError

end LogMonitor
end Dronecan
