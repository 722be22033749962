import Verif.Model.Parser
import Verif.Model.Text

/-!
# The tool that explains CAN identifiers: `/repo/tools/dronecan_msgid_decode.py`
-/

namespace Dronecan
namespace MsgidDecode
open Text Parser

/-- `num` (dronecan_msgid_decode.py:15-19); `none` is `ValueError`. -/
def num (s : Str) : Option Int :=
  match int10 s with
  | some n => some n
  | none => int16 s

/-- `(x >> shift) & (2 ** width - 1)` (dronecan_msgid_decode.py:31-50). -/
def bitsOf (x : Int) (shift width : Nat) : Nat := (x / 2 ^ shift % 2 ^ width).toNat

/-- The lines printed (dronecan_msgid_decode.py:52-62). -/
def explain (x : Int) : List Str :=
  [lit "source id: " ++ Parser.decimal (bitsOf x 0 7), lit "priority: " ++ Parser.decimal (bitsOf x 24 5)] ++
  if bitsOf x 7 1 ≠ 0 then
    [lit "dest id: " ++ Parser.decimal (bitsOf x 8 7),
     (if bitsOf x 15 1 ≠ 0 then lit "srv(req) type: " else lit "srv(rsp) type: ") ++ Parser.decimal (bitsOf x 16 8)]
  else [lit "msg type: " ++ Parser.decimal (bitsOf x 8 16)]

/-- The tool with one argument (dronecan_msgid_decode.py:9-21, 52-62). Arguments that begin with `-` are options and are left out. -/
def main (arg : Str) : Option (List Str) := (num arg).map explain

end MsgidDecode
end Dronecan
