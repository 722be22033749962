import Verif.Model.Bits

/-!
# Model of Python's UTF-8 codec

`bytearray(s, encoding='utf-8', errors='strict')` (transport.py:466) and `bytearray(...).decode('utf-8')` (transport.py:473) as CPython
does them. A text is the list of its code points, numbers below 0x110000; Python strings may contain surrogates, which have no UTF-8 form.
-/

namespace Dronecan
namespace Utf8

/-- The bytes of one code point; `none` is `UnicodeEncodeError`. -/
def encodeChar (c : Nat) : Option (List Nat) :=
  if c < 0x80 then some [c]
  else if c < 0x800 then some [0xC0 ||| (c >>> 6), 0x80 ||| (c &&& 0x3F)]
  else if 0xD800 ≤ c ∧ c ≤ 0xDFFF then none
  else if c < 0x10000 then some [0xE0 ||| (c >>> 12), 0x80 ||| ((c >>> 6) &&& 0x3F), 0x80 ||| (c &&& 0x3F)]
  else some [0xF0 ||| (c >>> 18), 0x80 ||| ((c >>> 12) &&& 0x3F), 0x80 ||| ((c >>> 6) &&& 0x3F), 0x80 ||| (c &&& 0x3F)]

/-- `str.encode('utf-8')`. -/
def encode : List Nat → Option (List Nat)
  | [] => some []
  | c :: cs =>
    match encodeChar c, encode cs with
    | some a, some b => some (a ++ b)
    | _, _ => none

/-- A continuation byte. -/
def cont (b : Nat) : Bool := 0x80 ≤ b && b ≤ 0xBF

/-- The second byte after each leading byte of three bytes: no overlong forms, no surrogates. -/
def second3 (a b : Nat) : Bool := cont b && (a != 0xE0 || 0xA0 ≤ b) && (a != 0xED || b ≤ 0x9F)

/-- The second byte after each leading byte of four bytes: no overlong forms, nothing above 0x10FFFF. -/
def second4 (a b : Nat) : Bool := cont b && (a != 0xF0 || 0x90 ≤ b) && (a != 0xF4 || b ≤ 0x8F)

/-- `bytes.decode('utf-8')`; `none` is `UnicodeDecodeError`. The cases are those of table 3-7 of the Unicode standard, which CPython
follows. -/
def decode : List Nat → Option (List Nat)
  | [] => some []
  | a :: rest =>
    if a < 0x80 then (decode rest).map (a :: ·)
    else if 0xC2 ≤ a ∧ a ≤ 0xDF then
      match rest with
      | b :: rest =>
        if cont b then (decode rest).map ((((a &&& 0x1F) <<< 6) ||| (b &&& 0x3F)) :: ·) else none
      | _ => none
    else if 0xE0 ≤ a ∧ a ≤ 0xEF then
      match rest with
      | b :: c :: rest =>
        if second3 a b && cont c then
          (decode rest).map ((((a &&& 0xF) <<< 12) ||| ((b &&& 0x3F) <<< 6) ||| (c &&& 0x3F)) :: ·)
        else none
      | _ => none
    else if 0xF0 ≤ a ∧ a ≤ 0xF4 then
      match rest with
      | b :: c :: d :: rest =>
        if second4 a b && cont c && cont d then
          (decode rest).map ((((a &&& 7) <<< 18) ||| ((b &&& 0x3F) <<< 12) ||| ((c &&& 0x3F) <<< 6) ||| (d &&& 0x3F)) :: ·)
        else none
      | _ => none
    else none

end Utf8
end Dronecan
