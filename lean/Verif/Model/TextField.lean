import Verif.Model.Utf8
import Verif.Model.Compound

/-!
# Model of text in array fields (dronecan/transport.py)

A field is of type `p[<=m]` or `p[m]` for an integer type `p`. A Python string is the list of its code points.
-/

namespace Dronecan
namespace TextField
open PyM

/-- `ArrayType.is_string_like` (parser.py:171-175). -/
def stringLike (p : PrimTy) (dynamic : Bool) : Bool := dynamic && p.bitlen == 8

/-- `ArrayValue.encode` with `errors='strict'` (transport.py:462-468). `UnicodeEncodeError` is a `ValueError`. -/
def encode (p : PrimTy) (dynamic : Bool) (m : Nat) (text : List Nat) : PyM (List Val) Unit :=
  if stringLike p dynamic then
    arrDelSlice none none >>- fun _ =>
    match Utf8.encode text with
    | none => PyM.raise .valueError
    | some bytes => arrExtend (valElem (.prim p)) m (bytes.map fun b => .int (Int.ofNat b))
  else PyM.raise .valueError

/-- `message.field = text`: the array branch of `CompoundValue.__setattr__` for a string (transport.py:588-598). -/
def assign (p : PrimTy) (dynamic : Bool) (m : Nat) (text : List Nat) : PyM (List Val) Unit := fun l =>
  match arrClear (valElem (.prim p)) l with
  | (.error e, l) => (.error e, l)
  | (.ok _, l) =>
    match encode p dynamic m text l with
    | (.ok _, l) => (.ok (), l)
    | (.error _, l) => (.error .attributeError, l)

/-- The numbers of the elements that have bits (transport.py:460, 473). -/
def numbers (p : PrimTy) (items : List Val) : List Int :=
  items.filterMap fun
    | .prim b => getInt p b
    | _ => none

/-- `ArrayValue.to_bytes` (transport.py:459-460): `bytearray` raises `ValueError` for numbers that are no bytes. -/
def toBytes (p : PrimTy) (items : List Val) : Except Err (List Nat) :=
  if (numbers p items).all (fun x => 0 ≤ x && x < 256) then .ok ((numbers p items).map Int.toNat) else .error .valueError

/-- `ArrayValue.decode` (transport.py:470-473). `UnicodeDecodeError` is a `ValueError`. -/
def decode (p : PrimTy) (dynamic : Bool) (items : List Val) : Except Err (List Nat) :=
  if stringLike p dynamic then
    match toBytes p items with
    | .error e => .error e
    | .ok bytes =>
      match Utf8.decode bytes with
      | some text => .ok text
      | none => .error .valueError
  else .error .valueError

/-- `message.field == text` for a string (transport.py:386-388). -/
def eqText (p : PrimTy) (dynamic : Bool) (items : List Val) (text : List Nat) : Except Err Bool :=
  match decode p dynamic items with
  | .ok s => .ok (s == text)
  | .error e => .error e

end TextField
end Dronecan
