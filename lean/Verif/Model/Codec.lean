import Verif.Model.Prim

/-!
# Serialization of values

Model of `_pack`/`_unpack` of `VoidValue`, `PrimitiveValue`, `ArrayValue` and `CompoundValue`
(transport.py:248-273, 337-473, 477-623) and of the bit-length bounds of the DSDL types
(parser.py:123-350).

Simplifications: field names are replaced by field positions (the parser guarantees distinct names); constants
do not take part in serialization; a service type is modelled by its request and its response structure separately.
-/

namespace Dronecan

/-- A DSDL data type: `VoidType` (parser.py:328-349), `PrimitiveType` (74-129), `ArrayType` (132-175; `dynamic` is
`MODE_DYNAMIC`), `CompoundType` (178-325; the field types of one message, request or response). -/
inductive Ty where
  | void (bitlen : Nat)
  | prim (p : PrimTy)
  | arr (elem : Ty) (dynamic : Bool) (maxSize : Nat)
  | comp (isUnion : Bool) (fields : List Ty)
  deriving Repr

/-- A value object: `VoidValue`, `PrimitiveValue` (its `_bits`, big-endian), `ArrayValue` (its items) and
`CompoundValue` (`_union_field` as a position, and `_fields` in order). -/
inductive Val where
  | void
  | prim (bits : Bits)
  | arr (items : List Val)
  | comp (active : Option Nat) (fields : List Val)
  deriving Repr

mutual
/-- `get_max_bitlen`, parser.py:123-125, 154-160, 224-231, 343-345. -/
def maxBitlen : Ty → Nat
  | .void n => n
  | .prim p => p.bitlen
  | .arr e dynamic m => if dynamic then m * maxBitlen e + bitLength m else m * maxBitlen e
  | .comp isUnion fs =>
    if fs.length = 0 then 0
    else if isUnion then (maxBitlens fs).foldl max 0 + bitLength (max (fs.length - 1) 1)
    else (maxBitlens fs).sum
/-- `[x.type.get_max_bitlen() for x in flds]`, parser.py:227. -/
def maxBitlens : List Ty → List Nat
  | [] => []
  | f :: fs => maxBitlen f :: maxBitlens fs
end

/-- Python's `min` of a non-empty list of numbers (parser.py:238). -/
def listMin : List Nat → Nat
  | [] => 0
  | [x] => x
  | x :: xs => min x (listMin xs)

mutual
/-- `get_min_bitlen`, parser.py:127-129, 162-166, 233-240, 347-349. -/
def minBitlen : Ty → Nat
  | .void n => n
  | .prim p => p.bitlen
  | .arr e dynamic m => if dynamic then 0 else minBitlen e * m
  | .comp isUnion fs =>
    if fs.length = 0 then 0
    else if isUnion then listMin (minBitlens fs) + bitLength (max (fs.length - 1) 1)
    else (minBitlens fs).sum
/-- `[x.type.get_min_bitlen() for x in flds]`, parser.py:236. -/
def minBitlens : List Ty → List Nat
  | [] => []
  | f :: fs => minBitlen f :: minBitlens fs
end

mutual
/-- A freshly constructed value object: `VoidValue(t)`, `PrimitiveValue(t)` (assigns 0, transport.py:277-280; the
stored bits are `bitlen` zeros for every kind), `ArrayValue(t)` (338-351), `CompoundValue(t)` (478-520). -/
def newVal : Ty → Val
  | .void _ => .void
  | .prim p => .prim (List.replicate p.bitlen false)
  | .arr e dynamic m => if dynamic then .arr [] else .arr (List.replicate m (newVal e))
  | .comp _ fs => .comp none (newVals fs)
/-- The fields of a fresh `CompoundValue`, transport.py:507-515. -/
def newVals : List Ty → List Val
  | [] => []
  | f :: fs => newVal f :: newVals fs
end

/-- `enum_mark_last` (transport.py:131-149) driving a packing loop: pack every item with `tao and last` and join the
results (transport.py:448, 457, 623). -/
def packSeq (f : Val → Bool → Except Err Bits) (tao : Bool) : List Val → Except Err Bits
  | [] => .ok []
  | [v] => f v tao
  | v :: vs => do
    let a ← f v false
    let b ← packSeq f tao vs
    pure (a ++ b)

mutual
/-- `_pack` of the four value classes: BaseValue 261-265 (for primitives), VoidValue 272-273, ArrayValue 438-452,
CompoundValue 615-623. A value that does not belong to the type (impossible in Python, where a value carries its
type) is reported as `typeError`. -/
def pack : Ty → Val → Bool → Except Err Bits
  | .void n, .void, _ => .ok (List.replicate n false)
  | .prim p, .prim bits, _ =>
    if bits ≠ [] then leFromBeBits bits p.bitlen else .ok (List.replicate p.bitlen false)
  | .arr e dynamic m, .arr items, tao =>
    let items := items.take m
    if dynamic = false then
      packSeq (fun v t => pack e v t) tao (items ++ List.replicate (m - items.length) (newVal e))
    else if tao = true ∧ minBitlen e ≥ 8 then
      packSeq (fun v _ => pack e v false) tao items
    else do
      let countWidth := arrayLenBits m
      let count ← leFromBeBits (formatBin countWidth items.length) countWidth
      let rest ← packSeq (fun v t => pack e v t) tao items
      pure (count ++ rest)
  | .comp true fs, .comp active vs, tao => do
    let tag := active.getD 0
    let body ← packNth fs vs tag tao
    pure (formatBin (unionTagBits fs.length) tag ++ body)
  | .comp false fs, .comp _ vs, tao => packFields fs vs tao
  | _, _, _ => .error .typeError
/-- `self._fields[field]._pack(tao)` for the field in position `i` (transport.py:621). -/
def packNth : List Ty → List Val → Nat → Bool → Except Err Bits
  | f :: _, v :: _, 0, tao => pack f v tao
  | _ :: fs, _ :: vs, i + 1, tao => packNth fs vs i tao
  | _, _, _, _ => .error .typeError
/-- The structure branch of `CompoundValue._pack` (transport.py:623). -/
def packFields : List Ty → List Val → Bool → Except Err Bits
  | [], [], _ => .ok []
  | [f], [v], tao => pack f v tao
  | f :: fs, v :: vs, tao => do
    let a ← pack f v false
    let b ← packFields fs vs tao
    pure (a ++ b)
  | _, _, _ => .error .typeError
end

/-- Unpack `n` items in sequence, the last one with `tao` (the loops at transport.py:415-416 and 431-434). -/
def unpackSeq (f : Bits → Bool → Except Err (Val × Bits)) (tao : Bool) :
    Nat → Bits → Except Err (List Val × Bits)
  | 0, s => .ok ([], s)
  | 1, s => do
    let (v, s) ← f s tao
    pure ([v], s)
  | n + 2, s => do
    let (v, s) ← f s false
    let (vs, s) ← unpackSeq f tao (n + 1) s
    pure (v :: vs, s)

/-- The tail-array loop `while len(stream) >= 8` (transport.py:419-423). The first argument bounds the number
of iterations so that the definition is total; running out of it yields `diverge`, which C08 proves impossible
for the bound used in `unpack`. -/
def unpackTail (f : Bits → Bool → Except Err (Val × Bits)) : Nat → Bits → Except Err (List Val)
  | fuel, s =>
    if s.length ≥ 8 then
      match fuel with
      | 0 => .error .diverge
      | fuel + 1 => do
        let (v, s) ← f s false
        let vs ← unpackTail f fuel s
        pure (v :: vs)
    else .ok []

mutual
/-- `_unpack` of the four value classes on a freshly constructed object: BaseValue 254-259, VoidValue 269-270,
ArrayValue 413-436, CompoundValue 605-613. Returns the filled object and the remaining stream. -/
def unpack : Ty → Bits → Bool → Except Err (Val × Bits)
  | .void n, s, _ => .ok (.void, s.drop n)
  | .prim p, s, _ =>
    if p.bitlen ≠ 0 then do
      let b ← beFromLeBits s p.bitlen
      pure (.prim b, s.drop p.bitlen)
    else .ok (newVal (.prim p), s)
  | .arr e dynamic m, s, tao =>
    if dynamic = false then do
      let (vs, s) ← unpackSeq (fun s t => unpack e s t) tao m s
      pure (.arr vs, s)
    else if tao = true ∧ minBitlen e ≥ 8 then do
      let vs ← unpackTail (fun s t => unpack e s t) s.length s
      pure (.arr vs, [])
    else do
      let countWidth := arrayLenBits m
      let c ← beFromLeBits (s.take countWidth) countWidth
      if c = [] then .error .valueError       -- int('', 2)
      let (vs, s) ← unpackSeq (fun s t => unpack e s t) tao (natOfBits c) (s.drop countWidth)
      pure (.arr vs, s)
  | .comp true fs, s, tao => do
    let tagLen := unionTagBits fs.length
    if s.take tagLen = [] then .error .valueError   -- int('', 2)
    let tag := natOfBits (s.take tagLen)
    if tag ≥ fs.length then .error .indexError
    let (vs, s) ← unpackNth fs tag (s.drop tagLen) tao
    pure (.comp (some tag) vs, s)
  | .comp false fs, s, tao => do
    let (vs, s) ← unpackFields fs s tao
    pure (.comp none vs, s)
/-- Unpack into the field in position `i`, leaving the other (fresh) fields alone (transport.py:608-609). -/
def unpackNth : List Ty → Nat → Bits → Bool → Except Err (List Val × Bits)
  | [], _, _, _ => .error .indexError
  | f :: fs, 0, s, tao => do
    let (v, s) ← unpack f s tao
    pure (v :: newVals fs, s)
  | f :: fs, i + 1, s, tao => do
    let (vs, s) ← unpackNth fs i s tao
    pure (newVal f :: vs, s)
/-- The structure branch of `CompoundValue._unpack` (transport.py:611-612). -/
def unpackFields : List Ty → Bits → Bool → Except Err (List Val × Bits)
  | [], s, _ => .ok ([], s)
  | [f], s, tao => do
    let (v, s) ← unpack f s tao
    pure ([v], s)
  | f :: fs, s, tao => do
    let (v, s) ← unpack f s false
    let (vs, s) ← unpackFields fs s tao
    pure (v :: vs, s)
end

end Dronecan
