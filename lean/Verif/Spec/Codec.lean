import Verif.Model.Codec

/-!
# Specification vocabulary for serialization

* `WfTy t` - the restrictions the DSDL parser puts on a type (parser.py:502-549, 684-690, 759-815): positive field
  widths and array capacities, unions with at least two alternatives.
* `hasTy t v` - `v` is an object of type `t` as built by the API. Arrays may hold any number of items: the API keeps
  dynamic arrays within capacity (C10), but static arrays can be left shorter by deleting elements.
* `canon t v` - the message content that `v` stands for: arrays cut to capacity, static arrays filled up with default
  elements, a union with no chosen field stands for its first field, and fields of a union that are not active
  carry no information (they are reset to defaults).
-/

namespace Dronecan

mutual
/-- Restrictions on types enforced by the parser. -/
def WfTy : Ty → Bool
  | .void n => 0 < n
  | .prim p => 0 < p.bitlen
  | .arr e _ m => WfTy e && decide (0 < m)
  | .comp isUnion fs => WfTys fs && (!isUnion || decide (2 ≤ fs.length))
/-- All the types of a list are well formed. -/
def WfTys : List Ty → Bool
  | [] => true
  | f :: fs => WfTy f && WfTys fs
end

mutual
/-- `v` is an object of type `t`. -/
def hasTy : Ty → Val → Bool
  | .void _, .void => true
  | .prim p, .prim bits => bits.length == p.bitlen
  | .arr e _ _, .arr items => items.all fun v => hasTy e v
  | .comp isUnion fs, .comp active vs =>
    hasTys fs vs && (match active with | none => true | some i => isUnion && decide (i < fs.length))
  | _, _ => false
/-- The objects `vs` have the types `fs`, position by position. -/
def hasTys : List Ty → List Val → Bool
  | [], [] => true
  | f :: fs, v :: vs => hasTy f v && hasTys fs vs
  | _, _ => false
end

mutual
/-- The content a value object stands for. -/
def canon : Ty → Val → Val
  | .arr e dynamic m, .arr items =>
    if dynamic then .arr ((items.take m).map fun v => canon e v)
    else .arr ((items.take m ++ List.replicate (m - items.length) (newVal e)).map fun v => canon e v)
  | .comp true fs, .comp active vs => .comp (some (active.getD 0)) (canonNth fs vs (active.getD 0))
  | .comp false fs, .comp _ vs => .comp none (canonFields fs vs)
  | _, v => v
/-- Keep the content of the field in position `i`; the others get default values. -/
def canonNth : List Ty → List Val → Nat → List Val
  | f :: fs, v :: _, 0 => canon f v :: newVals fs
  | f :: fs, _ :: vs, i + 1 => newVal f :: canonNth fs vs i
  | _, _, _ => []
/-- Content of every field. -/
def canonFields : List Ty → List Val → List Val
  | f :: fs, v :: vs => canon f v :: canonFields fs vs
  | _, _ => []
end

mutual
/-- Every array inside `v` respects its declared capacity (exactly the declared size for static arrays). -/
def capOk : Ty → Val → Bool
  | .arr e dynamic m, .arr items =>
    (items.all fun v => capOk e v) && (if dynamic then decide (items.length ≤ m) else items.length == m)
  | .comp _ fs, .comp _ vs => capOks fs vs
  | _, _ => true
/-- `capOk` for every field. -/
def capOks : List Ty → List Val → Bool
  | f :: fs, v :: vs => capOk f v && capOks fs vs
  | _, _ => true
end

mutual
/-- Every dynamic array inside the type has a capacity of the form `2^k - 1`. -/
def pow2Caps : Ty → Bool
  | .arr e dynamic m => pow2Caps e && (!dynamic || decide (m + 1 = 2 ^ bitLength m))
  | .comp _ fs => pow2Capss fs
  | _ => true
/-- `pow2Caps` for every field type. -/
def pow2Capss : List Ty → Bool
  | [] => true
  | f :: fs => pow2Caps f && pow2Capss fs
end

end Dronecan
