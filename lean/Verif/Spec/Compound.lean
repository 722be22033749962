import Verif.Model.Compound
import Verif.Spec.Codec

/-!
# Specification vocabulary for using message objects
-/

namespace Dronecan

mutual
/-- Primitive types the parser can produce (parser.py:551-603): widths 1..64, booleans have one bit, and no floats (which
the model of assignment does not cover). -/
def IntTy : Ty → Bool
  | .void _ => true
  | .prim p => decide (1 ≤ p.bitlen) && decide (p.bitlen ≤ 64) && (p.kind != .boolean || decide (p.bitlen = 1))
  | .arr e _ _ => IntTy e
  | .comp _ fs => IntTys fs
/-- `IntTy` for every field. -/
def IntTys : List Ty → Bool
  | [] => true
  | f :: fs => IntTy f && IntTys fs
end

mutual
/-- Every array inside `v` is within its declared capacity. -/
def withinCap : Ty → Val → Bool
  | .arr e _ m, .arr items => (items.all fun v => withinCap e v) && decide (items.length ≤ m)
  | .comp _ fs, .comp _ vs => withinCaps fs vs
  | _, _ => true
/-- `withinCap` for every field. -/
def withinCaps : List Ty → List Val → Bool
  | f :: fs, v :: vs => withinCap f v && withinCaps fs vs
  | _, _ => true
end

/-- A well-formed object: of type `t`, with all arrays within capacity. -/
def goodVal (t : Ty) (v : Val) : Bool := hasTy t v && withinCap t v

/-- An element argument fits the element type: objects put into an array are well-formed objects of that type. -/
def eltTyped (e : Ty) : Elt → Bool
  | .int _ => true
  | .obj v => goodVal e v

/-- All the element arguments of a container operation fit. -/
def arrOpTyped (e : Ty) : ArrOp Elt → Bool
  | .append v | .insert _ v | .setItem _ v => eltTyped e v
  | .extend vs | .assign vs | .fromBytes vs => vs.all (eltTyped e)
  | _ => true

/-- The arguments of an operation fit the types of the object: assigned structures are well-formed objects of the field's
type, and a union is switched to one of its fields. Numbers are unrestricted. -/
def opTyped : Ty → ObjOp → Bool
  | .comp _ fs, .set i a => match fs[i]?, a with
    | some (.comp u gs), .obj same v => !same || goodVal (.comp u gs) v
    | some (.arr e _ _), .list xs => xs.all (eltTyped e)
    | _, _ => true
  | .comp _ fs, .switch (some i) => decide (i < fs.length)
  | .comp _ _, .decode _ _ => false      -- decoding can exceed capacities (C09), treated separately
  | .arr e _ _, .arr op => arrOpTyped e op
  | _, _ => true

/-- `opTyped` for an operation on a nested object. -/
def accessTyped : Ty → List PathStep → ObjOp → Bool
  | t, [], op => opTyped t op
  | .comp _ fs, .field i :: path, op => match fs[i]? with
    | some f => accessTyped f path op
    | none => true
  | .arr e _ _, .item _ :: path, op => accessTyped e path op
  | _, _, _ => true

/-- The attribute of the outermost object that an operation goes through, if any. -/
def firstAttr : List PathStep → ObjOp → Option Nat
  | .field i :: _, _ => some i
  | [], .get i => some i
  | [], .set i _ => some i
  | _, _ => none

/-- The first access to an existing field of a union with `n` fields chooses that field. -/
def chooseFirst (n : Nat) (c : Option Nat) (accessed : Option Nat) : Option Nat :=
  match c, accessed with
  | none, some i => if i < n then some i else none
  | c, _ => c

/-- The field chosen by one operation on a union with `n` fields, when the field chosen so far is `c`: the first access to a
field chooses it, `switch` and a decoded tag override. -/
def chosenAfter (n : Nat) (c : Option Nat) : List PathStep × ObjOp → Option Nat
  | ([], .switch o) => o
  | ([], .decode s _) =>
    let bits := s.take (unionTagBits n)
    if bits ≠ [] ∧ natOfBits bits < n then some (natOfBits bits) else c
  | (path, op) => chooseFirst n c (firstAttr path op)

end Dronecan
