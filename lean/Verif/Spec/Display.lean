import Verif.Spec.Yaml
import Verif.Spec.Codec

/-!
# What a representation of a value says
-/

namespace Dronecan
namespace Display

open Text Float16 YamlSpec

/-- The number written in binary. -/
def bitsNat : Bits → Nat
  | [] => 0
  | b :: bs => b.toNat * 2 ^ bs.length + bitsNat bs

/-- The number written in two's complement. -/
def bitsInt : Bits → Int
  | [] => 0
  | b :: bs => bitsNat bs - b.toNat * 2 ^ bs.length

/-- IEEE 754: a sign, `ew` bits of exponent, `mw` bits of significand. -/
def ieee (ew mw u : Nat) : PyFloat :=
  let neg := decide (2 ^ (ew + mw) ≤ u)
  let e := u % 2 ^ (ew + mw) / 2 ^ mw
  let m := u % 2 ^ mw
  let bias : Int := 2 ^ (ew - 1) - 1
  if e = 2 ^ ew - 1 then (if m = 0 then .inf neg else .nan neg)
  else if e = 0 then .fin neg ((m : Rat) * (2 : Rat) ^ (1 - bias - mw))
  else .fin neg (((2 ^ mw + m : Nat) : Rat) * (2 : Rat) ^ ((e : Int) - bias - mw))

/-- binary16, binary32 and binary64. -/
def floatOf (bits : Bits) : Option PyFloat :=
  if bits.length = 16 then some (ieee 5 10 (bitsNat bits))
  else if bits.length = 32 then some (ieee 8 23 (bitsNat bits))
  else if bits.length = 64 then some (ieee 11 52 (bitsNat bits))
  else none

/-- The relation holds for corresponding elements of two lists. -/
inductive Each {α β : Type} (R : α → β → Prop) : List α → List β → Prop where
  | nil : Each R [] []
  | cons {a : α} {b : β} {as : List α} {bs : List β} (h : R a b) (t : Each R as bs) : Each R (a :: as) (b :: bs)

/-- The ways of a representation to show what a value consists of. `flt` relates a float (of so many bits) to how it is shown; `absent` is how a
union is shown of which no field was chosen. -/
structure Form (τ : Type) where
  bool : Bool → τ
  int : Int → τ
  flt : Nat → PyFloat → τ → Prop
  str : Str → τ
  list : List τ → τ
  map : List (Str × τ) → τ
  absent : τ

/-- A scalar says what the bits of a field are. -/
def MeansPrim {τ : Type} (F : Form τ) (p : PrimTy) (bits : Bits) (x : τ) : Prop :=
  match p.kind with
  | .boolean => x = F.bool (bits.any id)
  | .unsigned => x = F.int (bitsNat bits)
  | .signed => x = F.int (bitsInt bits)
  | .float => ∃ f, floatOf bits = some f ∧ F.flt bits.length f x

/-- The value is a character of ASCII. -/
def IsChar (v : Val) (c : Char) : Prop := ∃ bits, v = .prim bits ∧ bitsNat bits = c.toNat ∧ c.toNat < 128

mutual
/-- `x` says what the value `v` of type `t` is: dynamic arrays of 8-bit integers may be shown as text, padding is not shown, of a union only
the chosen field is shown. -/
def Means {τ : Type} (F : Form τ) : NTy → Val → τ → Prop
  | .prim p, .prim bits, x => MeansPrim F p bits x
  | .arr e dynamic _, .arr items, x =>
    (∃ xs, x = F.list xs ∧ Each (fun v y => Means F e v y) items xs) ∨
      (∃ s p, e = .prim p ∧ p.bitlen = 8 ∧ dynamic = true ∧ x = F.str s ∧ Each IsChar items s)
  | .comp false _ names fs, .comp _ vs, x => ∃ kvs, x = F.map kvs ∧ MeansFields F names fs vs kvs
  | .comp true _ names fs, .comp active vs, x =>
    match active with
    | none => x = F.absent
    | some i => ∃ kv, x = F.map [kv] ∧ MeansNth F i names fs vs kv
  | _, _, _ => False
/-- Every field that is not padding is shown, in order. -/
def MeansFields {τ : Type} (F : Form τ) : List Str → List NTy → List Val → List (Str × τ) → Prop
  | _ :: names, .void _ :: fs, _ :: vs, kvs => MeansFields F names fs vs kvs
  | name :: names, f :: fs, v :: vs, kvs => ∃ x rest, kvs = (name, x) :: rest ∧ Means F f v x ∧ MeansFields F names fs vs rest
  | [], [], [], kvs => kvs = []
  | _, _, _, _ => False
/-- The field in position `i` is shown. -/
def MeansNth {τ : Type} (F : Form τ) : Nat → List Str → List NTy → List Val → Str × τ → Prop
  | 0, name :: _, f :: _, v :: _, kv => kv.1 = name ∧ Means F f v kv.2
  | i + 1, _ :: names, _ :: fs, _ :: vs, kv => MeansNth F i names fs vs kv
  | _, _, _, _, _ => False
end

/-- In JSON floats are exact. -/
def jsonForm : Form Json where
  bool := .bool
  int := .int
  flt := fun _ f x => x = .flt f
  str := .str
  list := .list
  map := .obj
  absent := .obj []

/-- Decimal places of a float of so many bits. -/
def places (bitlen : Nat) : Nat := if bitlen = 16 then 4 else if bitlen = 32 then 6 else 9

/-- In YAML floats are rounded to a number of decimal places: the error is at most half a unit of the last place. -/
def yamlForm : Form Tree where
  bool := .bool
  int := .int
  flt := fun bitlen f x =>
    match f with
    | .fin neg q => ∃ n : Nat, x = .dec neg n (places bitlen) ∧ (n : Rat) ≤ q * 10 ^ places bitlen + 1 / 2 ∧ q * 10 ^ places bitlen ≤ (n : Rat) + 1 / 2
    | .inf neg => x = .inf neg
    | .nan _ => x = .nan
  str := .str
  list := .list
  map := .map
  absent := .null

mutual
/-- A type as the parser makes it (parser.py:83-129, 487-560, 790-810): names are identifiers, the lengths of booleans and floats, no arrays of arrays, no
padding in unions. -/
def WfN : NTy → Bool
  | .void _ => true
  | .prim p => 0 < p.bitlen && (match p.kind with | .boolean => p.bitlen == 1 | .float => p.bitlen == 16 || p.bitlen == 32 || p.bitlen == 64 | _ => true)
  | .arr e _ _ => (match e with | .prim _ => true | .comp .. => true | _ => false) && WfN e
  | .comp u consts names fs => names.length == fs.length && names.all (fun s => s ≠ [] && s.all keyChar) &&
      consts.all (fun c => c.name.all keyChar) && WfNs fs && (!u || fs.all (fun f => !f.isVoid))
/-- All of them. -/
def WfNs : List NTy → Bool
  | [] => true
  | f :: fs => WfN f && WfNs fs
end

end Display
end Dronecan
