import Verif.Model.Codec
import Verif.Model.Float16
import Verif.Model.Introspect

/-!
# Model of the representations of values (dronecan/introspect.py:21-233)

`to_json_compatible_object` and `to_yaml`. Simplifications: `os.linesep` is the line feed; the order of `get_fields` is the order of
the definition; a value carries the names and the constants of its type through `NTy`.
-/

namespace Dronecan
namespace Display

open Text Introspect Float16
open Parser hiding Const

/-- A DSDL type with what the representations show: the names of the fields and the constants (CompoundType, parser.py:178-325). -/
inductive NTy where
  | void (bitlen : Nat)
  | prim (p : PrimTy)
  | arr (elem : NTy) (dynamic : Bool) (maxSize : Nat)
  | comp (isUnion : Bool) (consts : List Const) (names : List Str) (fields : List NTy)

mutual
/-- The type without names. -/
def NTy.ty : NTy → Ty
  | .void n => .void n
  | .prim p => .prim p
  | .arr e d m => .arr e.ty d m
  | .comp u _ _ fs => .comp u (NTy.tys fs)
def NTy.tys : List NTy → List Ty
  | [] => []
  | f :: fs => f.ty :: NTy.tys fs
end

/-- The type of the items of an array of primitives (`CATEGORY_PRIMITIVE`, introspect.py:41, 150). -/
def NTy.primOf : NTy → Option PrimTy
  | .prim p => some p
  | _ => none

/-- `isinstance(field, VoidValue)` (introspect.py:32, 134). -/
def NTy.isVoid : NTy → Bool
  | .void _ => true
  | _ => false

/-- `is_string_like` of an array of primitives (parser.py:171-175). -/
def stringLike (p : PrimTy) (dynamic : Bool) : Bool := dynamic && p.bitlen == 8

/-- What the `value` of a primitive is. -/
inductive Py where
  | none
  | bool (b : Bool)
  | int (i : Int)
  | flt (x : PyFloat)
deriving DecidableEq, Repr

/-- The number that a binary64 pattern without sign stands for (finite patterns). -/
def value64 (u : Nat) : Rat :=
  let e : Nat := u / 2 ^ 52
  let m : Nat := u % 2 ^ 52
  if e = 0 then (m : Rat) * (2 : Rat) ^ (-1074 : Int)
  else ((2 ^ 52 + m : Nat) : Rat) * (2 : Rat) ^ ((e : Int) - 1075)

/-- `struct.unpack("<d", struct.pack("<Q", u))[0]` (transport.py:305). -/
def unpack64 (u : Nat) : PyFloat :=
  let neg := u.testBit 63
  let a := u % 2 ^ 63
  if a < 2047 <<< 52 then .fin neg (value64 a)
  else if a = 2047 <<< 52 then .inf neg
  else .nan neg

/-- The getter of `PrimitiveValue.value` (transport.py:285-307). -/
def primValue (p : PrimTy) (bits : Bits) : Except Err Py :=
  if bits = [] then .ok .none
  else
    let v := natOfBits bits
    match p.kind with
    | .boolean => .ok (.bool (decide (v ≠ 0)))
    | .unsigned => .ok (.int v)
    | .signed => .ok (.int (if v ≥ 2 ^ (p.bitlen - 1) then -(2 ^ p.bitlen - (v : Int)) else v))
    | .float =>
      if p.bitlen = 16 then (toFloat v).map .flt
      else if p.bitlen = 32 then .ok (.flt (unpack32 v))
      else if p.bitlen = 64 then .ok (.flt (unpack64 v))
      else .error .valueError

/-- `obj[i]` of an array of primitives (transport.py:363-367). -/
def itemValue (p : PrimTy) : Val → Except Err Py
  | .prim bits => if bits = [] then .ok (.int 0) else primValue p bits
  | _ => .error .typeError

/-! ## JSON -/

/-- What `to_json_compatible_object` returns. -/
inductive Json where
  | null
  | bool (b : Bool)
  | int (i : Int)
  | flt (x : PyFloat)
  | str (s : Str)
  | list (xs : List Json)
  | obj (kvs : List (Str × Json))

/-- Primitive types (introspect.py:60-73). -/
def jsonLeaf : Py → Except Err Json
  | .flt x => .ok (.flt x)
  | .bool b => .ok (.bool b)
  | .int i => .ok (.int i)
  | .none => .error .valueError

mutual
/-- `_to_json_compatible_object_impl` (introspect.py:21-73). `ch.is_printable()` does not exist for the integers of an array
(introspect.py:43): the first item raises; `all` of no items is true and `decode()` gives the empty text. -/
def toJson : NTy → Val → Except Err Json
  | .void _, .void => .ok .null
  | .prim p, .prim bits => do jsonLeaf (← primValue p bits)
  | .arr e dynamic _, .arr items =>
    match e.primOf with
    | some p =>
      if stringLike p dynamic then
        match items with
        | [] => .ok (.str [])
        | v :: _ => do
          let _ ← itemValue p v
          .error .attributeError
      else do
        let xs ← items.mapM fun v => do jsonLeaf (← itemValue p v)
        pure (.list xs)
    | none => do
      let xs ← items.mapM fun v => toJson e v
      pure (.list xs)
  | .comp u _ names fs, .comp active vs => do
    let kvs ← jsonFields u active 0 names fs vs
    pure (.obj kvs)
  | _, _ => .error .typeError
/-- The loop over the fields (introspect.py:29-35); `i` is the position of the first of the fields. -/
def jsonFields (u : Bool) (active : Option Nat) (i : Nat) (names : List Str) : List NTy → List Val → Except Err (List (Str × Json))
  | [], [] => .ok []
  | f :: fs, v :: vs =>
    match names with
    | [] => .error .typeError
    | name :: names =>
      if u = true ∧ active ≠ some i then jsonFields u active (i + 1) names fs vs
      else if f.isVoid then jsonFields u active (i + 1) names fs vs
      else do
        let x ← toJson f v
        let kvs ← jsonFields u active (i + 1) names fs vs
        pure ((name, x) :: kvs)
  | _, _ => .error .typeError
end

/-! ## YAML -/

/-- `indent_newline` (introspect.py:120-121). -/
def newline (level : Nat) : Str := '\n' :: List.replicate (2 * level) ' '

/-- The last `k` digits of a number. -/
def lastDigits : Nat → Nat → Str
  | 0, _ => []
  | k + 1, n => lastDigits k (n / 10) ++ [Nat.digitChar (n % 10)]

/-- `'%.kf' % x`: the nearest number with `k` decimal places, ties to even. -/
def fixed (k : Nat) : PyFloat → Str
  | .fin neg q =>
    let n := (roundHalfEven (q * (10 : Rat) ^ k)).toNat
    (if neg then ['-'] else []) ++ decimal (n / 10 ^ k) ++ ['.'] ++ lastDigits k n
  | .inf neg => (if neg then ['-'] else []) ++ lit "inf"
  | .nan _ => lit "nan"

/-- `'%s' % i`. -/
def intText (i : Int) : Str := if i < 0 then '-' :: decimal i.natAbs else decimal i.natAbs

/-- Primitive types (introspect.py:172-190); `note` is what `value_to_constant_name` works on if the value is a field. -/
def leafText (p : PrimTy) (note : Option Args) : Py → Except Err Str
  | .flt x =>
    if p.bitlen = 16 then .ok (fixed 4 x)
    else if p.bitlen = 32 then .ok (fixed 6 x)
    else if p.bitlen = 64 then .ok (fixed 9 x)
    else .error .keyError
  | .bool b => .ok (if b then lit "true" else lit "false")
  | .int i =>
    match note with
    | none => .ok (intText i)
    | some g =>
      match valueToConstantName g (.int i) with
      | .error e => .error e
      | .ok (.text s) => .ok (intText i ++ lit " # " ++ s)
      | .ok (.literal _) => .ok (intText i)
  | .none => .error .valueError

/-- `is_nice_character` (introspect.py:151-156). `ch in b'\n\r\t'` raises unless `ch` is in `range(256)`. -/
def nice : Py → Except Err Bool
  | .int ch =>
    if 32 ≤ ch ∧ ch ≤ 126 then .ok true
    else if ch < 0 ∨ 256 ≤ ch then .error .valueError
    else .ok (decide (ch = 10 ∨ ch = 13 ∨ ch = 9))
  | _ => .error .typeError

/-- `all(map(is_nice_character, obj))` (introspect.py:160). -/
def allNice : List Py → Except Err Bool
  | [] => .ok true
  | x :: xs => do
    if ← nice x then allNice xs else pure false

/-- `obj.decode()` (transport.py:469-472) for values that are characters of ASCII. -/
def decodeText : List Py → Str
  | [] => []
  | .int i :: xs => Char.ofNat i.toNat :: decodeText xs
  | _ :: xs => decodeText xs

/-- One character in `repr` of a string of the characters 32..126, `\n`, `\r`, `\t`. -/
def reprChar (quote : Char) (c : Char) : Str :=
  if c = quote ∨ c = '\\' then ['\\', c]
  else if c = '\n' then ['\\', 'n']
  else if c = '\r' then ['\\', 'r']
  else if c = '\t' then ['\\', 't']
  else [c]

/-- `repr` of a string: double quotes if it has a single quote and no double quotes. -/
def reprText (s : Str) : Str :=
  let quote := if '\'' ∈ s ∧ '"' ∉ s then '"' else '\''
  [quote] ++ s.flatMap (reprChar quote) ++ [quote]

mutual
/-- `_to_yaml_impl` (introspect.py:114-199); `note` stands for `parent` and `name`. -/
def toYaml (level : Nat) (note : Option Args) : NTy → Val → Except Err Str
  | .void _, .void => .ok []
  | .prim p, .prim bits => do leafText p note (← primValue p bits)
  | .arr e dynamic _, .arr items =>
    match e.primOf with
    | some p => do
      let xs ← items.mapM (itemValue p)
      let ts ← xs.mapM (leafText p none)
      let asBytes := ['['] ++ joinWith (lit ", ") ts ++ [']']
      if stringLike p dynamic then
        if ← allNice xs then pure (reprText (decodeText xs) ++ lit " # " ++ asBytes)
        else pure asBytes
      else pure asBytes
    | none =>
      if items = [] then .ok (lit "[]")
      else do
        let ts ← items.mapM fun v => do
          let t ← toYaml (level + 1) none e v
          pure (newline level ++ lit "- " ++ t)
        pure ts.flatten
  | .comp u consts names fs, .comp active vs => do
    let (s, first) ← yamlFields level u consts fs.length active 0 true names fs vs
    if first = true ∧ u = false then
      pure (s ++ (if level > 0 then newline level else []) ++ lit "{}")
    else pure s
  | _, _ => .error .typeError
/-- The loop over the fields (introspect.py:129-141): the text written and `first_field` after it. `i` is the position of the first
of the fields. -/
def yamlFields (level : Nat) (u : Bool) (consts : List Const) (nfields : Nat) (active : Option Nat) (i : Nat) (first : Bool)
    (names : List Str) : List NTy → List Val → Except Err (Str × Bool)
  | [], [] => .ok ([], first)
  | f :: fs, v :: vs =>
    match names with
    | [] => .error .typeError
    | name :: names =>
      if u = true ∧ active ≠ some i then yamlFields level u consts nfields active (i + 1) first names fs vs
      else if f.isVoid then yamlFields level u consts nfields active (i + 1) first names fs vs
      else do
        let sep := if (first = true ∧ level > 0) ∨ first = false then newline level else []
        let t ← toYaml (level + 1) (some ⟨consts, nfields, name, false, fun _ => []⟩) f v
        let (s, first) ← yamlFields level u consts nfields active (i + 1) false names fs vs
        pure (sep ++ name ++ lit ": " ++ t ++ s, first)
  | _, _ => .error .typeError
end

/-- `node_id or other` (introspect.py:226-227): zero counts as absent. -/
def nodeText (other : Str) : Option Nat → Str
  | some n => if n = 0 then other else decimal n
  | none => other

/-- `to_yaml` of a transfer (introspect.py:211-231); `header` is `Message`, `Request` or `Response`. -/
def transferYaml (header : Str) (source dest : Option Nat) (mono real : PyFloat) (t : NTy) (v : Val) : Except Err Str := do
  let s ← toYaml 0 none t v
  pure (lit "### " ++ header ++ lit " from " ++ nodeText (lit "Anon") source ++ lit " to " ++ nodeText (lit "All") dest ++
    lit "  ts_mono=" ++ fixed 6 mono ++ lit "  ts_real=" ++ fixed 6 real ++ ['\n'] ++ s)

end Display
end Dronecan
