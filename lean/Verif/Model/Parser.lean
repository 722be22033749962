import Verif.Model.Text
import Verif.Model.Codec
import Verif.Model.Double
import Verif.Model.Signature
import Verif.Model.Struct

/-!
# Model of the DSDL parser (dronecan/dsdl/parser.py)

Strings are lists of characters. Every failure of the parser is a `DsdlException`: whatever is raised while a line or a file is
parsed is wrapped into one (parser.py:680-682, 730-732), so other exceptions are not distinguished here.

Simplifications: `\d` and `int` only accept ASCII digits; `$` in a regular expression only matches at the very end (Python also
accepts one newline character after it); `eval` of constant expressions is an arbitrary function; Python's recursion limit is
the parameter `fuel` of `parse`, the depth of nesting of types; logging is left out; the overflow of the float division in
`bitlen_to_bytelen` (parser.py:741-742), which makes the log message of a definition with astronomically large arrays fail, is left out.
-/

namespace Dronecan
namespace Parser

open Text

/-- `raise DsdlException` (parser.py:735-736). -/
def fail {α : Type} : Except Err α := .error .dsdlException

/-- `enforce` (parser.py:739-741). -/
def enforce (b : Bool) : Except Err Unit := if b then .ok () else fail

/-! ## Strings -/

/-- A string literal. -/
def lit (s : String) : Str := s.toList

/-- `str.split(sep)` for one character; the second argument is the part so far, reversed. -/
def splitOnAux (sep : Char) : Str → Str → List Str
  | cur, [] => [cur.reverse]
  | cur, c :: cs => if c = sep then cur.reverse :: splitOnAux sep [] cs else splitOnAux sep (c :: cur) cs

def splitOn (sep : Char) (s : Str) : List Str := splitOnAux sep [] s

/-- `sep.join(parts)`. -/
def joinWith (sep : Str) : List Str → Str
  | [] => []
  | [p] => p
  | p :: ps => p ++ sep ++ joinWith sep ps

/-- `str.strip(c)`. -/
def stripChar (c : Char) (s : Str) : Str := ((s.dropWhile (· == c)).reverse.dropWhile (· == c)).reverse

def isLower (c : Char) : Bool := 'a' ≤ c && c ≤ 'z'
def isUpper (c : Char) : Bool := 'A' ≤ c && c ≤ 'Z'
def isDigit (c : Char) : Bool := '0' ≤ c && c ≤ '9'

/-- A number in decimal (`str(n)`, `'%d' % n`). -/
def decimal (n : Nat) : Str := Nat.toDigits 10 n

/-! ## Types -/

/-- `PrimitiveType`, `VoidType`, `ArrayType` and message types as they occur inside other types (parser.py:40-350). A compound type
carries its name, `override_signature`, whether it is a union, and the names and types of its fields. -/
inductive PTy where
  | void (bitlen : Nat)
  | prim (p : PrimTy)
  | array (elem : PTy) (dynamic : Bool) (maxSize : Nat)
  | compound (fullName : Str) (override : Option Int) (isUnion : Bool) (names : List (Option Str)) (types : List PTy)
deriving Repr

/-- The value of a constant. -/
inductive ConstVal where
  | int (n : Int)
  | flt (q : Rat)
deriving DecidableEq, Repr

/-- `Constant` (parser.py:388-408). -/
structure Const where
  type : PrimTy
  name : Str
  initExpr : Str
  value : ConstVal
deriving DecidableEq, Repr

/-- `Field` (parser.py:374-385). -/
structure Field where
  type : PTy
  name : Option Str
deriving Repr

/-- The fields, the constants and the union flag of a message, of a request, or of a response. -/
structure Attrs where
  fields : List Field := []
  constants : List Const := []
  isUnion : Bool := false
deriving Repr

/-- `CompoundType` (parser.py:181-325) as built by `parse_source`; services have a response. -/
structure Def where
  fullName : Str
  version : Option (Int × Int)
  defaultDtid : Option Int
  override : Option Int
  body : Attrs
  response : Option Attrs
deriving Repr

/-- `get_normalized_definition` of a primitive type (parser.py:103-112). -/
def normPrim (p : PrimTy) : Str :=
  (if p.truncated then lit "truncated" else lit "saturated") ++ lit " " ++
    match p.kind with
    | .boolean => lit "bool"
    | .unsigned => lit "uint" ++ decimal p.bitlen
    | .signed => lit "int" ++ decimal p.bitlen
    | .float => lit "float" ++ decimal p.bitlen

/-- `get_normalized_definition` (parser.py:103-112, 149-152, 304-306, 339-341). -/
def PTy.norm : PTy → Str
  | .void n => lit "void" ++ decimal n
  | .prim p => normPrim p
  | .array e dynamic m => PTy.norm e ++ (if dynamic then lit "[<=" else lit "[") ++ decimal m ++ lit "]"
  | .compound name _ _ _ _ => name

/-- `Field.get_normalized_definition` (parser.py:381-385). A missing name is printed as `None`. -/
def normField (name : Option Str) (t : PTy) : Str :=
  match t with
  | .void _ => t.norm
  | _ => t.norm ++ lit " " ++ name.getD (lit "None")

/-- `'\n'.join(x.get_normalized_definition() for x in attrs) + '\n'` (parser.py:276-277). -/
def adjoin (defs : List Str) : Str := joinWith (lit "\n") defs ++ lit "\n"

/-- `str.replace(old, '\n')` for a non-empty `old`; the first argument bounds the number of steps. -/
def replaceNl (old : Str) : Nat → Str → Str
  | 0, s => s
  | _, [] => []
  | n + 1, c :: cs => if old.isPrefixOf (c :: cs) then '\n' :: replaceNl old n ((c :: cs).drop old.length) else c :: replaceNl old n cs

/-- The end of `get_dsdl_signature_source_definition` (parser.py:293). -/
def tidy (s : Str) : Str :=
  let s := strip s
  let s := replaceNl (lit "\n\n\n") s.length s
  replaceNl (lit "\n\n") s.length s

/-- The lines of one part of a definition (parser.py:280-281, 284-286, 288-290). -/
def partText (isUnion : Bool) (defs : List Str) : Str := (if isUnion then lit "\n@union\n" else []) ++ adjoin defs

/-- `get_dsdl_signature_source_definition` (parser.py:267-293). -/
def sourceText (fullName : Str) (isUnion : Bool) (defs : List Str) (response : Option (Bool × List Str)) : Str :=
  tidy (fullName ++ lit "\n" ++ partText isUnion defs ++
    match response with
    | none => []
    | some (u, ds) => lit "\n---\n" ++ partText u ds)

/-- `get_dsdl_signature` (parser.py:295-302). -/
def dsdlSignature (override : Option Int) (text : Str) : Int :=
  match override with
  | some o => o
  | none => Signature.compute (text.map Char.toNat)

/-- `struct.pack('<Q', n)` as numbers (common.py:76-79). -/
def bytesFromCrc64 (n : Nat) : List Nat := (packLE 8 n).map BitVec.toNat

/-- One round of the loop of `get_data_type_signature` (parser.py:318-323): the register, and the signature of the field's type. -/
def mixField (crc : Nat) (fieldSig : Option Nat) : Nat :=
  match fieldSig with
  | none => crc
  | some fs => Signature.add (Signature.add crc (bytesFromCrc64 fs)) (bytesFromCrc64 (Signature.value crc))

mutual
/-- `get_data_type_signature` (parser.py:59-60, 167-168, 308-325). -/
def PTy.dataTypeSignature : PTy → Option Nat
  | .void _ => none
  | .prim _ => none
  | .array e _ _ => PTy.dataTypeSignature e
  | .compound name override isUnion names types =>
    some (Signature.value ((dataTypeSignatures types).foldl mixField
      (Signature.init (some (dsdlSignature override (sourceText name isUnion (List.zipWith normField names types) none))))))
/-- The signatures of the types of the fields. -/
def dataTypeSignatures : List PTy → List (Option Nat)
  | [] => []
  | t :: ts => PTy.dataTypeSignature t :: dataTypeSignatures ts
end

def Attrs.defs (a : Attrs) : List Str := a.fields.map (fun f => normField f.name f.type)

/-- `get_dsdl_signature_source_definition` of a definition. -/
def Def.sourceText (d : Def) : Str :=
  Parser.sourceText d.fullName d.body.isUnion d.body.defs (d.response.map (fun r => (r.isUnion, r.defs)))

/-- `get_dsdl_signature` of a definition. -/
def Def.dsdlSignature (d : Def) : Int := Parser.dsdlSignature d.override d.sourceText

/-- `get_data_type_signature` of a definition (parser.py:308-325). -/
def Def.dataTypeSignature (d : Def) : Nat :=
  let fields := d.body.fields ++ (match d.response with | some r => r.fields | none => [])
  Signature.value ((fields.map (fun f => f.type.dataTypeSignature)).foldl mixField (Signature.init (some d.dsdlSignature)))

/-- The message type as it occurs in other types. -/
def Def.asType (d : Def) : PTy :=
  .compound d.fullName d.override d.body.isUnion (d.body.fields.map Field.name) (d.body.fields.map Field.type)

/-! ## Types in the source text -/

/-- `re.match(r'void(\d{1,2})$', typedef)`. -/
def voidMatch (s : Str) : Option Str :=
  if (lit "void").isPrefixOf s then
    let ds := s.drop 4
    if 1 ≤ ds.length && ds.length ≤ 2 && ds.all isDigit then some ds else none
  else none

/-- `re.match(r'(.+?)\[([^\]]*)\]$', typedef)`: the first bracket, except in first position, after which the only closing bracket is the
last character. The first argument is the text before, reversed. -/
def arrayMatchAux : Str → Str → Option (Str × Str)
  | _, [] => none
  | pre, c :: cs =>
    if c = '[' && pre ≠ [] && cs.getLast? = some ']' && !(cs.dropLast.contains ']') then some (pre.reverse, cs.dropLast)
    else arrayMatchAux (c :: pre) cs

def arrayMatch (s : Str) : Option (Str × Str) := arrayMatchAux [] s

/-- `re.match(r'([a-z]+)(\d{1,2})$|(bool)$', typedef)`: the base name and the digits (none for `bool`). -/
def primMatch (s : Str) : Option (Str × Option Str) :=
  let name := s.takeWhile isLower
  let ds := s.dropWhile isLower
  if name ≠ [] && 1 ≤ ds.length && ds.length ≤ 2 && ds.all isDigit then some (name, some ds)
  else if s = lit "bool" then some (s, none)
  else none

/-- `_parse_void_type` (parser.py:497-500). -/
def parseVoid (bitlen : Int) : Except Err PTy := do
  enforce (1 ≤ bitlen && bitlen ≤ 64)
  .ok (.void bitlen.toNat)

/-- The cast mode (parser.py:526-531). -/
def castOf : Option Str → Except Err Bool
  | none => .ok false
  | some m => if m = lit "saturated" then .ok false else if m = lit "truncated" then .ok true else fail

/-- `_parse_primitive_type` (parser.py:523-549). -/
def parsePrimitive (base : Str) (bitlen : Int) (castMode : Option Str) : Except Err PTy := do
  let truncated ← castOf castMode
  if base = lit "bool" then .ok (.prim ⟨.boolean, 1, truncated⟩)
  else if base = lit "float" then do
    enforce (bitlen = 16 || bitlen = 32 || bitlen = 64)
    .ok (.prim ⟨.float, bitlen.toNat, truncated⟩)
  else if base = lit "uint" then do
    enforce (2 ≤ bitlen && bitlen ≤ 64)
    .ok (.prim ⟨.unsigned, bitlen.toNat, truncated⟩)
  else if base = lit "int" then do
    enforce (2 ≤ bitlen && bitlen ≤ 64)
    .ok (.prim ⟨.signed, bitlen.toNat, truncated⟩)
  else fail

/-- The size of an array (parser.py:507-521): whether it is dynamic, and the maximum size. -/
def parseSize (spec : Str) : Except Err (Bool × Nat) :=
  let r : Option (Bool × Int) :=
    if (lit "<=").isPrefixOf spec then (int0 (spec.drop 2)).map (fun n => (true, n))
    else if (lit "<").isPrefixOf spec then (int0 (spec.drop 1)).map (fun n => (true, n - 1))
    else (int0 spec).map (fun n => (false, n))
  match r with
  | none => fail
  | some (dynamic, n) => if 0 < n then .ok (dynamic, n.toNat) else fail

def PTy.isArray : PTy → Bool
  | .array _ _ _ => true
  | _ => false

/-- `_parse_type` (parser.py:559-582) and `_parse_array_type` (502-521). `nested` is `_parse_compound_type`. The first argument bounds
the depth of nested arrays, which are shorter and shorter strings. -/
def parseTypeAux (nested : Str → Except Err PTy) : Nat → Str → Option Str → Except Err PTy
  | 0, _, _ => fail
  | n + 1, typedef, castMode =>
    let typedef := strip typedef
    match voidMatch typedef with
    | some ds => match int10 (strip ds) with
      | some b => parseVoid b
      | none => fail
    | none =>
      match arrayMatch typedef with
      | some (v, size) => do
        let t ← parseTypeAux nested n (strip v) castMode
        enforce (!t.isArray)
        let (dynamic, m) ← parseSize (strip size)
        .ok (.array t dynamic m)
      | none =>
        match primMatch typedef with
        | some (base, some ds) => match int10 ds with
          | some b => parsePrimitive base b castMode
          | none => fail
        | some (base, none) => parsePrimitive base 1 castMode
        | none => do
          enforce castMode.isNone
          nested typedef

def parseType (nested : Str → Except Err PTy) (typedef : Str) (castMode : Option Str) : Except Err PTy :=
  parseTypeAux nested (typedef.length + 1) typedef castMode

/-! ## Lines -/

/-- `validate_attribute_name` (parser.py:785-786). -/
def attributeNameOk (s : Str) : Bool :=
  match s with
  | [] => false
  | c :: cs => (isLower c || isUpper c) && cs.all (fun x => isLower x || isUpper x || isDigit x || x == '_')

/-- What `eval` of a constant expression returns: a string, a number, a float that is not finite, or anything else. -/
inductive PyVal where
  | str (s : Str)
  | int (n : Int)
  | flt (q : Rat)
  | nonFinite
  | other
deriving DecidableEq

/-- `int()` of a float. -/
def truncInt (q : Rat) : Int := if q < 0 then -((-q).floor) else q.floor

/-- The conversion of a constant (parser.py:590-600). A float that is not finite is refused here or by the check of the range. -/
def convertConst (kind : Kind) : PyVal → Except Err ConstVal
  | .str [c] => .ok (.int c.toNat)
  | .int n => match kind with
    | .float => .ok (.flt (fl n))
    | _ => .ok (.int n)
  | .flt q => match kind with
    | .float => .ok (.flt q)
    | _ => .ok (.int (truncInt q))
  | _ => fail

/-- `get_float_range` (type_limits.py:25-34): the largest finite numbers. -/
def floatMax (bitlen : Nat) : Rat :=
  if bitlen = 16 then 65504
  else if bitlen = 32 then (2 ^ 24 - 1) * 2 ^ 104
  else (2 ^ 53 - 1) * 2 ^ 971

/-- `validate_value_range` (parser.py:114-121). -/
def inRange (p : PrimTy) (v : ConstVal) : Bool :=
  let q : Rat := match v with | .int n => n | .flt q => q
  match p.kind with
  | .float => -(floatMax p.bitlen) ≤ q && q ≤ floatMax p.bitlen
  | _ => ((valueRange p).1 : Rat) ≤ q && q ≤ ((valueRange p).2 : Rat)

/-- A field or a constant. -/
inductive Attr where
  | field (f : Field)
  | const (c : Const)

/-- `_make_constant` (parser.py:584-604). -/
def makeConstant (eval : Str → Option PyVal) (t : PTy) (name : Str) (expr : Str) : Except Err Attr := do
  match t with
  | .prim p =>
    let expr := (split expr).flatten
    match eval expr with
    | none => fail
    | some v =>
      let value ← convertConst p.kind v
      enforce (inRange p value)
      .ok (.const ⟨p, name, expr, value⟩)
  | _ => fail

/-- The cast mode and the rest of the line (parser.py:607-609). -/
def castMode : List Str → Option Str × List Str
  | t :: ts => if t = lit "saturated" ∨ t = lit "truncated" then (some t, ts) else (none, t :: ts)
  | [] => (none, [])

/-- `_parse_line` (parser.py:606-628). -/
def parseLine (nested : Str → Except Err PTy) (eval : Str → Option PyVal) (tokens : List Str) : Except Err Attr := do
  let (castMode, tokens) := castMode tokens
  match tokens with
  | [] => fail
  | [typename] =>
    enforce ((lit "void").isPrefixOf typename)
    let t ← parseType nested typename castMode
    .ok (.field ⟨t, none⟩)
  | typename :: name :: rest =>
    enforce (attributeNameOk name)
    let t ← parseType nested typename castMode
    match rest with
    | [] => .ok (.field ⟨t, some name⟩)
    | eq :: expr =>
      enforce (!(expr.isEmpty) && eq = lit "=")
      makeConstant eval t name (joinWith (lit " ") expr)

/-! ## Files -/

/-- The state of the loop of `parse_source` (parser.py:642-646). -/
structure State where
  names : List Str := []
  body : Attrs := {}
  response : Option Attrs := none
  override : Option Int := none
deriving Repr

/-- The part being read. -/
def State.current (s : State) : Attrs := s.response.getD s.body

def State.setCurrent (s : State) (a : Attrs) : State :=
  match s.response with
  | none => { s with body := a }
  | some _ => { s with response := some a }

/-- Adding an attribute (parser.py:667-676). -/
def addAttr (s : State) (a : Attr) : Except Err State :=
  let cur := s.current
  match a with
  | .field f =>
    match f.name with
    | none => .ok (s.setCurrent { cur with fields := cur.fields ++ [f] })
    | some n =>
      if s.names.contains n then fail
      else .ok { s.setCurrent { cur with fields := cur.fields ++ [f] } with names := n :: s.names }
  | .const c =>
    if s.names.contains c.name then fail
    else .ok { s.setCurrent { cur with constants := cur.constants ++ [c] } with names := c.name :: s.names }

/-- One line (parser.py:649-676). -/
def parseStatement (nested : Str → Except Err PTy) (eval : Str → Option PyVal) (s : State) (tokens : List Str) : Except Err State :=
  if tokens = [lit "---"] then
    match s.response with
    | some _ => fail
    | none =>
      .ok { s with
        response := some {}
        names := [] }
  else if tokens = [lit "@union"] then
    if s.current.isUnion then fail else .ok (s.setCurrent { s.current with isUnion := true })
  else
    match tokens with
    | [a, b] =>
      if a = lit "OVERRIDE_SIGNATURE" then
        match int16 b with
        | some n => .ok { s with override := some n }
        | none => fail
      else (parseLine nested eval tokens).bind (addAttr s)
    | _ => (parseLine nested eval tokens).bind (addAttr s)

/-- The loop (parser.py:648-682). -/
def parseStatements (nested : Str → Except Err PTy) (eval : Str → Option PyVal) : List (List Str) → State → Except Err State
  | [], s => .ok s
  | l :: ls, s => (parseStatement nested eval s l).bind (parseStatements nested eval ls)

def PTy.isVoid : PTy → Bool
  | .void _ => true
  | _ => false

/-- `validate_union` (parser.py:803-815). -/
def unionOk (a : Attrs) : Bool := !a.isUnion || (1 < a.fields.length && !(a.fields.any (fun f => f.type.isVoid)))

/-- `validate_data_type_id` (parser.py:789-800). -/
def dtidOk (isService : Bool) (dtid : Option Int) : Bool :=
  match dtid with
  | none => true
  | some i => 0 ≤ i && i ≤ (if isService then 255 else 65535)

/-- `parse_source` (parser.py:638-718), given what the file name says (639). -/
def parseSource (nested : Str → Except Err PTy) (eval : Str → Option PyVal) (info : Str × Option (Int × Int) × Option Int) (text : Str) :
    Except Err Def := do
  let s ← parseStatements nested eval ((tokenize text).map Prod.snd) {}
  let d : Def := ⟨info.1, info.2.1, info.2.2, s.override, s.body, s.response⟩
  enforce (unionOk d.body && (match d.response with | some r => unionOk r | none => true))
  enforce (dtidOk d.response.isSome d.defaultDtid)
  .ok d

/-! ## File names -/

/-- `validate_search_directories` (parser.py:759-767), for a list of absolute paths. -/
def searchDirsOk (dirs : List Str) : Bool := dirs.all (fun d1 => dirs.all (fun d2 => d1 = d2 || !(d2.isPrefixOf d1)))

/-- `re.match(r'[a-z][a-z0-9_]*$', component)`. -/
def namespaceComponentOk (s : Str) : Bool :=
  match s with
  | [] => false
  | c :: cs => isLower c && cs.all (fun x => isLower x || isDigit x || x == '_')

/-- `validate_namespace_name` (parser.py:770-773). -/
def namespaceOk (s : Str) : Bool := (splitOn '.' s).all namespaceComponentOk && s.length ≤ 80

/-- `re.match(r'[A-Z][A-Za-z0-9_]*$', short_name)`. -/
def shortNameOk (s : Str) : Bool :=
  match s with
  | [] => false
  | c :: cs => isUpper c && cs.all (fun x => isLower x || isUpper x || isDigit x || x == '_')

/-- `validate_compound_type_full_name` (parser.py:776-782). -/
def fullNameOk (s : Str) : Bool :=
  s.contains '.' && namespaceOk (joinWith (lit ".") (splitOn '.' s).dropLast) && shortNameOk ((splitOn '.' s).getLastD []) && s.length ≤ 80

/-- `os.path.basename`. -/
def basename (path : Str) : Str := (splitOn '/' path).getLastD []

/-- `_namespace_from_filename` (parser.py:418-430), for absolute paths. The directories are not sorted here: of directories that are not
prefixes of each other at most one is a prefix of the file name. -/
def namespaceFromFilename (dirs : List Str) (filename : Str) : Except Err Str :=
  match dirs.find? (fun d => d.isPrefixOf filename) with
  | none => fail
  | some d =>
    let root := (splitOn '/' d).getLastD []
    let middle := (filename.drop d.length).take (filename.length - d.length - (basename filename).length)
    let ns := stripChar '.' (root ++ lit "." ++ stripChar '.' (middle.map (fun c => if c = '/' then '.' else c)))
    if namespaceOk ns then .ok ns else fail

/-- The data type ID and the short name in a file name (parser.py:439-446). -/
def fileId (items : List Str) : Except Err (Option Int × Str) :=
  if items.length = 2 ∨ items.length = 4 then .ok (none, items.getD 0 [])
  else match int10 (items.getD 0 []) with
    | some i => .ok (some i, items.getD 1 [])
    | none => fail

/-- The version in a file name (parser.py:448-455). -/
def fileVersion (items : List Str) : Except Err (Option (Int × Int)) :=
  if items.length = 2 ∨ items.length = 3 then .ok none
  else match int10 (items.getD (items.length - 3) []), int10 (items.getD (items.length - 2) []) with
    | some a, some b => .ok (some (a, b))
    | _, _ => fail

/-- `_full_typename_version_and_dtid_from_filename` (parser.py:432-458). -/
def fileInfo (dirs : List Str) (filename : Str) : Except Err (Str × Option (Int × Int) × Option Int) := do
  let items := splitOn '.' (basename filename)
  enforce (2 ≤ items.length && items.length ≤ 5 && items.getLastD [] = lit "uavcan")
  let (dtid, name) ← fileId items
  let version ← fileVersion items
  let ns ← namespaceFromFilename dirs filename
  let fullName := ns ++ lit "." ++ name
  enforce (fullNameOk fullName)
  .ok (fullName, version, dtid)

/-- The file system: the text of a file, the names in a directory (`none`: not a directory), whether a path is a file. -/
structure FS where
  read : Str → Option Str
  listdir : Str → Option (List Str)
  isfile : Str → Bool

/-- `os.path.join` of relative parts. -/
def pathJoin (d : Str) (parts : List Str) : Str := joinWith (lit "/") (d :: parts)

/-- The full name of the type that a word refers to (parser.py:476-480). -/
def referredName (dirs : List Str) (referencing typename : Str) : Except Err Str :=
  if typename.contains '.' then .ok typename
  else (namespaceFromFilename dirs referencing).map (fun ns => ns ++ lit "." ++ typename)

/-- `_locate_compound_type_definition` (parser.py:460-494). -/
def locate (fs : FS) (dirs : List Str) (referencing typename : Str) : Except Err Str := do
  let fullName ← referredName dirs referencing typename
  let components := (splitOn '.' fullName).dropLast
  let namespaceDirs := (dirs.filter (fun d => (splitOn '/' d).getLastD [] = components.headD [])).map (fun d => pathJoin d components.tail)
  let files := namespaceDirs.flatMap (fun d => ((fs.listdir d).getD []).map (fun fn => pathJoin d [fn]))
  match files.find? (fun fn => fs.isfile fn && (match fileInfo dirs fn with | .ok i => i.1 = fullName | .error _ => false)) with
  | some fn => .ok fn
  | none => fail

/-- `_parse_compound_type` (parser.py:551-557), for a reference in the file of this name; `parseFile` is `parse`. -/
def parseCompound (fs : FS) (dirs : List Str) (parseFile : Str → Except Err Def) (filename typedef : Str) : Except Err PTy := do
  let fn ← locate fs dirs filename typedef
  let d ← parseFile fn
  match d.response with
  | some _ => fail
  | none => .ok d.asType

/-- `parse` (parser.py:720-732). The first argument is the number of nested files that can be parsed before Python's recursion limit is
reached. -/
def parse (fs : FS) (eval : Str → Option PyVal) (dirs : List Str) : Nat → Str → Except Err Def
  | 0, _ => fail
  | n + 1, filename =>
    match fs.read filename with
    | none => fail
    | some text => do
      let info ← fileInfo dirs filename
      parseSource (parseCompound fs dirs (parse fs eval dirs n) filename) eval info text

end Parser
end Dronecan
