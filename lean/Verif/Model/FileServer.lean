import Verif.Model.PyM
import Verif.Model.Dict

/-!
# Model of the file server (dronecan/app/file_server.py)

Paths are lists of characters. The functions of `os.path` that the server uses are modelled after Python's `posixpath`:
the model is of a POSIX system, where `normcase` is the identity and `os.path.sep` is `/`, the separator of
`uavcan.protocol.file.Path`, so that the `replace` in `_resolve_path` does nothing. A path that contains a NUL character is
treated as any other.
-/

namespace Dronecan
namespace Files
open PyM

abbrev Str := List Char

/-- `s.split('/')`. -/
def splitSlash : Str → List Str
  | [] => [[]]
  | c :: cs =>
    if c = '/' then [] :: splitSlash cs
    else match splitSlash cs with
      | [] => [[c]]
      | h :: t => (c :: h) :: t

/-- `'/'.join(comps)`. -/
def joinSlash : List Str → Str
  | [] => []
  | [a] => a
  | a :: b :: rest => a ++ '/' :: joinSlash (b :: rest)

/-- `posixpath.isabs`. -/
def isAbs (p : Str) : Bool := p.head? == some '/'

/-- One round of the loop of `posixpath.normpath`; `new` is `new_comps` with the last component first. -/
def normStep (abs : Bool) (new : List Str) (comp : Str) : List Str :=
  if comp = [] ∨ comp = ['.'] then new
  else if comp ≠ ['.', '.'] ∨ (abs = false ∧ new = []) ∨ new.head? = some ['.', '.'] then comp :: new
  else new.tail

/-- The number of leading slashes that `posixpath.normpath` keeps: two are kept, one and more than two become one. -/
def initialSlashes (p : Str) : Nat :=
  if isAbs p then (if p.take 2 = ['/', '/'] ∧ p.take 3 ≠ ['/', '/', '/'] then 2 else 1) else 0

/-- `posixpath.normpath`. -/
def normpath (p : Str) : Str :=
  if p = [] then ['.']
  else
    let comps := ((splitSlash p).foldl (normStep (isAbs p)) []).reverse
    let out := List.replicate (initialSlashes p) '/' ++ joinSlash comps
    if out = [] then ['.'] else out

/-- `posixpath.join(a, b)`. -/
def join (a b : Str) : Str :=
  if isAbs b then b
  else if a = [] ∨ a.getLast? = some '/' then a ++ b
  else a ++ '/' :: b

/-- `posixpath.abspath`, with `cwd` for `os.getcwd()`. -/
def abspath (cwd p : Str) : Str := normpath (if isAbs p then p else join cwd p)

/-- The file system during one request: which paths `os.path.isfile` accepts, and the content that `open` and `read` give;
`none` if they raise. -/
structure FS where
  isfile : Str → Bool
  content : Str → Option (List Byte)
  cwd : Str

/-- file_server.py:22-30 `_try_resolve_relative_path`. -/
def tryResolve (fs : FS) (searchIn : List Str) (rel : Str) : Option Str :=
  match searchIn with
  | [] => none
  | p :: rest =>
    let p := abspath fs.cwd p
    let r := normpath rel
    if r <:+ p ∧ fs.isfile p = true then some p
    else if fs.isfile (join p r) = true then some (join p r)
    else tryResolve fs rest rel

/-- `FileServer` (file_server.py:34-50): `maxSize` is the capacity of the field `data` of `uavcan.protocol.file.Read`'s
response (256 in the standard DSDL definitions). -/
structure Server where
  lookup : List Str
  pathMap : Dict Str Str := []
  hits : Dict Str Nat := []
  maxSize : Nat := 256

/-- file_server.py:60-70 `_resolve_path` for a path that was decoded. An empty `path_map` behaves like a missing one.
`OSError(ENOENT)` is `Err.keyError` here; the callers treat all exceptions alike. The paths found are never empty strings
if the file system has no file with an empty name; `if not out` is modelled all the same. -/
def resolvePath (fs : FS) (path : Str) : PyM Server Str := fun s =>
  match s.pathMap.get? path with
  | some p => (.ok p, s)
  | none =>
    match tryResolve fs s.lookup path with
    | none => (.error .keyError, s)
    | some [] => (.error .keyError, s)
    | some out => (.ok out, { s with hits := s.hits.set out ((s.hits.get? out).getD 0 + 1) })

/-- The response: an error flag (`OK` or `UNKNOWN_ERROR`) and the payload. -/
inductive Resp (α : Type)
  | ok (a : α)
  | unknownError
deriving DecidableEq

/-- What `open(self._resolve_path(path), "rb")` opens. The result of the handlers depends on nothing else. -/
def openFile (fs : FS) (path : Str) : PyM Server (List Byte) :=
  resolvePath fs path >>- fun p =>
  match fs.content p with
  | none => PyM.raise .keyError
  | some c => PyM.pure c

/-- The `try ... except Exception` of both handlers. -/
def answer {α : Type} (m : PyM Server α) : PyM Server (Resp α) := fun s =>
  match m s with
  | (.ok a, s') => (.ok (.ok a), s')
  | (.error _, s') => (.ok .unknownError, s')

/-- file_server.py:72-88 `_get_info`: `none` is a path that is not valid UTF-8, which makes the logging call before the
`try` raise. The size is that of the file (assigning it to the 40-bit field is not modelled, that is, files are assumed to
be shorter than 2^40 bytes). -/
def getInfo (fs : FS) (path : Option Str) : PyM Server (Resp Nat) :=
  match path with
  | none => PyM.raise .valueError
  | some path => answer (openFile fs path >>- fun c => PyM.pure c.length)

/-- file_server.py:90-105 `_read`: `f.seek(offset)`, `f.read(read_size)`. The offset is an unsigned field. -/
def read (fs : FS) (path : Option Str) (offset : Nat) : PyM Server (Resp (List Byte)) :=
  match path with
  | none => PyM.raise .valueError
  | some path => answer (openFile fs path >>- fun c => PyM.get >>- fun s => PyM.pure ((c.drop offset).take s.maxSize))

end Files
end Dronecan
