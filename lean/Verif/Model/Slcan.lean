import Verif.Model.Can
import Verif.Model.PyM

/-!
# Model of the SLCAN driver's line protocol (dronecan/driver/slcan.py)

Modelled: what the TX worker writes for a frame, how the RX worker takes the byte stream apart, and how it parses a line.
Not modelled: processes, threads, queues being full, the serial port, the initialisation of the adapter. Python 3.
-/

namespace Dronecan
namespace Slcan
open Can

/-! ## Python's functions on byte strings -/

/-- The byte of an ASCII character. -/
def ch (c : Char) : Byte := BitVec.ofNat 8 c.toNat

def CR : Byte := 13
def LF : Byte := 10
def NACK : Byte := 7
def ETX : Byte := 3

/-- `bytes.strip(...)` for a set of bytes. -/
def stripBy (p : Byte → Bool) (l : List Byte) : List Byte := ((l.dropWhile p).reverse.dropWhile p).reverse

/-- The white space that `bytes.strip()` and `int` remove. -/
def isWs (b : Byte) : Bool := b == 32 || (9 ≤ b.toNat && b.toNat ≤ 13)

/-- The value of a hexadecimal digit. -/
def hexVal (b : Byte) : Option Nat :=
  let n := b.toNat
  if 48 ≤ n ∧ n ≤ 57 then some (n - 48)
  else if 65 ≤ n ∧ n ≤ 70 then some (n - 55)
  else if 97 ≤ n ∧ n ≤ 102 then some (n - 87)
  else none

/-- The digits of a Python integer: single underscores may stand between digits. `prev` says whether a digit came before. -/
def intDigits : List Byte → Bool → Nat → Option Nat
  | [], prev, acc => if prev then some acc else none
  | c :: cs, prev, acc =>
    if c = ch '_' then (if prev then intDigits cs false acc else none)
    else match hexVal c with
      | some d => intDigits cs true (acc * 16 + d)
      | none => none

/-- Everything after the sign: an optional prefix `0x` or `0X`, which may be followed by one underscore, and the digits. -/
def intBody (s : List Byte) : Option Nat :=
  match s with
  | a :: b :: rest =>
    if a = ch '0' ∧ (b = ch 'x' ∨ b = ch 'X') then
      (match rest with
      | c :: rest' => if c = ch '_' then intDigits rest' false 0 else intDigits rest false 0
      | [] => none)
    else intDigits s false 0
  | _ => intDigits s false 0

/-- `int(s, 16)` for a byte string; `none` is `ValueError`. -/
def pyInt16 (s : List Byte) : Option Int :=
  match stripBy isWs s with
  | c :: rest =>
    if c = ch '+' then (intBody rest).map Int.ofNat
    else if c = ch '-' then (intBody rest).map fun (n : Nat) => -(n : Int)
    else (intBody (c :: rest)).map Int.ofNat
  | [] => none

/-- `binascii.a2b_hex`; `none` is `binascii.Error`. -/
def a2bHex : List Byte → Option (List Byte)
  | [] => some []
  | [_] => none
  | a :: b :: rest =>
    match hexVal a, hexVal b, a2bHex rest with
    | some x, some y, some r => some (BitVec.ofNat 8 (x * 16 + y) :: r)
    | _, _, _ => none

/-- `s.split(sep)` for a single byte. -/
def splitOn (sep : Byte) : List Byte → List (List Byte)
  | [] => [[]]
  | c :: cs =>
    if c = sep then [] :: splitOn sep cs
    else match splitOn sep cs with
      | [] => [[c]]
      | h :: t => (c :: h) :: t

/-- `s.split(b'\r\n')`. -/
def splitCrLf : List Byte → List (List Byte)
  | [] => [[]]
  | [c] => [[c]]
  | c :: d :: cs =>
    if c = CR ∧ d = LF then [] :: splitCrLf cs
    else match splitCrLf (d :: cs) with
      | [] => [[c]]
      | h :: t => (c :: h) :: t

/-- `parts[:-1], parts[-1]`; `split` never returns an empty list. -/
def unsnoc (parts : List (List Byte)) : List (List Byte) × List Byte := (parts.dropLast, parts.getLastD [])

/-! ## Receiving -/

/-- A parsed line: the frame, and the adapter's time stamp in milliseconds if the line has one. -/
structure Parsed where
  frame : CANFrame
  hwTs : Option Int
deriving DecidableEq

/-- The header of a line (slcan.py:243-253): the length of the identifier and whether it is CAN FD. -/
def header (c : Byte) : Option (Nat × Bool) :=
  if c = ch 'T' then some (8, false)
  else if c = ch 't' then some (3, false)
  else if c = ch 'D' then some (8, true)
  else none

/-- slcan.py:236-283 `_process_slcan_line`, up to the time stamp estimators and the queue. `ok none` is a line that is
ignored. -/
def parseLine (line : List Byte) : Except Err (Option Parsed) :=
  let line := stripBy (· == ETX) (stripBy (· == NACK) (stripBy isWs line))
  match line with
  | [] => .ok none
  | c :: _ =>
    match header c with
    | none => .ok none
    | some (idLen, canfd) =>
      match pyInt16 ((line.drop 1).take idLen) with
      | none => .error .valueError
      | some pid =>
        match line[1 + idLen]? with
        | none => .error .indexError
        | some d =>
          match hexVal d with
          | none => .error .valueError
          | some dlc =>
            let len := dlcToLen dlc
            if (canfd = true ∧ len > 64) ∨ (canfd = false ∧ len > 8) then .error .driverError
            else
              match a2bHex ((line.drop (2 + idLen)).take (len * 2)) with
              | none => .error .valueError
              | some data =>
                if line.length > 2 + idLen + len * 2 then
                  match pyInt16 (line.drop (line.length - 4)) with
                  | none => .error .valueError
                  | some ts => .ok (some ⟨⟨pid, data, idLen == 8, canfd⟩, some ts⟩)
                else .ok (some ⟨⟨pid, data, idLen == 8, canfd⟩, none⟩)

/-- Monotonic and real time. -/
abbrev Stamp := Rat × Rat

/-- The environment: the two time stamp estimators (slcan.py:276-277) as one, over a state `σ`, `none` if one of them raises
(`SlcanTime.stamp`); which byte strings are valid UTF-8. -/
structure REnv (σ : Type) where
  update : σ → Int → Stamp → Option Stamp × σ
  utf8 : List Byte → Bool

/-- `IPCCommandLineExecutionRequest` (slcan.py:163-174). -/
structure Cmd where
  text : List Byte
  deadline : Int
deriving DecidableEq

/-- What the RX worker puts into its output queue. -/
inductive Item
  | frame (f : CANFrame) (ts : Stamp)
  | response (cmd : List Byte) (lines : List (List Byte)) (expired : Bool)
  /-- An exception. -/
  | failure (e : Err)
deriving DecidableEq

/-- The RX worker: the local variables of `run` (slcan.py:294-301), the queue of commands, the output. -/
structure Rx (σ : Type) where
  data : List Byte := []
  cmd : Option Cmd := none
  resp : List (List Byte) := []
  pending : List Cmd := []
  out : List Item := []
  est : σ
  /-- Not in the code: the lines taken for command output, in order. -/
  cli : List (List Byte) := []
  /-- Not in the code: the frame lines processed, in order, with the time stamps estimated for them. -/
  seen : List (Parsed × Option Stamp) := []

variable {σ : Type} (env : REnv σ)

/-- slcan.py:286-291: one line; exceptions are swallowed. -/
def processLine (ts : Stamp) (s : Rx σ) (line : List Byte) : Rx σ :=
  match parseLine line with
  | .error _ => s
  | .ok none => s
  | .ok (some p) =>
    match p.hwTs with
    | none => { s with
        out := s.out ++ [.frame p.frame ts]
        seen := s.seen ++ [(p, some ts)] }
    | some hw =>
      match env.update s.est hw ts with
      | (none, est) => { s with
          est := est
          seen := s.seen ++ [(p, none)] }
      | (some ts', est) => { s with
          out := s.out ++ [.frame p.frame ts']
          est := est
          seen := s.seen ++ [(p, some ts')] }

/-- slcan.py:285-291 `_process_many_slcan_lines`. -/
def processLines (ts : Stamp) (s : Rx σ) (lines : List (List Byte)) : Rx σ := lines.foldl (processLine env ts) s

/-- slcan.py:309-322: fetching commands and expiring them. The clock is read once per iteration of `run` in the model. -/
def checkCommands (now : Int) (s : Rx σ) : Rx σ :=
  let expire (out : List Item) (c : Cmd) : List Item := out ++ [.response c.text [] true]
  match s.cmd with
  | some c => if now ≥ c.deadline then fetch expire { s with
      cmd := none
      out := expire s.out c } s.pending else s
  | none => fetch expire s s.pending
where
  /-- The rounds of the loop that begin without a command. -/
  fetch (expire : List Item → Cmd → List Item) (s : Rx σ) : List Cmd → Rx σ
    | [] => { s with pending := [] }
    | c :: rest =>
      if now ≥ c.deadline then fetch expire { s with
        resp := []
        out := expire s.out c } rest
      else { s with
        cmd := some c
        resp := []
        pending := rest }

/-- slcan.py:344-370: one line of command output. Shipping the response raises if a line is not valid UTF-8. -/
def processCli (s : Rx σ) (line : List Byte) : Except Err Unit × Rx σ :=
  let s := { s with cli := s.cli ++ [line] }
  if s.resp.length = 0 then
    match s.cmd with
    | some c => if line = c.text then (.ok (), { s with resp := s.resp ++ [line] }) else (.ok (), s)
    | none => (.ok (), s)
  else if line = [ETX] then
    match s.cmd with
    | none => (.error .attributeError, s)
    | some c =>
      if (s.resp.drop 1).all env.utf8 then
        let out := s.out ++ [.response c.text (s.resp.drop 1) false]
        match s.pending with
        | [] => (.ok (), { s with
            out := out
            cmd := none
            resp := [] })
        | c' :: rest => (.ok (), { s with
            out := out
            cmd := some c'
            pending := rest
            resp := [] })
      else (.error .valueError, s)
  else (.ok (), { s with resp := s.resp ++ [line] })

/-- slcan.py:338-370: the lines that end in `\r\n`. -/
def processCliLines (ts : Stamp) (s : Rx σ) : List (List Byte) → Except Err Unit × Rx σ
  | [] => (.ok (), s)
  | ln :: rest =>
    let (slc, cli) := unsnoc (splitOn CR ln)
    match processCli env (processLines env ts s slc) cli with
    | (.ok _, s) => processCliLines ts s rest
    | (.error e, s) => (.error e, s)

/-- One iteration of `run` (slcan.py:303-396). The limit on successive errors is not modelled. -/
def iteration (s : Rx σ) (new : List Byte) (ts : Stamp) (now : Int) : Rx σ :=
  let s := checkCommands now { s with data := s.data ++ new }
  match s.cmd with
  | none =>
    let (lines, rest) := unsnoc (splitOn CR s.data)
    processLines env ts { s with data := rest } lines
  | some _ =>
    let (lines, rest) := unsnoc (splitCrLf s.data)
    match processCliLines env ts { s with data := rest } lines with
    | (.error e, s) => { s with out := s.out ++ [.failure e] }
    | (.ok _, s) =>
      let (slc, rest') := unsnoc (splitOn CR s.data.dropLast)
      processLines env ts { s with data := rest' ++ s.data.drop (s.data.length - 1) } slc

/-- One read of the port: the data, the two time stamps, the clock, and the commands queued before it. -/
structure Read where
  new : List Byte
  ts : Stamp
  now : Int
  cmds : List Cmd := []

def run (s : Rx σ) (reads : List Read) : Rx σ :=
  reads.foldl (fun s r => iteration env { s with pending := s.pending ++ r.cmds } r.new r.ts r.now) s

/-! ## Sending -/

/-- An upper case hexadecimal digit. -/
def hexDigitU (n : Nat) : Byte := BitVec.ofNat 8 (if n < 10 then 48 + n else 55 + n)

/-- A lower case hexadecimal digit. -/
def hexDigitL (n : Nat) : Byte := BitVec.ofNat 8 (if n < 10 then 48 + n else 87 + n)

/-- `'%X' % n`. -/
def toHex (n : Nat) : List Byte :=
  if n < 16 then [hexDigitU n] else toHex (n / 16) ++ [hexDigitU (n % 16)]
termination_by n
decreasing_by omega

/-- `'%0wX' % n` for a non-negative number. -/
def padHex (w n : Nat) : List Byte := List.replicate (w - (toHex n).length) (ch '0') ++ toHex n

/-- `binascii.b2a_hex`. -/
def b2aHex (data : List Byte) : List Byte := data.flatMap fun b => [hexDigitL (b.toNat / 16), hexDigitL (b.toNat % 16)]

/-- slcan.py:410-417 `_send_frame`: what is written to the port. For a standard frame the format string has one
conversion for two arguments, which is a `TypeError`. The identifier is taken as a natural number. -/
def sendFrame (f : CANFrame) : Except Err (List Byte) :=
  if f.extended then
    .ok ([if f.canfd then ch 'D' else ch 'T'] ++ padHex 8 f.canId.toNat ++ toHex (lenToDlc f.data.length) ++
      b2aHex f.data ++ [CR])
  else .error .typeError

end Slcan
end Dronecan
