import Verif.Model.Can
import Verif.Model.Crc
import Verif.Model.Double
import Verif.Model.Struct

/-!
# Model of the log file driver (dronecan/driver/file.py)

Not modelled: the file system (the content of a file being read does not change), sleeping.
-/

namespace Dronecan
namespace LogFile
open Can

/-! ## Writing -/

/-- The identifier with the flag of extended frames (file.py:174-176). `|` with a positive number leaves a negative one
negative; which one does not matter here. -/
def messageId (f : CANFrame) : Int :=
  if f.canId < 0 then f.canId else ((f.canId.toNat ||| if f.extended then 2 ^ 31 else 0 : Nat) : Int)

/-- file.py:169-172. -/
def flagsOf (f : CANFrame) : Nat := if f.canfd then 1 else 0

/-- `int(frame.ts_monotonic*1e6)` (file.py:180). -/
def micros (ts : Rat) : Int := truncRat (fl (ts * 1000000))

/-- What `send_frame` writes (file.py:162-185): the header, then the data. -/
def writeFrame (f : CANFrame) (ts : Rat) : Except Err (List Byte) :=
  if fits 8 (micros ts) && fits 2 f.data.length && fits 4 (messageId f) then
    .ok (packLE 2 0x2934 ++ packLE 8 (micros ts).toNat ++ packLE 2 (crc16 0xFFFF f.data).toNat ++ packLE 2 f.data.length ++
      packLE 2 (flagsOf f) ++ packLE 4 (messageId f).toNat ++ f.data)
  else .error .structError

/-- Several frames, one after the other; the first failure is the end. -/
def writeAll : List (CANFrame × Rat) → Except Err (List Byte)
  | [] => .ok []
  | w :: ws =>
    match writeFrame w.1 w.2 with
    | .error e => .error e
    | .ok b =>
      match writeAll ws with
      | .error e => .error e
      | .ok bs => .ok (b ++ bs)

/-! ## Reading -/

/-- A frame that was read, with its `ts_monotonic`. -/
structure RxFrame where
  frame : CANFrame
  ts : Rat
deriving DecidableEq

/-- The driver in read-only mode (file.py:35-57). `last` is `end_file_monotonic_ts`. -/
structure Reader where
  content : List Byte
  pos : Nat := 0
  eof : Bool := false
  curr : Option RxFrame := none
  start : Option Rat
  startFile : Rat := 0
  last : Option Rat := none
  speedup : Rat := 1

/-- `_read_frame` (file.py:67-93), which returns the frame and its time stamp in the file. `now` is the clock, which
`CANFrame` reads if the time stamp given is zero (common.py:33). -/
def readFrame (now : Rat) (r : Reader) : Except Err (Option (RxFrame × Rat)) × Reader :=
  if r.content.length ≤ r.pos then (.ok none, { r with eof := true })
  else
    let header := (r.content.drop r.pos).take 20
    let r := { r with pos := r.pos + header.length }
    if header.length < 20 then (.ok none, r)
    else
      let magic := unpackLE (header.take 2)
      let ts := fl ((unpackLE ((header.drop 2).take 8) : Rat) / 1000000)
      let crc := unpackLE ((header.drop 10).take 2)
      let length := unpackLE ((header.drop 12).take 2)
      let flags := unpackLE ((header.drop 14).take 2)
      let msgid := unpackLE ((header.drop 16).take 4)
      if magic ≠ 0x2934 then (.error .driverError, r)
      else
        let data := (r.content.drop r.pos).take length
        let r := { r with pos := r.pos + data.length }
        if data.length < length then (.error .driverError, r)
        else if crc ≠ (crc16 0xFFFF data).toNat then (.error .driverError, r)
        else
          match r.start with
          | none => (.error .typeError, r)
          | some start =>
            let mono := fl (fl (start + ts) - r.startFile)
            let frame : CANFrame := ⟨((msgid &&& 0x1FFFFFFF : Nat) : Int), data, msgid.testBit 31, flags.testBit 0⟩
            (.ok (some (⟨frame, if mono = 0 then now else mono⟩, ts)), r)

/-- The loop of `set_first_and_last_timestamp` (file.py:104-108); `n` bounds the number of rounds. -/
def lastLoop (now : Rat) : Nat → Reader → Except Err Unit × Reader
  | 0, r => (.error .diverge, r)
  | n + 1, r =>
    match readFrame now r with
    | (.error e, r) => (.error e, r)
    | (.ok none, r) => (.ok (), { r with last := none })
    | (.ok (some x), r) => lastLoop now n { r with last := some x.2 }

/-- Opening a log for reading (file.py:47-53) with `set_first_and_last_timestamp` (file.py:95-112). -/
def openLog (content : List Byte) (speedup : Rat) (now : Rat) : Except Err Reader :=
  match readFrame now { content := content, start := some now, speedup := speedup } with
  | (.error e, _) => .error e
  | (.ok none, _) => .error .driverError
  | (.ok (some x), r) =>
    match lastLoop now (content.length + 1) { r with startFile := x.2 } with
    | (.error e, _) => .error e
    | (.ok _, r) => .ok { r with eof := false, pos := 0 }

/-- `set_start_timestamp` (file.py:120-121). -/
def setStart (ts : Option Rat) (r : Reader) : Reader := { r with start := ts }

/-- The part of `receive` after there is a current frame (file.py:147-160). -/
def deliver (now : Rat) (timeout : Option Rat) (x : RxFrame) (r : Reader) : Except Err (Option RxFrame) × Reader :=
  let done : Except Err (Option RxFrame) × Reader := (.ok (some x), { r with curr := none })
  if r.speedup = -1 then done
  else if r.speedup = 0 then (.error .zeroDivisionError, r)
  else
    let wait := fl (fl (x.ts - now) / r.speedup)
    if 0 < wait then
      match timeout with
      | none => (.ok none, r)
      | some t => if wait ≤ t then done else (.ok none, r)
    else done

/-- `receive` (file.py:135-160) at time `now`. -/
def receive (now : Rat) (timeout : Option Rat) (r : Reader) : Except Err (Option RxFrame) × Reader :=
  if r.eof then (.ok none, r)
  else
    let r := { r with start := some (r.start.getD now) }
    match r.curr with
    | some x => deliver now timeout x r
    | none =>
      match readFrame now r with
      | (.error e, r) => (.error e, r)
      | (.ok none, r) => (.ok none, { r with curr := none })
      | (.ok (some x), r) => deliver now timeout x.1 { r with curr := some x.1 }

/-- `end_of_stream` (file.py:123-126) of a log opened for reading. -/
def endOfStream (r : Reader) : Bool := r.eof

/-- `stream_progress` (file.py:128-133) of a log opened for reading. -/
def streamProgress (r : Reader) : Except Err Rat :=
  if r.eof then .ok 100
  else if r.content.length = 0 then .error .zeroDivisionError
  else .ok (fl (fl ((r.pos : Rat) / (r.content.length : Rat)) * 100))

/-- Calls of `receive`: each result, and the driver afterwards. -/
def receives : List (Rat × Option Rat) → Reader → List (Except Err (Option RxFrame)) × Reader
  | [], r => ([], r)
  | c :: cs, r =>
    let (x, r) := receive c.1 c.2 r
    let (xs, r) := receives cs r
    (x :: xs, r)

end LogFile
end Dronecan
