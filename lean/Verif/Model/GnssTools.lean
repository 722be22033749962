import Verif.Model.Dict
import Verif.Model.Double
import Verif.Model.Prim
import Verif.Model.PyM

/-!
# Model of the examples that watch GNSS messages (examples/fix2_gap.py, examples/rtcm_dump.py)

Both programs add a handler for a type of message and spin forever, ignoring exceptions (fix2_gap.py:42-46, rtcm_dump.py:94-98). The handlers are
modelled; a call that raises an exception leaves the variables as they are then. The RTCM decoder, which belongs to another project (MAVProxy), is a
parameter: any machine that reads a byte at a time. `print` gives its arguments; how they are formatted is left out.
-/

namespace Dronecan
namespace GnssTools

/-! ## fix2_gap.py -/

/-- The variables (fix2_gap.py:22-23) and what was printed. -/
structure Gaps where
  last : Dict Int Rat := []
  lowpass : Dict Int Rat := []
  out : List (Int × Rat × Rat) := []

/-- `0.9 * a + 0.1 * b`. -/
def smooth (a b : Rat) : Rat := fl (fl (fl (9 / 10) * a) + fl (fl (1 / 10) * b))

/-- `handle_fix2` (fix2_gap.py:25-38): the source and the time stamp of a message. `source` is `args.source_node_id`. -/
def handleFix2 (source : Option Int) (threshold : Rat) (node : Int) (ts : Rat) (s : Gaps) : Except Err Unit × Gaps :=
  if source ≠ none ∧ source ≠ some node then (.ok (), s)
  else
    match s.last.get? node with
    | none => (.ok (), { s with last := s.last.set node ts, lowpass := s.lowpass.set node (fl (1 / 5)) })
    | some before =>
      let dt := fl (ts - before)
      match s.lowpass.get? node with
      | none => (.error .keyError, s)
      | some low =>
        let low := smooth low dt
        let s := { s with lowpass := s.lowpass.set node low, last := s.last.set node ts }
        if threshold < dt then
          if low = 0 then (.error .zeroDivisionError, s) else (.ok (), { s with out := s.out ++ [(node, dt, fl (1 / low))] })
        else (.ok (), s)

/-- The messages that arrive, one after the other. -/
def gaps (source : Option Int) (threshold : Rat) : List (Int × Rat) → Gaps → Gaps
  | [], s => s
  | m :: ms, s => gaps source threshold ms (handleFix2 source threshold m.1 m.2 s).2

/-! ## rtcm_dump.py -/

/-- `rtcm3.RTCM3()`: `read`, `get_packet_ID()`, `len(get_packet())` and `len(pkt)`. -/
structure Decoder (D : Type) where
  read : D → Byte → D × Bool
  packetId : D → Nat
  packetLen : D → Nat
  pending : D → Nat

/-- A packet's identifier and its length (rtcm_dump.py:44). -/
abbrev Key := Nat × Nat

/-- What is printed: the line about a packet (rtcm_dump.py:82); for the statistics the packets lost (rtcm_dump.py:62), the line of a key with its
rate and its count (rtcm_dump.py:71) and the total length (rtcm_dump.py:74). -/
inductive Line where
  | packet (k : Key)
  | lost (n : Nat)
  | stat (k : Key) (rate : Rat) (count : Nat)
  | total (n : Nat)
deriving DecidableEq

/-- The variables (rtcm_dump.py:27-32), the file and what was printed. -/
structure Dump (D : Type) where
  decoder : D
  lastTime : Dict Key Rat := []
  deltas : Dict Key Rat := []
  counts : Dict Key Nat := []
  lastStats : Rat := 0
  lost : Nat := 0
  file : List Byte := []
  out : List Line := []

/-- `sorted` of keys: pairs in the order of their first components, then of the second ones. -/
def insertKey (k : Key) : List Key → List Key
  | [] => [k]
  | k' :: ks => if k.1 < k'.1 ∨ (k.1 = k'.1 ∧ k.2 ≤ k'.2) then k :: k' :: ks else k' :: insertKey k ks

/-- `sorted`. -/
def sortKeys : List Key → List Key
  | [] => []
  | k :: ks => insertKey k (sortKeys ks)

/-- Counting a packet (rtcm_dump.py:45-48). -/
def count {D : Type} (k : Key) (s : Dump D) : Dump D := { s with counts := s.counts.set k ((s.counts.get? k).getD 0 + 1) }

/-- The time since the last packet of the key (rtcm_dump.py:50-58). -/
def measure {D : Type} (k : Key) (now : Rat) (s : Dump D) : Dump D :=
  match s.lastTime.get? k with
  | none => { s with lastTime := s.lastTime.set k now }
  | some before =>
    let dt := fl (now - before)
    { s with
      lastTime := s.lastTime.set k now
      deltas := s.deltas.set k (match s.deltas.get? k with | none => dt | some d => smooth d dt) }

/-- The lines of the statistics (rtcm_dump.py:64-73) for the keys given; `total` is `total_len`. -/
def report {D : Type} : List Key → Nat → Dump D → Except Err Nat × Dump D
  | [], total, s => (.ok total, s)
  | k :: ks, total, s =>
    match s.counts.get? k with
    | none => report ks total { s with counts := s.counts.set k 0, out := s.out ++ [.stat k 0 0] }
    | some c =>
      match s.deltas.get? k with
      | none => (.error .keyError, s)
      | some d =>
        if d = 0 then (.error .zeroDivisionError, s)
        else report ks (if 0 < c then total + k.2 else total) { s with out := s.out ++ [.stat k (fl (1 / d)) c] }

/-- Forgetting the keys without packets (rtcm_dump.py:75-79). -/
def forget {D : Type} : List Key → Dump D → Except Err Unit × Dump D
  | [], s => (.ok (), s)
  | k :: ks, s =>
    match s.counts.get? k with
    | none => (.error .keyError, s)
    | some c =>
      if c = 0 then
        if s.lastTime.contains k then forget ks { s with deltas := s.deltas.del k, lastTime := s.lastTime.del k }
        else (.error .keyError, { s with deltas := s.deltas.del k })
      else forget ks s

/-- The statistics (rtcm_dump.py:60-80) every two seconds. -/
def statistics {D : Type} (now : Rat) (s : Dump D) : Except Err Unit × Dump D :=
  if fl (now - s.lastStats) < 2 then (.ok (), s)
  else
    let s := { s with lastStats := now, out := s.out ++ [.lost s.lost] }
    match report (sortKeys s.deltas.keys) 0 s with
    | (.error e, s) => (.error e, s)
    | (.ok total, s) =>
      let s := { s with out := s.out ++ [.total total] }
      match forget (sortKeys s.deltas.keys) s with
      | (.error e, s) => (.error e, s)
      | (.ok (), s) => (.ok (), { s with counts := [] })

/-- One byte (rtcm_dump.py:41-84), with the time that `time.time()` returns if it is called. -/
def readByte {D : Type} (dec : Decoder D) (stats : Bool) (b : Byte) (now : Rat) (s : Dump D) : Except Err Unit × Dump D :=
  let (d, complete) := dec.read s.decoder b
  let s := { s with decoder := d }
  if complete then
    let k := (dec.packetId d, dec.packetLen d)
    let s := measure k now (count k s)
    if stats then statistics now s else (.ok (), { s with out := s.out ++ [.packet k] })
  else if dec.pending d = 0 then (.ok (), { s with lost := s.lost + 1 })
  else (.ok (), s)

/-- The loop over the bytes. -/
def readBytes {D : Type} (dec : Decoder D) (stats : Bool) : List (Byte × Rat) → Dump D → Except Err Unit × Dump D
  | [], s => (.ok (), s)
  | (b, now) :: rest, s =>
    match readByte dec stats b now s with
    | (.error e, s) => (.error e, s)
    | (.ok (), s) => readBytes dec stats rest s

/-- `handle_RTCM` (rtcm_dump.py:34-86): each byte of the message with the time at which it is processed. -/
def handleRtcm {D : Type} (dec : Decoder D) (stats : Bool) (data : List (Byte × Rat)) (s : Dump D) : Except Err Unit × Dump D :=
  match readBytes dec stats data s with
  | (.error e, s) => (.error e, s)
  | (.ok (), s) => (.ok (), { s with file := s.file ++ data.map (·.1) })

/-- The messages that arrive, one after the other. -/
def dump {D : Type} (dec : Decoder D) (stats : Bool) : List (List (Byte × Rat)) → Dump D → Dump D
  | [], s => s
  | m :: ms, s => dump dec stats ms (handleRtcm dec stats m s).2

end GnssTools
end Dronecan
