import Verif.Model.Codec
import Verif.Model.Crc

/-!
# Frames and transfers

Model of `Frame`, `datalength_roundup`, `Transfer` (transport.py:626-885).

Simplifications: a frame carries one optional timestamp instead of two (both are copied the same way); node IDs,
type IDs and discriminators are natural numbers (Python ints that are never negative here; `source_node_id=None`, which
`Node` never uses for sending, is not modelled); signatures are not stored in the transfer (they are not used after
construction); the global type registry `DATATYPES` is a function argument.
-/

namespace Dronecan

/-- `Frame`, transport.py:626-632. -/
structure Frame where
  id : Nat
  bytes : List Byte
  ts : Option Int := none
  canfd : Bool := false
  deriving DecidableEq, Repr

/-- `Frame.transfer_key`, transport.py:634-638. -/
def Frame.key (f : Frame) : Nat × Option Byte := (f.id, f.bytes.getLast?.map (· &&& 0x1F#8))

/-- `Frame.toggle`, transport.py:640-642. -/
def Frame.toggle (f : Frame) : Bool :=
  match f.bytes.getLast? with
  | some b => b &&& 0x20#8 != 0#8
  | none => false

/-- `Frame.end_of_transfer`, transport.py:644-646. -/
def Frame.eot (f : Frame) : Bool :=
  match f.bytes.getLast? with
  | some b => b &&& 0x40#8 != 0#8
  | none => false

/-- `Frame.start_of_transfer`, transport.py:648-650. -/
def Frame.sot (f : Frame) : Bool :=
  match f.bytes.getLast? with
  | some b => b &&& 0x80#8 != 0#8
  | none => false

/-- `datalength_roundup`, transport.py:657-674. -/
def datalengthRoundup (n : Nat) : Nat :=
  if n ≤ 8 then n
  else if n ≤ 12 then 12
  else if n ≤ 16 then 16
  else if n ≤ 20 then 20
  else if n ≤ 24 then 24
  else if n ≤ 32 then 32
  else if n ≤ 48 then 48
  else 64

/-- The attributes of a `Transfer` that are encoded in the CAN identifier, transport.py:690-698. -/
structure Header where
  prio : Nat := 31
  source : Nat := 0
  dest : Option Nat := none
  service : Bool := false
  request : Bool := false
  discriminator : Option Nat := none
  dtid : Nat := 0
  deriving DecidableEq, Repr

/-- `Transfer.message_id` getter, transport.py:723-748. Comparing `None` with a number is a `TypeError`. -/
def encodeId (h : Header) : Except Err Nat :=
  let id := ((h.prio &&& 0x1F) <<< 24) ||| (h.service.toNat <<< 7) ||| h.source
  if h.service then
    if ¬ h.dtid ≤ 0xFF then .error .assertionError
    else match h.dest with
      | none => .error .typeError
      | some dest =>
        if ¬ (1 ≤ dest ∧ dest ≤ 0x7F) then .error .assertionError
        else .ok (id ||| h.dtid <<< 16 ||| h.request.toNat <<< 15 ||| dest <<< 8)
  else if h.source = 0 then
    if h.dest ≠ none then .error .assertionError
    else match h.discriminator with
      | none => .error .assertionError
      | some d => .ok (id ||| d <<< 10 ||| (h.dtid &&& 0x3) <<< 8)
  else
    if ¬ h.dtid ≤ 0xFFFF then .error .assertionError
    else .ok (id ||| h.dtid <<< 8)

/-- `Transfer.message_id` setter applied to a freshly constructed `Transfer()`, transport.py:750-764. -/
def decodeId (value : Nat) : Header :=
  let prio := (value >>> 24) &&& 0x1F
  let service := value &&& 0x80 != 0
  let source := value &&& 0x7F
  if service then
    { prio, service, source,
      dtid := (value >>> 16) &&& 0xFF
      request := value &&& 0x8000 != 0
      dest := some ((value >>> 8) &&& 0x7F) }
  else if source = 0 then
    { prio, service, source,
      discriminator := some ((value >>> 10) &&& 0x3FFF)
      dtid := (value >>> 8) &&& 0x3 }
  else
    { prio, service, source, dtid := (value >>> 8) &&& 0xFFFF }

/-- A `Transfer` ready to be sent, transport.py:680-717. `crc` is `data_type_crc`. -/
structure OutTransfer where
  header : Header
  tid : Nat
  payload : List Byte
  crc : BitVec 16
  canfd : Bool := false
  deriving DecidableEq, Repr

/-- An entry of the type registry: `default_dtid`, `base_crc` and the structures of the message, or of the request
and the response of a service. -/
structure DataType where
  dtid : Nat
  baseCrc : BitVec 16
  msg : Ty
  resp : Ty := .comp false []

/-- The structure selected by the direction of the transfer, transport.py:854-857. -/
def DataType.payloadTy (dt : DataType) (service request : Bool) : Ty :=
  if service then if request then dt.msg else dt.resp else dt.msg

/-- Serialization in the `Transfer` constructor, transport.py:702-710 (`h` gives the other constructor arguments). -/
def mkTransfer (dt : DataType) (h : Header) (tid : Nat) (v : Val) (canfd : Bool) : Except Err OutTransfer := do
  let bits ← pack (dt.payloadTy h.service h.request) v (!canfd)
  pure { header := { h with dtid := dt.dtid }, tid, payload := bytesFromBits bits, crc := dt.baseCrc, canfd }

/-- Payload bytes per frame, `frame_max-1` (transport.py:769). -/
def frameCap (canfd : Bool) : Nat := if canfd then 63 else 7

theorem frameCap_pos (canfd : Bool) : 0 < frameCap canfd := by cases canfd <;> decide

/-- The padded payload, transport.py:771-780. -/
def padPayload (canfd : Bool) (payload : List Byte) : List Byte :=
  if canfd = true ∧ payload.length > 7 then
    let totalLen := payload.length + 1
    let totalLen := if totalLen > 64 then totalLen + 2 else totalLen
    let modLen := totalLen % 63
    let padLen := datalengthRoundup modLen - modLen
    payload ++ List.replicate padLen 0#8
  else payload

/-- The tail byte, transport.py:795-798. -/
def tailByte (first last : Bool) (prevTail : Byte) (tid : Nat) : Byte :=
  (if first then 0x80#8 else 0#8) ||| (if last then 0x40#8 else 0#8) |||
    ((prevTail ^^^ 0x20#8) &&& 0x20#8) ||| BitVec.ofNat 8 (tid &&& 0x1F)

/-- The frame generation loop, transport.py:793-803. -/
def frameLoop (id tid : Nat) (canfd : Bool) (first : Bool) (prevTail : Byte) (remaining : List Byte) : List Frame :=
  let tail := tailByte first (remaining.length ≤ frameCap canfd) prevTail tid
  let frame : Frame := { id, bytes := remaining.take (frameCap canfd) ++ [tail], canfd }
  if remaining.drop (frameCap canfd) = [] then [frame]
  else frame :: frameLoop id tid canfd false tail (remaining.drop (frameCap canfd))
termination_by remaining.length
decreasing_by
  have := frameCap_pos canfd
  rename_i h
  have : remaining ≠ [] := by rintro rfl; simp at h
  have := List.length_pos_iff.2 this
  simp; omega

/-- `Transfer.to_frames`, transport.py:766-805: the frames, and the transfer with its payload as left behind (`payload`
is padded in place). The ID assertions of `message_id` come out as errors. -/
def toFrames (t : OutTransfer) : Except Err (OutTransfer × List Frame) := do
  let payload := padPayload t.canfd t.payload
  let remaining :=
    if payload.length > frameCap t.canfd then
      let crc := crc16 t.crc payload
      [(crc &&& 0xFF#16).setWidth 8, (crc >>> 8).setWidth 8] ++ payload
    else payload
  let id ← encodeId t.header
  pure ({ t with payload }, frameLoop id t.tid t.canfd true 0x20#8 remaining)

/-- A received `Transfer` after `from_frames`. -/
structure InTransfer where
  header : Header
  tid : Byte
  ts : Option Int
  payload : Val
  canfd : Bool
  deriving Repr

/-- The tail-byte validation loop, transport.py:813-832. `n` is `len(frames)`. -/
def checkTails (n : Nat) (tid : Byte) : Nat → Byte → List Frame → Except Err Unit
  | _, _, [] => .ok ()
  | idx, toggle, f :: fs =>
    match f.bytes.getLast? with
    | none => .error .indexError
    | some tail =>
      if tail &&& 0x1F#8 ≠ tid then .error .transferError
      else if idx = 0 ∧ ¬ tail &&& 0x80#8 ≠ 0#8 then .error .transferError
      else if idx > 0 ∧ tail &&& 0x80#8 ≠ 0#8 then .error .transferError
      else if idx + 1 = n ∧ ¬ tail &&& 0x40#8 ≠ 0#8 then .error .transferError
      else if idx + 1 < n ∧ tail &&& 0x40#8 ≠ 0#8 then .error .transferError
      else if tail &&& 0x20#8 ≠ toggle then .error .transferError
      else checkTails n tid (idx + 1) (toggle ^^^ 0x20#8) fs

/-- Tail-byte validation of a frame list, transport.py:807-832; returns the transfer ID. -/
def validateFrames (frames : List Frame) : Except Err Byte :=
  match frames with
  | [] => .error .indexError
  | f :: _ =>
    match f.bytes.getLast? with
    | none => .error .indexError
    | some tail => do
      checkTails frames.length (tail &&& 0x1F#8) 0 0#8 frames
      pure (tail &&& 0x1F#8)

/-- `b''.join(bytes(f.bytes[0:-1]) for f in frames)`, transport.py:836. -/
def joinPayload (frames : List Frame) : List Byte := frames.flatMap fun f => f.bytes.dropLast

/-- The CRC check of a multi-frame transfer, transport.py:847-854; returns the payload bytes. -/
def checkCrc (baseCrc : BitVec 16) (multi : Bool) (bytes : List Byte) : Except Err (List Byte) :=
  if multi then
    match bytes with
    | b0 :: b1 :: rest =>
      let transferCrc : BitVec 16 := b0.setWidth 16 + (b1.setWidth 16 <<< 8)
      if crc16 baseCrc rest ≠ transferCrc then .error .transferError else .ok rest
    | _ => .error .indexError
  else .ok bytes

/-- The type registry `DATATYPES`: maps (type ID, is-service) to a type. -/
abbrev Registry := Nat → Bool → Option DataType

/-- `Transfer().from_frames(frames)`, transport.py:807-869. -/
def fromFrames (db : Registry) (frames : List Frame) : Except Err InTransfer :=
  match frames with
  | [] => .error .indexError
  | f0 :: _ => do
    let tid ← validateFrames frames
    let h := decodeId f0.id
    match db h.dtid h.service with
    | none => .error .transferError
    | some dt => do
      let bytes ← checkCrc dt.baseCrc (frames.length > 1) (joinPayload frames)
      let canfd := frames.any (·.canfd)
      let (v, _) ← unpack (dt.payloadTy h.service h.request) (bitsFromBytes bytes) (!canfd)
      pure { header := { h with dtid := dt.dtid }, tid, ts := f0.ts, payload := v, canfd }

/-- `a.is_response_to(b)`, transport.py:875-885, on the attributes it inspects. -/
def isResponseTo (resp : Header) (respTid : Nat) (req : Header) (reqTid : Nat) : Bool :=
  req.service && resp.service && req.request && !resp.request &&
    decide (req.dest = some resp.source) && decide (some req.source = resp.dest) &&
    decide (req.dtid = resp.dtid) && decide (reqTid = respTid)

end Dronecan
