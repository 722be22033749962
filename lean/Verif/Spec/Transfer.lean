import Verif.Model.Transfer

/-!
# Specification vocabulary for transfers
-/

namespace Dronecan

/-- The three kinds of transfer headers DroneCAN allows (DroneCAN specification, CAN ID layout): service, message and
anonymous message. Attributes that a format does not carry have their default values. -/
inductive ValidHeader : Header → Prop
  | service (prio dtid source dest : Nat) (request : Bool)
      (hp : prio < 32) (hd : dtid < 256) (hs : source < 128) (hd1 : 1 ≤ dest) (hd2 : dest < 128) :
      ValidHeader { prio, source, dest := some dest, service := true, request, dtid }
  | message (prio dtid source : Nat)
      (hp : prio < 32) (hd : dtid < 65536) (hs1 : 1 ≤ source) (hs2 : source < 128) :
      ValidHeader { prio, source, dtid }
  | anonymous (prio dtid discriminator : Nat)
      (hp : prio < 32) (hd : dtid < 4) (hdisc : discriminator < 2 ^ 14) :
      ValidHeader { prio, dtid, discriminator := some discriminator }

/-- The CAN identifier laid out arithmetically, as in the specification document: priority in bits 24-28, the service
bit in bit 7, the source in bits 0-6, and the rest according to the transfer kind. -/
def idLayout (h : Header) : Nat :=
  h.prio * 2 ^ 24 + h.service.toNat * 2 ^ 7 + h.source +
    (if h.service then h.dtid * 2 ^ 16 + h.request.toNat * 2 ^ 15 + h.dest.getD 0 * 2 ^ 8
     else if h.source = 0 then h.discriminator.getD 0 * 2 ^ 10 + h.dtid * 2 ^ 8
     else h.dtid * 2 ^ 8)

/-- The last byte of a frame. -/
def Frame.tail (f : Frame) : Byte := f.bytes.getLast?.getD 0#8

/-- The frames form one well-formed transfer with transfer ID `tid`: bit 7 of the tail byte (start) set exactly on the
first frame, bit 6 (end) exactly on the last, bit 5 (toggle) set exactly on odd positions, bits 0-4 equal to `tid`. -/
def WellFormedSeq (tid : Nat) (frames : List Frame) : Prop :=
  ∀ i (h : i < frames.length),
    frames[i].bytes ≠ [] ∧
    frames[i].tail.toNat % 32 = tid ∧
    (frames[i].tail.getLsbD 7 = true ↔ i = 0) ∧
    (frames[i].tail.getLsbD 6 = true ↔ i + 1 = frames.length) ∧
    (frames[i].tail.getLsbD 5 = true ↔ i % 2 = 1)

/-- Lengths a CAN FD frame can have. -/
def fdLengths : List Nat := [0, 1, 2, 3, 4, 5, 6, 7, 8, 12, 16, 20, 24, 32, 48, 64]

end Dronecan
