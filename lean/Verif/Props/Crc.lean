import Verif.Props.Framing
import Verif.Proofs.CrcOrder

/-!
# C18: corruption of multi-frame transfers is detected

The difference of two equally long payloads is described on their bits in transmission order (most significant bit of
each byte first).
-/

namespace Dronecan

/-- The positions in which two byte strings differ: the exclusive or of their bits. -/
def bitDiff (p q : List Byte) : Bits := List.zipWith (fun a b => a != b) (bitsFromBytes p) (bitsFromBytes q)

/-- An error burst of at most 16 bits: all differing bits lie within 16 consecutive positions, and there is one. -/
def IsBurst16 (e : Bits) : Prop :=
  ∃ i w k, e = List.replicate i false ++ w ++ List.replicate k false ∧ w.length ≤ 16 ∧ true ∈ w

/-- Exactly two bits differ, and they are less than 32767 positions apart (so any two bits of a payload of up to
4095 bytes). -/
def IsDouble (e : Bits) : Prop :=
  ∃ i d k, e = List.replicate i false ++ [true] ++ List.replicate d false ++ [true] ++ List.replicate k false ∧ d < 32766

/-- The number of differing bits is odd. -/
def IsOdd (e : Bits) : Prop := e.count true % 2 = 1

theorem crc16_diff (init : BitVec 16) (p q : List Byte) (hl : p.length = q.length) :
    crc16 init p ^^^ crc16 init q = (bitDiff p q).foldl crcSerial 0#16 := by
  rw [crc16_serial, crc16_serial, ← serial_xor _ _ (by simp [hl]), BitVec.xor_self]
  rfl

theorem burst_ne_zero (e : Bits) (h : IsBurst16 e) : e.foldl crcSerial 0#16 ≠ 0#16 := by
  obtain ⟨i, w, k, rfl, hw, hm⟩ := h
  rw [List.foldl_append, List.foldl_append, serial_zero, serial_zero, crcBits_zero]
  rw [← crcBits_topWord w 0#16 hw, BitVec.zero_xor]
  intro h0
  have h1 := crcBits_inj k (h0.trans (crcBits_zero k).symm)
  have h2 := crcBits_inj _ (h1.trans (crcBits_zero w.length).symm)
  exact topWord_ne_zero w hw hm h2

theorem odd_ne_zero (e : Bits) (h : IsOdd e) : e.foldl crcSerial 0#16 ≠ 0#16 := by
  intro h0
  have := parity_serial e 0#16
  rw [h0] at this
  have hp : parity 0#16 = false := by decide
  rw [hp] at this
  unfold IsOdd at h
  simp [h] at this

theorem double_ne_zero (e : Bits) (h : IsDouble e) : e.foldl crcSerial 0#16 ≠ 0#16 := by
  obtain ⟨i, d, k, rfl, hd⟩ := h
  simp only [List.foldl_append, serial_zero, crcBits_zero, List.foldl_cons, List.foldl_nil]
  intro h0
  have h1 := crcBits_inj k (h0.trans (crcBits_zero k).symm)
  have h2 := crcBit_eq_zero _ h1
  have h3 := xor_eq_zero h2
  exact crc_no_early_return d hd h3

/-- C18: two bit errors less than 32767 bits apart change the CRC. -/
theorem C18_double_error (init : BitVec 16) (p q : List Byte) (hl : p.length = q.length)
    (he : IsDouble (bitDiff p q)) : crc16 init p ≠ crc16 init q := by
  intro h
  have hd := crc16_diff init p q hl
  rw [h, BitVec.xor_self] at hd
  exact double_ne_zero _ he hd.symm

/-- C18: any error burst of up to 16 bits, anywhere in a payload of any length, changes the CRC; so does any odd number
of bit errors. -/
theorem C18_crc_changes (init : BitVec 16) (p q : List Byte) (hl : p.length = q.length)
    (he : IsBurst16 (bitDiff p q) ∨ IsOdd (bitDiff p q)) : crc16 init p ≠ crc16 init q := by
  intro h
  have hd := crc16_diff init p q hl
  rw [h, BitVec.xor_self] at hd
  rcases he with he | he
  · exact burst_ne_zero _ he hd.symm
  · exact odd_ne_zero _ he hd.symm

/-- C18 for transfers: if a multi-frame transfer passes the CRC check with payload `p`, then the same transfer with the
payload altered by a burst of up to 16 bits, or by an odd number of bit errors, is refused with a `TransferError`. -/
theorem C18_altered_payload_refused (baseCrc : BitVec 16) (c0 c1 : Byte) (p q : List Byte)
    (hok : checkCrc baseCrc true (c0 :: c1 :: p) = .ok p) (hl : p.length = q.length)
    (he : IsBurst16 (bitDiff p q) ∨ IsOdd (bitDiff p q)) :
    checkCrc baseCrc true (c0 :: c1 :: q) = .error .transferError := by
  simp only [checkCrc, if_true] at hok ⊢
  by_cases hc : crc16 baseCrc p = c0.setWidth 16 + (c1.setWidth 16 <<< 8)
  · rw [if_pos]
    rw [← hc]
    exact fun h => C18_crc_changes baseCrc p q hl he h.symm
  · rw [if_pos hc] at hok
    simp at hok

theorem checkCrc_bytes_inj (c0 c1 d0 d1 : Byte)
    (h : c0.setWidth 16 + (c1.setWidth 16 <<< 8) = (d0.setWidth 16 + (d1.setWidth 16 <<< 8) : BitVec 16)) :
    c0 = d0 ∧ c1 = d1 := by
  have := congrArg BitVec.toNat h
  have a0 := c0.isLt
  have a1 := c1.isLt
  have b0 := d0.isLt
  have b1 := d1.isLt
  simp only [BitVec.toNat_add, BitVec.toNat_setWidth, BitVec.toNat_shiftLeft, Nat.shiftLeft_eq] at this
  constructor
  · apply BitVec.eq_of_toNat_eq; omega
  · apply BitVec.eq_of_toNat_eq; omega

/-- C18: any alteration confined to the two CRC bytes is refused. -/
theorem C18_altered_crc_refused (baseCrc : BitVec 16) (c0 c1 d0 d1 : Byte) (p : List Byte)
    (hok : checkCrc baseCrc true (c0 :: c1 :: p) = .ok p) (hd : (c0, c1) ≠ (d0, d1)) :
    checkCrc baseCrc true (d0 :: d1 :: p) = .error .transferError := by
  simp only [checkCrc, if_true] at hok ⊢
  by_cases hc : crc16 baseCrc p = c0.setWidth 16 + (c1.setWidth 16 <<< 8)
  · rw [if_pos]
    rw [hc]
    intro h
    have := checkCrc_bytes_inj _ _ _ _ h
    exact hd (by rw [this.1, this.2])
  · rw [if_pos hc] at hok
    simp at hok

/-- C18 end to end: take any transfer of more than one frame as generated by `to_frames`, and any frame list with the
same identifiers whose joined bytes are the same CRC followed by a payload altered by a burst of up to 16 bits or
by an odd number of bit errors: the receiver never delivers a transfer. -/
theorem C18_end_to_end (db : Registry) (t t' : OutTransfer) (frames rcvd : List Frame)
    (h : toFrames t = .ok (t', frames)) (hmulti : frames.length > 1) (hlen : rcvd.length = frames.length)
    (hid : rcvd.map (·.id) = frames.map (·.id))
    (hreg : ∀ f ∈ frames, ∃ dt, db (decodeId f.id).dtid (decodeId f.id).service = some dt ∧ dt.baseCrc = t.crc)
    (q : List Byte) (hq : joinPayload rcvd = (joinPayload frames).take 2 ++ q)
    (hlq : q.length = ((joinPayload frames).drop 2).length)
    (he : IsBurst16 (bitDiff ((joinPayload frames).drop 2) q) ∨ IsOdd (bitDiff ((joinPayload frames).drop 2) q)) :
    ∃ e, fromFrames db rcvd = .error e := by
  obtain ⟨hne, _, _, _, _, k, _, _, _, hj, _⟩ := C13_frame_sequence t t' frames h
  have hj := hj (by omega)
  obtain ⟨_, k', _, _, hok⟩ := C14_bytes_roundtrip t t' frames h
  rw [hj] at hq hlq he hok
  simp only [List.cons_append, List.nil_append, List.take_succ_cons, List.take_zero, List.drop_succ_cons,
    List.drop_zero] at hq hlq he hok
  have hdec : decide (frames.length > 1) = true := by simpa using hmulti
  rw [hdec] at hok
  generalize hp : t.payload ++ List.replicate k 0#8 = p at *
  have hok' : checkCrc t.crc true (BitVec.ofNat 8 ((crc16 t.crc p).toNat % 256) ::
      BitVec.ofNat 8 ((crc16 t.crc p).toNat / 256) :: p) = .ok p := by
    have := hok
    simp only [checkCrc, if_true] at this ⊢
    split at this
    · simp at this
    · rename_i hh; rw [if_neg hh]
  have hbad := C18_altered_payload_refused t.crc _ _ p q hok' hlq.symm he
  cases rcvd with
  | nil => simp at hlen; omega
  | cons f fs =>
    cases frames with
    | nil => simp at hmulti
    | cons g gs =>
      have hfid : f.id = g.id := by simp at hid; exact hid.1
      obtain ⟨dt, hdt, hcrc⟩ := hreg g List.mem_cons_self
      rw [← hfid] at hdt
      simp only [fromFrames, bind, Except.bind]
      cases validateFrames (f :: fs) with
      | error e => exact ⟨e, rfl⟩
      | ok tid =>
        simp only [hdt]
        have hl2 : decide ((f :: fs).length > 1) = true := by rw [hlen]; exact hdec
        rw [hl2, hcrc, hq, hbad]
        exact ⟨_, rfl⟩

example : IsBurst16 (bitDiff [0x12#8, 0x34#8, 0x56#8] [0x12#8, 0x30#8, 0x96#8]) :=
  ⟨13, [true, false, false, true, true], 6, by decide, by decide, by decide⟩
example : IsDouble (bitDiff [0x12#8, 0x34#8, 0x56#8] [0x92#8, 0x34#8, 0x57#8]) :=
  ⟨0, 22, 0, by decide, by decide⟩
example : IsOdd (bitDiff [0x12#8, 0x34#8, 0x56#8] [0x92#8, 0x34#8, 0x65#8]) := by
  unfold IsOdd; decide
example : checkCrc 0xBEEF#16 true [0xD3#8, 0x62#8, 1#8, 2#8, 3#8, 4#8, 5#8, 6#8, 7#8, 8#8, 9#8, 10#8]
    = .ok [1#8, 2#8, 3#8, 4#8, 5#8, 6#8, 7#8, 8#8, 9#8, 10#8] := by decide +kernel

end Dronecan
