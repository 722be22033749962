import Verif.Proofs.Struct
import Verif.Props.Crc

/-!
# Multicast and SocketCAN packets (C51)
-/

namespace Dronecan
namespace Packet
open Can

/-- A frame within the limits of CAN. -/
structure Valid (f : CANFrame) : Prop where
  id0 : 0 ≤ f.canId
  id1 : f.canId < 2 ^ 29
  len : f.data.length ≤ if f.canfd then 64 else 8

/-- The fields of a multicast packet. -/
theorem mcast_fields (a b c d e : List Byte) (ha : a.length = 2) (hb : b.length = 2) (hc : c.length = 2) (hd : d.length = 4) :
    let p := a ++ b ++ (c ++ d ++ e)
    p.take 2 = a ∧ (p.drop 2).take 2 = b ∧ (p.drop 4).take 2 = c ∧ (p.drop 6).take 4 = d ∧ p.drop 4 = c ++ d ++ e ∧ p.drop 10 = e := by
  match a, ha with
  | [a0, a1], _ =>
    match b, hb with
    | [b0, b1], _ =>
      match c, hc with
      | [c0, c1], _ =>
        match d, hd with
        | [d0, d1, d2, d3], _ => simp

/-- Decoding the multicast packet built for a frame yields the frame. -/
theorem C51_mcast (f : CANFrame) (hv : Valid f) : ∃ p, mcastPacket f = .ok p ∧ mcastParse p = some f := by
  obtain ⟨m1, m2, m3, m4⟩ := messageId_spec f hv.id0 hv.id1
  obtain ⟨g1, g2⟩ := flagsOf_spec f
  have hlen : f.data.length ≤ 64 := by
    have := hv.len
    split at this <;> omega
  unfold mcastPacket
  rw [if_pos m1]
  refine ⟨_, rfl, ?_⟩
  obtain ⟨e1, e2, e3, e4, e5, e6⟩ := mcast_fields (packLE 2 0x2934)
    (packLE 2 (crc16 0xFFFF (packLE 2 (LogFile.flagsOf f) ++ packLE 4 (LogFile.messageId f).toNat ++ f.data)).toNat)
    (packLE 2 (LogFile.flagsOf f)) (packLE 4 (LogFile.messageId f).toNat) f.data (by simp) (by simp) (by simp) (by simp)
  unfold mcastParse
  dsimp only
  rw [List.take_of_length_le (by simp; omega), if_neg (by simp; omega), e1, e2, e3, e4, e5, e6,
    unpackLE_packLE_lt _ 0x2934 (by omega), unpackLE_packLE_lt _ _ (by exact (crc16 _ _).isLt), unpackLE_packLE_lt _ _ g1,
    unpackLE_packLE_lt _ _ m2, m3, m4, g2]
  simp

/-- A multicast packet altered after the CRC field by a burst of up to 16 bits (or in an odd number of bits) is dropped. -/
theorem C51_mcast_altered (f : CANFrame) (hv : Valid f) (p q : List Byte) (hp : mcastPacket f = .ok p)
    (hl : q.length = p.length) (hh : q.take 4 = p.take 4)
    (hb : IsBurst16 (bitDiff (p.drop 4) (q.drop 4)) ∨ IsOdd (bitDiff (p.drop 4) (q.drop 4))) : mcastParse q = none := by
  obtain ⟨p', hp', hparse⟩ := C51_mcast f hv
  rw [hp] at hp'
  injection hp' with hp'
  subst hp'
  have hne := C18_crc_changes 0xFFFF (p.drop 4) (q.drop 4) (by simp [hl]) hb
  have hlen : p.length ≤ 74 := by
    have := hv.len
    unfold mcastPacket at hp
    rw [if_pos (messageId_spec f hv.id0 hv.id1).1] at hp
    injection hp with hp
    rw [← hp]
    simp
    split at this <;> omega
  unfold mcastParse at hparse ⊢
  dsimp only at hparse ⊢
  rw [List.take_of_length_le hlen] at hparse
  rw [List.take_of_length_le (by omega), hl]
  have h2 : q.take 2 = p.take 2 := by
    have := congrArg (List.take 2) hh
    simpa [List.take_take] using this
  have h22 : (q.drop 2).take 2 = (p.drop 2).take 2 := by
    have := congrArg (List.drop 2) hh
    simpa [List.drop_take] using this
  rw [h2, h22]
  split
  · rfl
  · rename_i h10
    rw [if_neg h10] at hparse
    split
    · rfl
    · rename_i hm
      rw [if_neg hm] at hparse
      split at hparse
      · simp at hparse
      · rename_i hc
        simp only [ne_eq, Classical.not_not] at hc
        rw [hc, if_pos]
        intro e
        exact hne (BitVec.eq_of_toNat_eq e)

/-- A multicast packet with any other magic number, or any other CRC field, is dropped. -/
theorem C51_mcast_header (f : CANFrame) (hv : Valid f) (p q : List Byte) (hp : mcastPacket f = .ok p)
    (hl : q.length = p.length) (hb : q.drop 4 = p.drop 4) (hne : q ≠ p) : mcastParse q = none := by
  have hv' := hv.len
  unfold mcastPacket at hp
  rw [if_pos (messageId_spec f hv.id0 hv.id1).1] at hp
  injection hp with hp
  obtain ⟨e1, e2, e3, e4, e5, e6⟩ := mcast_fields (packLE 2 0x2934)
    (packLE 2 (crc16 0xFFFF (packLE 2 (LogFile.flagsOf f) ++ packLE 4 (LogFile.messageId f).toNat ++ f.data)).toNat)
    (packLE 2 (LogFile.flagsOf f)) (packLE 4 (LogFile.messageId f).toNat) f.data (by simp) (by simp) (by simp) (by simp)
  have hp' := hp
  rw [hp'] at e1 e2 e5
  have hlen : p.length = 10 + f.data.length := by rw [← hp]; simp; omega
  have hlen' : f.data.length ≤ 64 := by split at hv' <;> omega
  unfold mcastParse
  dsimp only
  rw [List.take_of_length_le (by omega), if_neg (by omega)]
  split
  · rfl
  · rename_i hm
    simp only [ne_eq, Classical.not_not] at hm
    rw [if_pos]
    intro hc
    apply hne
    have h2 : q.take 2 = p.take 2 := by
      apply unpackLE_inj
      · simp; omega
      · rw [hm, e1]; decide +kernel
    have h22 : (q.drop 2).take 2 = (p.drop 2).take 2 := by
      apply unpackLE_inj
      · simp; omega
      · rw [hc, hb, e2, e5, unpackLE_packLE_lt _ _ (by exact (crc16 _ _).isLt)]
    have split3 : ∀ l : List Byte, l = l.take 2 ++ ((l.drop 2).take 2 ++ l.drop 4) := by
      intro l
      have h1 := List.take_append_drop 2 l
      have h2 := List.take_append_drop 2 (l.drop 2)
      rw [List.drop_drop] at h2
      rw [h2, h1]
    rw [split3 q, split3 p, h2, h22, hb]

theorem packStr_pad (n : Nat) (s : List Byte) (h : s.length ≤ n) :
    packStr n (s ++ List.replicate (n - s.length) 0) = s ++ List.replicate (n - s.length) 0 := by
  unfold packStr
  rw [List.take_of_length_le (by simp; omega)]
  simp
  omega

theorem native_native (be : Bool) (bs : List Byte) : native be (native be bs) = bs := by
  cases be <;> simp [native]

theorem length_native (be : Bool) (bs : List Byte) : (native be bs).length = bs.length := by
  cases be <;> simp [native]

/-- The fields of a SocketCAN message. -/
theorem socket_fields (a b c d e : List Byte) (ha : a.length = 4) (hb : b.length = 1) (hc : c.length = 3) :
    let p := a ++ b ++ c ++ (d ++ e)
    p.take 4 = a ∧ (p.drop 4).take 1 = b ∧ p.drop 8 = d ++ e := by
  match a, ha with
  | [a0, a1, a2, a3], _ =>
    match b, hb with
    | [b0], _ =>
      match c, hc with
      | [c0, c1, c2], _ => simp

/-- Decoding the SocketCAN message built for a frame yields the frame. -/
theorem C51_socketcan (be : Bool) (f : CANFrame) (hv : Valid f) : ∃ p, socketPacket be f = .ok p ∧ socketParse be p = .ok f := by
  obtain ⟨m1, m2, m3, m4⟩ := messageId_spec f hv.id0 hv.id1
  have hlen := hv.len
  have hfit : fits 1 (f.data.length : Int) = true := by
    simp only [fits, Bool.and_eq_true, decide_eq_true_eq]
    split at hlen <;> omega
  unfold socketPacket
  rw [m1, hfit]
  simp only [Bool.and_true, if_true]
  cases hfd : f.canfd with
  | true =>
    rw [hfd] at hlen
    simp only [if_true] at hlen ⊢
    refine ⟨_, rfl, ?_⟩
    rw [packStr_pad 64 f.data hlen]
    obtain ⟨e1, e2, e3⟩ := socket_fields (native be (packLE 4 (LogFile.messageId f).toNat)) (packLE 1 f.data.length) [1, 0, 0]
      f.data (List.replicate (64 - f.data.length) 0) (by simp [length_native]) (by simp) rfl
    unfold socketParse
    dsimp only
    rw [List.take_of_length_le (by simp [length_native]; omega), e1, e2, e3, native_native, unpackLE_packLE_lt _ _ m2,
      unpackLE_packLE_lt _ _ (by omega), m3, m4, if_neg (by simp [length_native]; omega), if_pos (by simp [length_native]; omega),
      List.take_left' rfl, ← hfd]
  | false =>
    rw [hfd] at hlen
    simp only [Bool.false_eq_true, if_false] at hlen ⊢
    refine ⟨_, rfl, ?_⟩
    rw [packStr_pad 8 f.data hlen]
    obtain ⟨e1, e2, e3⟩ := socket_fields (native be (packLE 4 (LogFile.messageId f).toNat)) (packLE 1 f.data.length) [0, 0, 0]
      f.data (List.replicate (8 - f.data.length) 0) (by simp [length_native]) (by simp) rfl
    unfold socketParse
    dsimp only
    rw [List.take_of_length_le (by simp [length_native]; omega), e1, e2, e3, native_native, unpackLE_packLE_lt _ _ m2,
      unpackLE_packLE_lt _ _ (by omega), m3, m4, if_pos (by simp [length_native]; omega), if_pos (by simp [length_native]; omega),
      List.take_left' rfl, ← hfd]

/-! ## The bytes

The round trips alone would also hold of other framings. These are the bytes that other programs and the operating system
expect. -/

/-- The identifier with the flag of the extended format. -/
def word (f : CANFrame) : Nat := f.canId.toNat + if f.extended then 0x80000000 else 0

/-- Byte `k` of a number. -/
def byteOf (n k : Nat) : Byte := BitVec.ofNat 8 (n / 256 ^ k)

theorem messageId_word (f : CANFrame) (hv : Valid f) : (LogFile.messageId f).toNat = word f := by
  have h0 := hv.id0
  have h1 := hv.id1
  unfold LogFile.messageId word
  rw [if_neg (by omega), Int.toNat_natCast]
  cases f.extended with
  | false => simp
  | true =>
    have := Nat.two_pow_add_eq_or_of_lt (i := 31) (b := f.canId.toNat) (by omega) 1
    simp only [if_true]
    rw [Nat.or_comm, Nat.add_comm]
    exact this.symm

theorem packLE_4 (n : Nat) : packLE 4 n = [byteOf n 0, byteOf n 1, byteOf n 2, byteOf n 3] := by
  simp [packLE, byteOf, Nat.div_div_eq_div_mul]

theorem packLE_2 (n : Nat) : packLE 2 n = [byteOf n 0, byteOf n 1] := by simp [packLE, byteOf]

/-- The bytes of a multicast packet: the magic number, the CRC of all that follows it, the flags, the identifier (all least
significant byte first), the data. -/
theorem C51_mcast_layout (f : CANFrame) (hv : Valid f) :
    let body := [if f.canfd then 1 else 0, 0, byteOf (word f) 0, byteOf (word f) 1, byteOf (word f) 2, byteOf (word f) 3] ++ f.data
    mcastPacket f = .ok ([0x34, 0x29, byteOf (crc16 0xFFFF body).toNat 0, byteOf (crc16 0xFFFF body).toNat 1] ++ body) := by
  have hb : packLE 2 (LogFile.flagsOf f) ++ packLE 4 (word f) ++ f.data =
      [if f.canfd then 1 else 0, 0, byteOf (word f) 0, byteOf (word f) 1, byteOf (word f) 2, byteOf (word f) 3] ++ f.data := by
    rw [packLE_4]
    unfold LogFile.flagsOf
    cases f.canfd <;> simp [packLE]
  unfold mcastPacket
  rw [if_pos (messageId_spec f hv.id0 hv.id1).1, messageId_word f hv]
  dsimp only
  rw [hb, packLE_2 (crc16 _ _).toNat]
  rfl

/-- The bytes of a SocketCAN message, `struct can_frame` or `struct canfd_frame`: the identifier in the byte order of the
machine, the length, the flags, two bytes of padding, and 8 or 64 bytes of data, filled with zeros. -/
theorem C51_socketcan_layout (be : Bool) (f : CANFrame) (hv : Valid f) :
    socketPacket be f = .ok (
      (if be then [byteOf (word f) 3, byteOf (word f) 2, byteOf (word f) 1, byteOf (word f) 0]
        else [byteOf (word f) 0, byteOf (word f) 1, byteOf (word f) 2, byteOf (word f) 3]) ++
      [BitVec.ofNat 8 f.data.length, if f.canfd then 1 else 0, 0, 0] ++
      f.data ++ List.replicate ((if f.canfd then 64 else 8) - f.data.length) 0) := by
  have hlen := hv.len
  have hfit : fits 1 (f.data.length : Int) = true := by
    simp only [fits, Bool.and_eq_true, decide_eq_true_eq]
    split at hlen <;> omega
  unfold socketPacket
  rw [(messageId_spec f hv.id0 hv.id1).1, hfit, messageId_word f hv, packLE_4]
  simp only [Bool.and_true, if_true]
  cases hfd : f.canfd with
  | true =>
    rw [hfd] at hlen
    simp only [if_true] at hlen ⊢
    rw [packStr_pad 64 f.data hlen]
    cases be <;> simp [native, packLE]
  | false =>
    rw [hfd] at hlen
    simp only [Bool.false_eq_true, if_false] at hlen ⊢
    rw [packStr_pad 8 f.data hlen]
    cases be <;> simp [native, packLE]

/-- The format `Ns` of `struct.pack` always yields `n` bytes: the first of the string, then zeros. -/
theorem packStr_spec (n : Nat) (s : List Byte) : (packStr n s).length = n ∧
    ∀ k, k < n → (packStr n s)[k]? = some ((s[k]?).getD 0) := by
  unfold packStr
  refine ⟨by simp; omega, fun k hk => ?_⟩
  by_cases h : k < s.length
  · rw [List.getElem?_append_left (by simp; omega), List.getElem?_take, if_pos hk, List.getElem?_eq_getElem h]
    rfl
  · rw [List.getElem?_append_right (by simp; omega), List.getElem?_eq_none (by omega : s.length ≤ k),
      List.getElem?_replicate, if_pos (by simp; omega)]
    rfl

/-! ## Examples -/

def sample : CANFrame := ⟨0x1234567, [1, 2, 3, 4, 5, 6, 7, 8, 9], true, true⟩

example : Valid sample := ⟨by decide, by decide, by decide⟩

/-- One bit changed in the identifier. -/
example : (match mcastPacket sample with
    | .ok p =>
      let q := p.set 6 0x66
      (decide (q ≠ p), decide (q.take 4 = p.take 4), (bitDiff (p.drop 4) (q.drop 4)).count true, mcastParse q)
    | _ => default) = (true, true, 1, none) := by decide +kernel

end Packet
end Dronecan
