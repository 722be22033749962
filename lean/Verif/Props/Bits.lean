import Verif.Proofs.Prim

/-!
# C01, C02, C05: bit strings, byte order and wire layout of integers
-/

namespace Dronecan

/-- C01: bytes -> bits -> bytes is the identity, for every byte string. -/
theorem C01_bytes_roundtrip (s : List Byte) : bytesFromBits (bitsFromBytes s) = s :=
  bytesFromBits_bitsFromBytes s

/-- C01: bits -> bytes -> bits only appends fewer than eight zero bits, so that the length becomes a multiple of
eight. -/
theorem C01_bits_roundtrip (s : Bits) : ∃ k, k < 8 ∧ (s.length + k) % 8 = 0 ∧
    bitsFromBytes (bytesFromBits s) = s ++ List.replicate k false := by
  refine ⟨padLen s.length, ?_, ?_, bitsFromBytes_bytesFromBits s⟩ <;> (unfold padLen; omega)

/-- C01: each byte contributes its eight bits, most significant first. -/
theorem C01_bit_positions (s : List Byte) (i : Nat) (h : i < s.length) (k : Nat) (hk : k < 8) :
    (bitsFromBytes s)[8 * i + k]? = some (s[i].getMsbD k) := by
  induction s generalizing i with
  | nil => simp at h
  | cons c s ih =>
    rw [bitsFromBytes_cons]
    cases i with
    | zero =>
      have hl : 8 * 0 + k < (bitsBE 8 c.toNat).length := by simp; omega
      rw [List.getElem?_append_left hl, List.getElem?_eq_getElem hl, getElem_bitsBE]
      simp [BitVec.getMsbD_eq_getLsbD, hk, BitVec.getLsbD]
    | succ i =>
      rw [List.getElem?_append_right (by simp; omega)]
      have : 8 * (i + 1) + k - (bitsBE 8 c.toNat).length = 8 * i + k := by simp; omega
      rw [this, List.getElem_cons_succ]
      exact ih i (by simpa using h)

example : bitsFromBytes [0xA5#8, 0x01#8]
    = [true,false,true,false,false,true,false,true, false,false,false,false,false,false,false,true] := by decide

/-- C02: with enough bits available, converting the leading `n` bits from little-endian to big-endian order and
back to little-endian order is the identity on those bits. -/
theorem C02_le_be_le (s : Bits) (n : Nat) (h : n ≤ s.length) :
    (beFromLeBits s n).bind (fun b => leFromBeBits b n) = .ok (s.take n) := by
  rw [beFromLeBits_eq s n h]
  simp only [Except.bind]
  rw [leFromBeBits_eq _ _ (by simp; omega)]
  simp [Nat.min_eq_left h, revSlicesFromEnd_revSlices]

/-- C02: with enough bits available, converting the trailing `n` bits from big-endian to little-endian order and
back is the identity on those bits. -/
theorem C02_be_le_be (s : Bits) (n : Nat) (h : n ≤ s.length) :
    (leFromBeBits s n).bind (fun b => beFromLeBits b n) = .ok (s.drop (s.length - n)) := by
  rw [leFromBeBits_eq s n h]
  simp only [Except.bind]
  rw [beFromLeBits_eq _ _ (by simp; omega), List.take_of_length_le (by simp; omega)]
  rw [revSlices_revSlicesFromEnd]

/-- C02: both conversions raise `ValueError` exactly when fewer than `n` bits are available, and otherwise return
exactly `n` bits which depend only on the leading (respectively trailing) `n` bits. -/
theorem C02_width (s : Bits) (n : Nat) :
    (s.length < n → beFromLeBits s n = .error .valueError ∧ leFromBeBits s n = .error .valueError) ∧
    (n ≤ s.length →
      (∃ b, beFromLeBits s n = .ok b ∧ b.length = n ∧ beFromLeBits (s.take n) n = .ok b) ∧
      (∃ b, leFromBeBits s n = .ok b ∧ b.length = n ∧ leFromBeBits (s.drop (s.length - n)) n = .ok b)) := by
  refine ⟨fun h => ⟨beFromLeBits_short s n h, leFromBeBits_short s n h⟩, fun h => ⟨?_, ?_⟩⟩
  · refine ⟨_, beFromLeBits_eq s n h, by simp; omega, ?_⟩
    rw [beFromLeBits_eq _ _ (by simp; omega), List.take_take, Nat.min_self]
  · refine ⟨_, leFromBeBits_eq s n h, by simp; omega, ?_⟩
    rw [leFromBeBits_eq _ _ (by simp; omega)]
    have : (s.drop (s.length - n)).length - n = 0 := by simp; omega
    rw [this, List.drop_zero]

example : beFromLeBits [true,true,false,false,true,true,false,false, true,false,true,false, true] 12
    = .ok [true,false,true,false, true,true,false,false,true,true,false,false] := by decide

/-- Specification for C05: position, inside the binary expansion of an `n`-bit number (bit 0 least significant),
of the `i`-th bit on the wire. Bytes go out least significant first; inside a byte (or the left-over group of
`n % 8` bits) the most significant bit goes first. -/
def wireBitIndex (n i : Nat) : Nat := 8 * (i / 8) + (min 8 (n - 8 * (i / 8)) - 1 - i % 8)

private theorem getElem?_revSlicesFromEnd (s : Bits) (i : Nat) (h : i < s.length) :
    (revSlicesFromEnd s)[i]? = s[s.length - 1 - wireBitIndex s.length i]? := by
  induction s using back_cases generalizing i with
  | short s hs =>
    rw [revSlicesFromEnd_short s hs]
    congr 1
    unfold wireBitIndex
    omega
  | step a b hb ih =>
    rw [revSlicesFromEnd_append a b hb]
    rw [List.length_append, hb] at h
    have hl : (a ++ b).length = a.length + 8 := by simp [hb]
    rw [hl]
    by_cases hi : i < 8
    · rw [List.getElem?_append_left (by omega)]
      have : wireBitIndex (a.length + 8) i = 7 - i := by unfold wireBitIndex; omega
      rw [this, List.getElem?_append_right (by omega)]
      congr 1; omega
    · rw [List.getElem?_append_right (by omega), hb, ih (i - 8) (by omega)]
      have : wireBitIndex (a.length + 8) i = wireBitIndex a.length (i - 8) + 8 := by
        unfold wireBitIndex; omega
      have hlt : wireBitIndex a.length (i - 8) < a.length := by unfold wireBitIndex; omega
      rw [this, List.getElem?_append_left (by omega)]
      congr 1; omega

/-- C05: the wire image of an `n`-bit field holding `v` (what `_pack` emits for the bits the setter stored) is `n` bits
long and its `i`-th bit is the bit of `v` prescribed by the little-endian layout. -/
theorem C05_wire_layout (n v : Nat) (hn : 1 ≤ n) (hv : v < 2 ^ n) :
    ∃ w, leFromBeBits (formatBin n v) n = .ok w ∧ w.length = n ∧
      ∀ i, i < n → w[i]? = some (v.testBit (wireBitIndex n i)) := by
  rw [formatBin_eq n v hn hv, leFromBeBits_eq _ _ (by simp)]
  refine ⟨_, rfl, by simp, ?_⟩
  intro i hi
  simp only [length_bitsBE, Nat.sub_self, List.drop_zero]
  rw [getElem?_revSlicesFromEnd _ _ (by simpa using hi)]
  have hlt : wireBitIndex n i < n := by unfold wireBitIndex; omega
  rw [List.getElem?_eq_getElem (by simp; omega), getElem_bitsBE]
  simp only [length_bitsBE]
  congr 2
  omega

example : wireBitIndex 12 0 = 7 ∧ wireBitIndex 12 7 = 0 ∧ wireBitIndex 12 8 = 11 ∧ wireBitIndex 12 11 = 8 := by
  decide

private theorem bitsBE_mul (k v : Nat) : revSlicesFromEnd (bitsBE (8 * k) v)
    = bitsFromBytes ((List.range k).map fun j => BitVec.ofNat 8 (v / 256 ^ j)) := by
  induction k generalizing v with
  | zero => simp [revSlicesFromEnd_short]
  | succ k ih =>
    have hsplit : bitsBE (8 * (k + 1)) v = bitsBE (8 * k) (v / 256) ++ bitsBE 8 v := by
      apply natOfBits_inj
      · simp; omega
      · rw [natOfBits_append, natOfBits_bitsBE, natOfBits_bitsBE, natOfBits_bitsBE, length_bitsBE]
        rw [Nat.mul_succ, Nat.pow_add, Nat.mul_comm (2 ^ (8 * k)), Nat.mod_mul]
        rw [Nat.mul_comm, Nat.add_comm]
    rw [hsplit, revSlicesFromEnd_append _ _ (by simp), ih, List.range_succ_eq_map, List.map_cons,
      bitsFromBytes_cons, List.map_map]
    congr 1
    · apply natOfBits_inj (by simp)
      simp [natOfBits_bitsBE]
    · congr 1
      apply List.map_congr_left
      intro j _
      simp only [Function.comp_apply]
      rw [Nat.pow_succ, Nat.mul_comm, Nat.div_div_eq_div_mul]

/-- C05, whole bytes: a field of `8*k` bits holding `v` occupies `k` bytes, byte `j` being `(v div 256^j) mod 256`. -/
theorem C05_bytes_little_endian (k v : Nat) (hk : 1 ≤ k) (hv : v < 2 ^ (8 * k)) :
    ∃ w, leFromBeBits (formatBin (8 * k) v) (8 * k) = .ok w ∧
      bytesFromBits w = (List.range k).map fun j => BitVec.ofNat 8 (v / 256 ^ j) := by
  rw [formatBin_eq _ v (by omega) hv, leFromBeBits_eq _ _ (by simp)]
  refine ⟨_, rfl, ?_⟩
  simp only [length_bitsBE, Nat.sub_self, List.drop_zero]
  rw [bitsBE_mul, bytesFromBits_bitsFromBytes]

example : leFromBeBits (formatBin 16 0x1234) 16 = .ok (bitsFromBytes [0x34#8, 0x12#8]) := by decide +kernel

end Dronecan
