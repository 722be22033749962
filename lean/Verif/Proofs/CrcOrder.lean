import Verif.Proofs.Crc

/-! The transfer CRC polynomial has order 32767: any two bit errors less than 32767 bits apart change the CRC. -/

namespace Dronecan

/-- `crcBit` on natural numbers. -/
def stepN (c : Nat) : Nat := bif Nat.ble 0x8000 c then Nat.xor (2 * c - 0x10000) 0x1021 else 2 * c

/-- Run `n` steps; `none` if the state 0x8000 occurs before the end. -/
def runN : Nat → Nat → Option Nat
  | 0, s => some s
  | n + 1, s => bif Nat.beq s 0x8000 then none else runN n (stepN s)

theorem bif_ble (t c a b : Nat) : (bif Nat.ble t c then a else b) = if t ≤ c then a else b := by
  by_cases h : t ≤ c
  · rw [if_pos h, Nat.ble_eq_true_of_le h, cond_true]
  · have : Nat.ble t c = false := by
      cases hb : Nat.ble t c with
      | false => rfl
      | true => exact absurd (Nat.le_of_ble_eq_true hb) h
    rw [if_neg h, this, cond_false]

theorem crcBit_toNat (x : BitVec 16) : (crcBit x).toNat = stepN x.toNat := by
  have hx := x.isLt
  rw [crcBit_eq]
  have h15 : x.getLsbD 15 = true ↔ 0x8000 ≤ x.toNat := by
    rw [BitVec.getLsbD, Nat.testBit_eq_decide_div_mod_eq, decide_eq_true_eq]
    omega
  unfold stepN
  rw [bif_ble]
  by_cases h : 0x8000 ≤ x.toNat
  · rw [if_pos (h15.2 h), if_pos h]
    simp only [BitVec.toNat_xor, BitVec.toNat_shiftLeft, Nat.shiftLeft_eq]
    rw [show x.toNat * 2 ^ 1 % 2 ^ 16 = 2 * x.toNat - 0x10000 by omega, show (0x1021#16).toNat = 0x1021 from rfl]
    generalize 2 * x.toNat - 0x10000 = y
    rfl
  · rw [if_neg (fun hh => h (h15.1 hh)), if_neg h]
    simp only [BitVec.toNat_shiftLeft, Nat.shiftLeft_eq]
    omega

theorem runN_sound (n : Nat) (x y : BitVec 16) (h : runN n x.toNat = some y.toNat) :
    crcBits n x = y ∧ ∀ k < n, crcBits k x ≠ 0x8000#16 := by
  induction n generalizing x with
  | zero =>
    simp only [runN, Option.some.injEq] at h
    exact ⟨BitVec.eq_of_toNat_eq h, fun k hk => absurd hk (by omega)⟩
  | succ n ih =>
    rw [runN] at h
    cases hb : Nat.beq x.toNat 0x8000 with
    | true => rw [hb] at h; simp at h
    | false =>
      rw [hb, cond_false, ← crcBit_toNat] at h
      obtain ⟨h1, h2⟩ := ih _ h
      refine ⟨h1, fun k hk => ?_⟩
      cases k with
      | zero =>
        intro h0
        have : x = 0x8000#16 := h0
        rw [this] at hb
        exact absurd hb (by decide)
      | succ k => exact h2 k (by omega)

theorem crc_run0 : runN 4096 4129 = some 37058 := by decide +kernel
theorem crc_run1 : runN 4096 37058 = some 16780 := by decide +kernel
theorem crc_run2 : runN 4096 16780 = some 60863 := by decide +kernel
theorem crc_run3 : runN 4096 60863 = some 6901 := by decide +kernel
theorem crc_run4 : runN 4096 6901 = some 25935 := by decide +kernel
theorem crc_run5 : runN 4096 25935 = some 14614 := by decide +kernel
theorem crc_run6 : runN 4096 14614 = some 9649 := by decide +kernel
theorem crc_run7 : runN 4094 9649 = some 32768 := by decide +kernel

/-- Starting from the effect of a single bit, the state 0x8000 does not occur in fewer than 32766 steps. -/
theorem crc_no_early_return (k : Nat) (hk : k < 32766) : crcBits k 0x1021#16 ≠ 0x8000#16 := by
  have r0 := runN_sound 4096 4129#16 37058#16 crc_run0
  have r1 := runN_sound 4096 37058#16 16780#16 crc_run1
  have r2 := runN_sound 4096 16780#16 60863#16 crc_run2
  have r3 := runN_sound 4096 60863#16 6901#16 crc_run3
  have r4 := runN_sound 4096 6901#16 25935#16 crc_run4
  have r5 := runN_sound 4096 25935#16 14614#16 crc_run5
  have r6 := runN_sound 4096 14614#16 9649#16 crc_run6
  have r7 := runN_sound 4094 9649#16 32768#16 crc_run7
  by_cases h0 : k < 4096
  · exact r0.2 k h0
  have e1 : crcBits 4096 0x1021#16 = 37058#16 := r0.1
  by_cases h1 : k < 8192
  · rw [show k = 4096 + (k - 4096) by omega, crcBits_add, e1]
    exact r1.2 _ (by omega)
  have e2 : crcBits 8192 0x1021#16 = 16780#16 := by
    rw [show 8192 = 4096 + 4096 from rfl, crcBits_add, e1]; exact r1.1
  by_cases h2 : k < 12288
  · rw [show k = 8192 + (k - 8192) by omega, crcBits_add, e2]
    exact r2.2 _ (by omega)
  have e3 : crcBits 12288 0x1021#16 = 60863#16 := by
    rw [show 12288 = 8192 + 4096 from rfl, crcBits_add, e2]; exact r2.1
  by_cases h3 : k < 16384
  · rw [show k = 12288 + (k - 12288) by omega, crcBits_add, e3]
    exact r3.2 _ (by omega)
  have e4 : crcBits 16384 0x1021#16 = 6901#16 := by
    rw [show 16384 = 12288 + 4096 from rfl, crcBits_add, e3]; exact r3.1
  by_cases h4 : k < 20480
  · rw [show k = 16384 + (k - 16384) by omega, crcBits_add, e4]
    exact r4.2 _ (by omega)
  have e5 : crcBits 20480 0x1021#16 = 25935#16 := by
    rw [show 20480 = 16384 + 4096 from rfl, crcBits_add, e4]; exact r4.1
  by_cases h5 : k < 24576
  · rw [show k = 20480 + (k - 20480) by omega, crcBits_add, e5]
    exact r5.2 _ (by omega)
  have e6 : crcBits 24576 0x1021#16 = 14614#16 := by
    rw [show 24576 = 20480 + 4096 from rfl, crcBits_add, e5]; exact r5.1
  by_cases h6 : k < 28672
  · rw [show k = 24576 + (k - 24576) by omega, crcBits_add, e6]
    exact r6.2 _ (by omega)
  have e7 : crcBits 28672 0x1021#16 = 9649#16 := by
    rw [show 28672 = 24576 + 4096 from rfl, crcBits_add, e6]; exact r6.1
  rw [show k = 28672 + (k - 28672) by omega, crcBits_add, e7]
  exact r7.2 _ (by omega)

end Dronecan
