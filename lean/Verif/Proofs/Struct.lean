import Verif.Model.Packet

/-!
# Lemmas on packed numbers and message identifiers
-/

namespace Dronecan
open Can

@[simp] theorem length_packLE (w n : Nat) : (packLE w n).length = w := by
  induction w generalizing n with
  | zero => rfl
  | succ w ih => simp [packLE, ih]

theorem unpackLE_packLE (w n : Nat) : unpackLE (packLE w n) = n % 256 ^ w := by
  induction w generalizing n with
  | zero => simp [packLE, unpackLE, Nat.mod_one]
  | succ w ih =>
    simp only [packLE, unpackLE, ih, BitVec.toNat_ofNat]
    rw [show (256 : Nat) ^ (w + 1) = 256 * 256 ^ w from by rw [Nat.pow_succ, Nat.mul_comm], Nat.mod_mul]

theorem unpackLE_packLE_lt (w n : Nat) (h : n < 256 ^ w) : unpackLE (packLE w n) = n := by
  rw [unpackLE_packLE, Nat.mod_eq_of_lt h]

/-- Packing is the inverse of unpacking. -/
theorem packLE_unpackLE (bs : List Byte) : packLE bs.length (unpackLE bs) = bs := by
  induction bs with
  | nil => rfl
  | cons b bs ih =>
    have h1 : BitVec.ofNat 8 (unpackLE (b :: bs)) = b := by
      apply BitVec.eq_of_toNat_eq
      have := b.isLt
      simp only [unpackLE, BitVec.toNat_ofNat]
      omega
    have h2 : unpackLE (b :: bs) / 256 = unpackLE bs := by
      have := b.isLt
      simp only [unpackLE]
      omega
    simp only [List.length_cons, packLE, h1, h2, ih]

theorem unpackLE_inj (a b : List Byte) (hl : a.length = b.length) (h : unpackLE a = unpackLE b) : a = b := by
  rw [← packLE_unpackLE a, ← packLE_unpackLE b, hl, h]

/-- The message identifier of a frame within the limits of CAN, as a sum. -/
theorem messageId_add (f : CANFrame) (h0 : 0 ≤ f.canId) (h1 : f.canId < 2 ^ 29) :
    LogFile.messageId f = f.canId + if f.extended then 2 ^ 31 else 0 := by
  obtain ⟨n, hn⟩ := Int.eq_ofNat_of_zero_le h0
  have hlt : n < 2 ^ 29 := by omega
  unfold LogFile.messageId
  rw [if_neg (by omega), hn]
  simp only [Int.ofNat_eq_natCast, Int.toNat_natCast]
  cases f.extended with
  | false => simp
  | true =>
    have := Nat.two_pow_add_eq_or_of_lt (i := 31) (b := n) (by omega) 1
    simp only [Nat.mul_one] at this
    simp only [if_true]
    rw [Nat.or_comm, ← this]
    omega

/-- The message identifier of a frame within the limits of CAN. -/
theorem messageId_spec (f : CANFrame) (h0 : 0 ≤ f.canId) (h1 : f.canId < 2 ^ 29) :
    fits 4 (LogFile.messageId f) = true ∧ (LogFile.messageId f).toNat < 256 ^ 4 ∧
    (((LogFile.messageId f).toNat &&& 0x1FFFFFFF : Nat) : Int) = f.canId ∧
    (LogFile.messageId f).toNat.testBit 31 = f.extended := by
  have hm' := messageId_add f h0 h1
  obtain ⟨n, hn⟩ := Int.eq_ofNat_of_zero_le h0
  have hlt : n < 2 ^ 29 := by omega
  have hm : LogFile.messageId f = ((n + if f.extended then 2 ^ 31 else 0 : Nat) : Int) := by
    rw [hm', hn]
    cases f.extended <;> simp
  have hmask : ∀ x : Nat, x &&& 0x1FFFFFFF = x % 2 ^ 29 := fun x => Nat.and_two_pow_sub_one_eq_mod x 29
  rw [hm, Int.toNat_natCast, hmask, Nat.testBit_eq_decide_div_mod_eq, hn]
  cases f.extended with
  | false =>
    simp only [fits, Bool.false_eq_true, if_false, Nat.add_zero, Bool.and_eq_true, decide_eq_true_eq, decide_eq_false_iff_not,
      Int.ofNat_eq_natCast]
    omega
  | true =>
    simp only [fits, if_true, Bool.and_eq_true, decide_eq_true_eq, Int.ofNat_eq_natCast]
    omega

theorem flagsOf_spec (f : CANFrame) : LogFile.flagsOf f < 256 ^ 2 ∧ (LogFile.flagsOf f).testBit 0 = f.canfd := by
  unfold LogFile.flagsOf
  cases f.canfd <;> simp

end Dronecan
