import Verif.Model.Prim
import Verif.Proofs.Bits

/-! Helper lemmas about primitive fields. -/

namespace Dronecan

theorem two_pow_pos_int (n : Nat) : (0 : Int) < 2 ^ n := Int.pow_pos (by decide)

theorem cast_two_pow (n : Nat) : ((2 ^ n : Nat) : Int) = 2 ^ n := by simp

theorem toNat_lt_two_pow (n : Nat) (x : Int) (h : x < 2 ^ n) : x.toNat < 2 ^ n := by
  have := two_pow_pos_int n
  by_cases h0 : 0 ≤ x
  · rw [Int.toNat_lt h0, cast_two_pow]; exact h
  · have : x.toNat = 0 := Int.toNat_eq_zero.2 (by omega)
    rw [this]; exact Nat.two_pow_pos n

theorem intHalf_small (n : Nat) (h : n ≤ 53) : intHalf (2 ^ n - 1) = (2 ^ n - 1) / 2 := by
  unfold intHalf roundDouble
  have hl : (2 ^ n - 1).log2 + 1 - 53 = 0 := by
    by_cases h0 : 2 ^ n - 1 = 0
    · rw [h0]; decide
    · have : (2 ^ n - 1).log2 < n := (Nat.log2_lt h0).2 (by have := Nat.two_pow_pos n; omega)
      omega
  rw [hl]
  simp [Nat.mod_one]

theorem intHalf_large (n : Nat) (h1 : 54 ≤ n) (h2 : n ≤ 64) : intHalf (2 ^ n - 1) = 2 ^ (n - 1) := by
  have : n = 54 ∨ n = 55 ∨ n = 56 ∨ n = 57 ∨ n = 58 ∨ n = 59 ∨ n = 60 ∨ n = 61 ∨ n = 62 ∨ n = 63 ∨ n = 64 := by
    omega
  rcases this with rfl | rfl | rfl | rfl | rfl | rfl | rfl | rfl | rfl | rfl | rfl <;> decide +kernel

theorem two_pow_pred (n : Nat) (h : 1 ≤ n) : (2 : Int) ^ n = 2 * 2 ^ (n - 1) := by
  obtain ⟨m, rfl⟩ : ∃ m, n = m + 1 := ⟨n - 1, by omega⟩
  rw [Int.pow_succ]; simp; omega

theorem signedRange_small (n : Nat) (h1 : 1 ≤ n) (h : n ≤ 53) :
    signedRange n = (-2 ^ (n - 1), 2 ^ (n - 1) - 1) := by
  unfold signedRange
  rw [intHalf_small n h]
  obtain ⟨m, rfl⟩ : ∃ m, n = m + 1 := ⟨n - 1, by omega⟩
  have hp := Nat.two_pow_pos m
  have : (2 ^ (m + 1) - 1) / 2 = 2 ^ m - 1 := by rw [Nat.pow_succ]; omega
  rw [this]
  have h2 : ((2 ^ m - 1 : Nat) : Int) = 2 ^ m - 1 := by
    rw [Int.ofNat_sub hp]; simp
  simp [h2]; omega

theorem signedRange_large (n : Nat) (h1 : 54 ≤ n) (h : n ≤ 64) :
    signedRange n = (-2 ^ (n - 1) - 1, 2 ^ (n - 1)) := by
  unfold signedRange
  rw [intHalf_large n h1 h]; simp

theorem castInt_saturated (k : Kind) (n : Nat) (x lo hi : Int) (h : valueRange ⟨k, n, false⟩ = (lo, hi))
    (hle : lo ≤ hi) : castInt x ⟨k, n, false⟩ = max lo (min x hi) := by
  unfold castInt
  rw [h, if_pos rfl]
  by_cases h1 : x > hi
  · rw [if_pos h1]; omega
  · rw [if_neg h1]
    by_cases h2 : x < lo
    · rw [if_pos h2]; omega
    · rw [if_neg h2]; omega

theorem assignRead_unsigned (n : Nat) (tr : Bool) (x v : Int) (hn : 0 < n)
    (hc : castInt x ⟨.unsigned, n, tr⟩ = v) (h0 : 0 ≤ v) :
    assignRead ⟨.unsigned, n, tr⟩ x = .ok (some v) := by
  have hne : formatBin n v.toNat ≠ [] := by
    intro h; have := length_formatBin n v.toNat; rw [h] at this; simp at this; omega
  simp only [assignRead, setInt, getInt, hc, hne, if_false, natOfBits_formatBin]
  rw [Int.toNat_of_nonneg h0]

theorem assignRead_signed (n : Nat) (tr : Bool) (x v : Int) (hn : 0 < n)
    (hc : castInt x ⟨.signed, n, tr⟩ = v) (h0 : -2 ^ n ≤ v) (h1 : v < 2 ^ n) :
    assignRead ⟨.signed, n, tr⟩ x = .ok (some (Int.bmod v (2 ^ n))) := by
  have hp := two_pow_pred n hn
  have hpp := two_pow_pos_int (n - 1)
  have key : ∀ w : Int, 0 ≤ w → w < 2 ^ n →
      getInt ⟨.signed, n, tr⟩ (formatBin n w.toNat) = some (Int.bmod w (2 ^ n)) := by
    intro w hw0 hw1
    have hne : formatBin n w.toNat ≠ [] := by
      intro h; have := length_formatBin n w.toNat; rw [h] at this; simp at this; omega
    simp only [getInt, hne, if_false, natOfBits_formatBin]
    rw [Int.toNat_of_nonneg hw0, Int.bmod_def, cast_two_pow, Int.emod_eq_of_lt hw0 hw1]
    congr 1
    have : ((2 : Int) ^ n + 1) / 2 = 2 ^ (n - 1) := by omega
    rw [this]
    by_cases hh : w ≥ 2 ^ (n - 1)
    · rw [if_pos hh, if_neg (by omega)]; omega
    · rw [if_neg hh, if_pos (by omega)]
  simp only [assignRead, setInt, hc]
  by_cases hneg : v < 0
  · rw [if_pos hneg, key _ (by omega) (by omega)]
    congr 2
    rw [← cast_two_pow, Int.add_bmod_right]
  · rw [if_neg hneg, key _ (by omega) h1]

theorem bmod_eq_self (n : Nat) (x : Int) (hn : 0 < n) (h0 : -2 ^ (n - 1) ≤ x) (h1 : x < 2 ^ (n - 1)) :
    Int.bmod x (2 ^ n) = x := by
  have hp := two_pow_pred n hn
  apply Int.bmod_eq_of_le
  · rw [cast_two_pow]; omega
  · rw [cast_two_pow]; omega

end Dronecan
