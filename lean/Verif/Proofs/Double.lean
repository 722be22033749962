import Verif.Model.Double

/-!
# Lemmas on rounding
-/

namespace Dronecan

theorem roundHalfEven_le (m : Rat) : (roundHalfEven m : Rat) - m ≤ 1 / 2 ∧ m - (roundHalfEven m : Rat) ≤ 1 / 2 := by
  have h1 := Rat.floor_le m
  have h2 := Rat.lt_floor_add_one m
  rw [Rat.intCast_add] at h2
  unfold roundHalfEven
  dsimp only
  split
  · grind
  · split
    · rw [Rat.intCast_add]
      grind
    · split
      · grind
      · rw [Rat.intCast_add]
        grind

theorem binExp_le (q : Rat) (hq : 0 < q) : (2 : Rat) ^ binExp q ≤ q := by
  unfold binExp
  dsimp only
  have habs : q.abs = q := Rat.abs_of_nonneg (Rat.le_of_lt hq)
  rw [habs]
  split
  · assumption
  · have hnum : 0 < q.num := by
      have := Rat.num_nonneg.2 (Rat.le_of_lt hq)
      have : q.num ≠ 0 := fun h => Rat.ne_of_gt hq (Rat.num_eq_zero.1 h)
      omega
    have hn : q.num.natAbs ≠ 0 := by omega
    have h1 : 2 ^ Nat.log2 q.num.natAbs ≤ q.num.natAbs := Nat.log2_self_le hn
    have h2 : q.den < 2 ^ (Nat.log2 q.den + 1) := Nat.lt_log2_self
    generalize Nat.log2 q.num.natAbs = a at *
    generalize Nat.log2 q.den = b at *
    have hd : (0 : Rat) < (q.den : Rat) := by
      have := q.den_pos
      exact_mod_cast this
    apply Rat.le_of_mul_le_mul_right _ hd
    have e1 : q * (q.den : Rat) = (q.num.natAbs : Rat) := by
      have hq' : (q.num : Rat) / (q.den : Rat) = q := by
        conv => rhs; rw [← Rat.num_divInt_den q]
        rw [Rat.divInt_eq_div]
        rfl
      have : q * (q.den : Rat) = (q.num : Rat) := by
        conv => lhs; lhs; rw [← hq']
        exact Rat.div_mul_cancel (Rat.ne_of_gt hd)
      rw [this]
      have : (q.num.natAbs : Int) = q.num := by omega
      rw [← Rat.intCast_natCast, this]
    rw [e1]
    have e2 : (2 : Rat) ^ ((a : Int) - b - 1) * (2 : Rat) ^ ((b : Int) + 1) = (2 : Rat) ^ a := by
      rw [← Rat.zpow_add (by decide), ← Rat.zpow_natCast]
      congr 1
      omega
    have h2' : (q.den : Rat) ≤ (2 : Rat) ^ ((b : Int) + 1) := by
      have : (q.den : Rat) ≤ ((2 ^ (b + 1) : Nat) : Rat) := by exact_mod_cast Nat.le_of_lt h2
      rw [Rat.natCast_pow] at this
      exact this
    have h1' : (2 : Rat) ^ a ≤ (q.num.natAbs : Rat) := by
      have : ((2 ^ a : Nat) : Rat) ≤ (q.num.natAbs : Rat) := by exact_mod_cast h1
      rw [Rat.natCast_pow] at this
      exact this
    have hpos : (0 : Rat) ≤ (2 : Rat) ^ ((a : Int) - b - 1) := Rat.zpow_nonneg (by decide)
    have := Rat.mul_le_mul_of_nonneg_left h2' hpos
    rw [e2] at this
    exact Rat.le_trans this h1'

/-- The relative error of rounding a positive number is at most 2⁻⁵³. -/
theorem fl_error (q : Rat) (hq : 0 < q) : fl q - q ≤ q / 2 ^ 53 ∧ q - fl q ≤ q / 2 ^ 53 := by
  have hne : q ≠ 0 := Rat.ne_of_gt hq
  have hu : (0 : Rat) < (2 : Rat) ^ (binExp q - 52) := Rat.zpow_pos (by decide)
  have he : (2 : Rat) ^ (binExp q - 52) * 2 ^ 52 ≤ q := by
    have := binExp_le q hq
    rw [show binExp q = (binExp q - 52) + ((52 : Nat) : Int) by omega, Rat.zpow_add (by decide), Rat.zpow_natCast] at this
    exact this
  unfold fl
  rw [if_neg hne]
  generalize (2 : Rat) ^ (binExp q - 52) = u at *
  obtain ⟨h1, h2⟩ := roundHalfEven_le (q / u)
  generalize (roundHalfEven (q / u) : Rat) = r at *
  have hc : q / u * u = q := Rat.div_mul_cancel (Rat.ne_of_gt hu)
  have h1' := Rat.mul_le_mul_of_nonneg_right h1 (Rat.le_of_lt hu)
  have h2' := Rat.mul_le_mul_of_nonneg_right h2 (Rat.le_of_lt hu)
  have e1 : (r - q / u) * u = r * u - q := by
    rw [Rat.sub_eq_add_neg, Rat.add_mul, Rat.neg_mul, hc, ← Rat.sub_eq_add_neg]
  have e2 : (q / u - r) * u = q - r * u := by
    rw [Rat.sub_eq_add_neg, Rat.add_mul, Rat.neg_mul, hc, ← Rat.sub_eq_add_neg]
  rw [e1] at h1'
  rw [e2] at h2'
  have : (1 / 2 : Rat) * u ≤ q / 2 ^ 53 := by grind
  exact ⟨Rat.le_trans h1' this, Rat.le_trans h2' this⟩

theorem fl_zero : fl 0 = 0 := by simp [fl]

end Dronecan
