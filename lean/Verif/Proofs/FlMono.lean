import Verif.Proofs.FloatFormat

/-!
# Rounding to floats is monotone
-/

namespace Dronecan

theorem roundHalfEven_mono {m n : Rat} (h : m ≤ n) : roundHalfEven m ≤ roundHalfEven n := by
  have hm := Rat.floor_le m
  have hm' := Rat.lt_floor_add_one m
  have hn := Rat.floor_le n
  have hn' := Rat.lt_floor_add_one n
  rw [Rat.intCast_add] at hm' hn'
  have hf : m.floor ≤ n.floor := by
    have : (m.floor : Rat) < (n.floor : Rat) + 1 := by grind
    have : m.floor < n.floor + 1 := by exact_mod_cast this
    omega
  by_cases he : m.floor = n.floor
  · unfold roundHalfEven
    dsimp only
    rw [he]
    rw [he] at hm hm'
    repeat' split
    all_goals first | omega | (exfalso; grind)
  · have hb : ∀ q : Rat, q.floor ≤ roundHalfEven q ∧ roundHalfEven q ≤ q.floor + 1 := by
      intro q
      unfold roundHalfEven
      dsimp only
      repeat' split
      all_goals omega
    have := hb m
    have := hb n
    omega

open Float16 in
theorem fl_mono {p q : Rat} (h0 : 0 ≤ p) (h : p ≤ q) : fl p ≤ fl q := by
  by_cases hp : p = 0
  · subst hp
    rw [fl_zero]
    by_cases hq : q = 0
    · rw [hq, fl_zero]; exact Rat.le_refl
    · have hq' : 0 < q := by grind
      have := (fl_error q hq').2
      grind
  · have hp' : 0 < p := by grind
    have hq' : 0 < q := by grind
    have a1 := binExp_le p hp'
    have a2 := binExp_lt p hp'
    have b1 := binExp_le q hq'
    have b2 := binExp_lt q hq'
    have he : binExp p ≤ binExp q := by
      have : (2 : Rat) ^ binExp p < (2 : Rat) ^ (binExp q + 1) := by grind
      have := lt_of_zlt this
      omega
    have dv : ∀ (x y : Rat) (k : Int), x ≤ y → x / (2 : Rat) ^ k ≤ y / (2 : Rat) ^ k := by
      intro x y k hxy
      rw [div_z, div_z]
      exact Rat.mul_le_mul_of_nonneg_right hxy (Rat.le_of_lt (zpos _))
    simp only [fl, if_neg hp, if_neg (show q ≠ 0 by grind)]
    by_cases hb : binExp p = binExp q
    · rw [hb]
      refine Rat.mul_le_mul_of_nonneg_right ?_ (Rat.le_of_lt (zpos _))
      exact_mod_cast roundHalfEven_mono (dv _ _ _ h)
    · -- there is a power of two between them
      have c1 : roundHalfEven (p / (2 : Rat) ^ (binExp p - 52)) ≤ 2 ^ 53 := by
        have : p / (2 : Rat) ^ (binExp p - 52) ≤ (((2 ^ 53 : Int)) : Rat) := by
          refine Rat.le_trans (dv _ _ _ (Rat.le_of_lt a2)) ?_
          rw [div_z, mulz, show binExp p + 1 + -(binExp p - 52) = ((53 : Nat) : Int) by omega, Rat.zpow_natCast]
          decide
        have := roundHalfEven_mono this
        rwa [roundHalfEven_int] at this
      have c2 : 2 ^ 52 ≤ roundHalfEven (q / (2 : Rat) ^ (binExp q - 52)) := by
        have : (((2 ^ 52 : Int)) : Rat) ≤ q / (2 : Rat) ^ (binExp q - 52) := by
          refine Rat.le_trans ?_ (dv _ _ _ b1)
          rw [div_z, mulz, show binExp q + -(binExp q - 52) = ((52 : Nat) : Int) by omega, Rat.zpow_natCast]
          decide
        have := roundHalfEven_mono this
        rwa [roundHalfEven_int] at this
      have d1 : (roundHalfEven (p / (2 : Rat) ^ (binExp p - 52)) : Rat) * (2 : Rat) ^ (binExp p - 52) ≤ (2 : Rat) ^ (binExp p + 1) := by
        have : (roundHalfEven (p / (2 : Rat) ^ (binExp p - 52)) : Rat) ≤ (2 : Rat) ^ ((53 : Nat) : Int) := by
          rw [Rat.zpow_natCast, show (2 : Rat) ^ 53 = ((2 ^ 53 : Int) : Rat) by decide +kernel]
          exact Rat.intCast_le_intCast.2 c1
        refine Rat.le_trans (Rat.mul_le_mul_of_nonneg_right this (Rat.le_of_lt (zpos _))) ?_
        rw [mulz, show ((53 : Nat) : Int) + (binExp p - 52) = binExp p + 1 by omega]
        exact Rat.le_refl
      have d2 : (2 : Rat) ^ (binExp q) ≤ (roundHalfEven (q / (2 : Rat) ^ (binExp q - 52)) : Rat) * (2 : Rat) ^ (binExp q - 52) := by
        have : (2 : Rat) ^ ((52 : Nat) : Int) ≤ (roundHalfEven (q / (2 : Rat) ^ (binExp q - 52)) : Rat) := by
          rw [Rat.zpow_natCast, show (2 : Rat) ^ 52 = ((2 ^ 52 : Int) : Rat) by decide +kernel]
          exact Rat.intCast_le_intCast.2 c2
        refine Rat.le_trans ?_ (Rat.mul_le_mul_of_nonneg_right this (Rat.le_of_lt (zpos _)))
        rw [mulz, show ((52 : Nat) : Int) + (binExp q - 52) = binExp q by omega]
        exact Rat.le_refl
      exact Rat.le_trans d1 (Rat.le_trans (zle (by omega)) d2)

end Dronecan
