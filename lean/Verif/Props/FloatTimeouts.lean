import Verif.Model.FloatTimeouts
import Verif.Props.FloatClocks

/-!
# Timeouts with the rounding of floats (C169)
-/

namespace Dronecan
namespace FloatTimeouts
open Actuators (fl_mono_all)

/-! ## Specification -/

/-- A timeout is over exactly if more than the time given has passed. -/
def Exact (over : Rat → Rat → Rat → Bool) : Prop := ∀ timeout ts now : Rat, fl timeout = timeout → fl ts = ts → fl now = now →
  0 ≤ timeout → 0 ≤ ts → ts ≤ now → (over timeout ts now = true ↔ ts + timeout < now)

/-- `spin` returns exactly when the time given has passed. -/
def C169_spin_statement : Prop := ∀ timeout start now : Rat, fl timeout = timeout → fl start = start → fl now = now →
  0 < timeout → 0 ≤ start → start ≤ now → (returns timeout start now = true ↔ start + timeout ≤ now)

/-! ## Messages and nodes -/

/-- **C169**: a message is outdated only if more than the timeout has passed, whatever is rounded. -/
theorem C169_not_early (timeout ts now : Rat) (hn : fl now = now) (h : outdated timeout ts now = true) : ts + timeout < now := by
  simp only [outdated, decide_eq_true_eq] at h
  refine Rat.not_le.1 fun c => ?_
  have := fl_mono_all c
  rw [hn] at this
  exact absurd h (Rat.not_lt.2 this)

/-- **C169**: and when the timeout has passed, it is outdated at every later reading of the clock: rounding can hide it from one reading only. -/
theorem C169_not_late (timeout ts now later : Rat) (hn : fl now = now) (h : ts + timeout ≤ now) (hl : now < later) : outdated timeout ts later = true := by
  simp only [outdated, decide_eq_true_eq]
  have := fl_mono_all h
  rw [hn] at this
  exact Std.lt_of_le_of_lt this hl

/-- **C169**: the same for nodes: none is taken for offline before the timeout is over, and a node that has sent nothing for so long is at the next reading. -/
theorem C169_node (ms : Nat) (ts now later : Rat) (hn : fl now = now) :
    (offline ms ts now = true → ts + seconds ms < now) ∧ (ts + seconds ms ≤ now → now < later → offline ms ts later = true) :=
  ⟨C169_not_early _ ts now hn, C169_not_late _ ts now later hn⟩

/-- **C169**: the timeout in seconds is exact to a unit of rounding. -/
theorem C169_seconds (ms : Nat) : ((ms : Rat) / 1000) * (1 - 1 / 9007199254740992) ≤ seconds ms ∧ seconds ms ≤ ((ms : Rat) / 1000) * (1 + 1 / 9007199254740992) := by
  rcases Nat.eq_zero_or_pos ms with rfl | h
  · simp only [seconds]
    decide +kernel
  · have hp : (0 : Rat) < (ms : Rat) / 1000 := by
      have : (0 : Rat) < (ms : Rat) := by exact_mod_cast h
      grind
    exact GnssTools.fl_bounds hp

/-- It is exact for the timeouts of nodes and queries. -/
example : seconds 3000 = 3 ∧ seconds 500 = 1 / 2 := by decide +kernel

/-! ## What has been rounded is a float -/

section
open Float16 FloatField

theorem fl_grid (n : Nat) (k : Int) (h0 : 0 < n) (h : n ≤ 2 ^ 53) : fl ((n : Rat) * (2 : Rat) ^ k) = (n : Rat) * (2 : Rat) ^ k := by
  have hn : (0 : Rat) < (n : Rat) := by exact_mod_cast h0
  have hpos : (0 : Rat) < (n : Rat) * (2 : Rat) ^ k := Rat.mul_pos hn (zpos _)
  have h1 := binExp_le _ hpos
  have h2 : (n : Rat) * (2 : Rat) ^ k ≤ (2 : Rat) ^ (53 + k) := by
    have : (n : Rat) ≤ (2 : Rat) ^ (53 : Int) := by
      have : (n : Rat) ≤ ((2 ^ 53 : Nat) : Rat) := by exact_mod_cast h
      rwa [cast_pow] at this
    have := Rat.mul_le_mul_of_nonneg_right this (Rat.le_of_lt (zpos k))
    rwa [mulz] at this
  have h3 : binExp ((n : Rat) * (2 : Rat) ^ k) < 53 + k + 1 := by
    refine lt_of_zlt (lelt (Rat.le_trans h1 h2) ?_)
    exact zlt (by omega)
  generalize hb : binExp ((n : Rat) * (2 : Rat) ^ k) = b at *
  have key : ∀ m : Nat, (n : Rat) * (2 : Rat) ^ k = (m : Rat) * (2 : Rat) ^ (b - 52) → fl ((n : Rat) * (2 : Rat) ^ k) = (n : Rat) * (2 : Rat) ^ k := by
    intro m hm
    unfold fl
    rw [if_neg (Rat.ne_of_gt hpos), hb]
    have h5 : (2 : Rat) ^ (b - 52) * (2 : Rat) ^ (-(b - 52)) = 1 := by
      rw [mulz, show b - 52 + -(b - 52) = 0 by omega, Rat.zpow_zero]
    have h4 : (n : Rat) * (2 : Rat) ^ k / (2 : Rat) ^ (b - 52) = ((m : Int) : Rat) := by
      rw [hm, div_z, Rat.mul_assoc, h5, Rat.mul_one]
      rfl
    rw [h4, roundHalfEven_int, hm]
    rfl
  by_cases c : b - 52 ≤ k
  · obtain ⟨j, hj⟩ : ∃ j : Nat, k = (j : Int) + (b - 52) := ⟨(k - (b - 52)).toNat, by omega⟩
    refine key (n * 2 ^ j) ?_
    rw [Rat.natCast_mul, cast_pow, Rat.mul_assoc, mulz, ← hj]
  · have hbk : b = 53 + k := by omega
    have h6 : (n : Rat) * (2 : Rat) ^ k = (2 : Rat) ^ (53 + k) := by
      rw [hbk] at h1
      exact Std.le_antisymm h2 h1
    refine key (2 ^ 52) ?_
    rw [h6, cast_pow, mulz, hbk]
    congr 1
    omega

theorem fl_idem_pos {q : Rat} (h : 0 < q) : fl (fl q) = fl q := by
  have hp := GnssTools.fl_pos h
  have a2 := binExp_lt q h
  have hz : fl q = (roundHalfEven (q / (2 : Rat) ^ (binExp q - 52)) : Rat) * (2 : Rat) ^ (binExp q - 52) := by
    simp only [fl, if_neg (Rat.ne_of_gt h)]
  have c1 : roundHalfEven (q / (2 : Rat) ^ (binExp q - 52)) ≤ 2 ^ 53 := by
    refine roundHalfEven_le_int _ _ ?_
    rw [div_z]
    refine Rat.le_trans (Rat.mul_le_mul_of_nonneg_right (Rat.le_of_lt a2) (Rat.le_of_lt (zpos _))) ?_
    rw [mulz, show binExp q + 1 + -(binExp q - 52) = ((53 : Nat) : Int) by omega, Rat.zpow_natCast]
    decide
  generalize roundHalfEven (q / (2 : Rat) ^ (binExp q - 52)) = z at *
  generalize binExp q - 52 = k at *
  have hz0 : 0 < z := by
    refine Int.not_le.1 fun c => ?_
    have : (z : Rat) ≤ 0 := by exact_mod_cast c
    have := Rat.mul_le_mul_of_nonneg_right this (Rat.le_of_lt (zpos k))
    rw [← hz, Rat.zero_mul] at this
    exact absurd hp (Rat.not_lt.2 this)
  obtain ⟨n, rfl⟩ : ∃ n : Nat, z = (n : Int) := ⟨z.toNat, by omega⟩
  rw [hz]
  exact fl_grid n k (by omega) (by omega)

theorem fl_idem (q : Rat) : fl (fl q) = fl q := by
  rcases (show q < 0 ∨ q = 0 ∨ 0 < q by grind) with h | h | h
  · have h1 := fl_idem_pos (q := -q) (by grind)
    rw [Parser.fl_neg, Parser.fl_neg] at h1
    grind
  · rw [h, fl_zero, fl_zero]
  · exact fl_idem_pos h

end

/-! ## Transfers and queries -/

/-- **C169**: a transfer is inactive, and a query too long ago, only if more than the timeout has passed. -/
theorem C169_inactive (timeout ts now : Rat) (ht : fl timeout = timeout) (h : inactive timeout ts now = true) : ts + timeout < now := by
  simp only [inactive, decide_eq_true_eq] at h
  refine Rat.not_le.1 fun c => ?_
  have := fl_mono_all (p := now - ts) (q := timeout) (by grind)
  rw [ht] at this
  exact absurd h (Rat.not_lt.2 this)

/-- **C169**: and it is if the timeout and a unit of rounding has passed. -/
theorem C169_inactive_late (timeout ts now : Rat) (h0 : 0 ≤ timeout) (h : ts + timeout * (1 + 1 / 4503599627370496) < now) :
    inactive timeout ts now = true := by
  simp only [inactive, decide_eq_true_eq]
  have hp : 0 < now - ts := by grind
  have hb := (GnssTools.fl_bounds hp).1
  have h1 : timeout * (1 + 1 / 4503599627370496) < now - ts := by grind
  have h2 : timeout ≤ (timeout * (1 + 1 / 4503599627370496)) * (1 - 1 / 9007199254740992) := by grind
  have h3 : (timeout * (1 + 1 / 4503599627370496)) * (1 - 1 / 9007199254740992) < (now - ts) * (1 - 1 / 9007199254740992) := by grind
  exact Std.lt_of_le_of_lt h2 (Std.lt_of_lt_of_le h3 hb)

/-- **C169**: what is inactive stays so. -/
theorem C169_inactive_stays (timeout ts now later : Rat) (h : now ≤ later) (hi : inactive timeout ts now = true) : inactive timeout ts later = true := by
  simp only [inactive, decide_eq_true_eq] at *
  exact Std.lt_of_lt_of_le hi (fl_mono_all (by grind))

/-- **C169**: a query is forgotten only if more than the timeout has passed, and it is if a unit of rounding more has. -/
theorem C169_query (ms : Nat) (ts now : Rat) : (forgotten ms ts now = true → ts + seconds ms < now) ∧
    (ts + seconds ms * (1 + 1 / 4503599627370496) < now → forgotten ms ts now = true) := by
  refine ⟨C169_inactive _ ts now (fl_idem _), C169_inactive_late _ ts now ?_⟩
  refine GnssTools.fl_nonneg ?_
  have : (0 : Rat) ≤ (ms : Rat) := by exact_mod_cast Nat.zero_le ms
  grind

/-! ## `spin` -/

/-- **C169**: `spin` returns as soon as it looks at the clock when the time is over. -/
theorem C169_spin_not_late (timeout start now : Rat) (hn : fl now = now) (h : start + timeout ≤ now) : returns timeout start now = true := by
  have := fl_mono_all h
  rw [hn] at this
  simp only [returns, Bool.not_eq_true', decide_eq_false_iff_not]
  exact Rat.not_lt.2 this

/-- **C169**, partial: and before it is over only by a unit of rounding. -/
theorem C169_spin_partial (timeout start now : Rat) (h0 : 0 < start + timeout) (h : returns timeout start now = true) :
    (start + timeout) * (1 - 1 / 9007199254740992) ≤ now := by
  simp only [returns, Bool.not_eq_true', decide_eq_false_iff_not] at h
  exact Rat.le_trans (GnssTools.fl_bounds h0).1 (Rat.not_lt.1 h)

/-! ## Counterexamples -/

/-- `1 + 3 * 2 ^ -53` is rounded up. -/
theorem C169_outdated_counterexample : ¬ Exact outdated := by
  intro h
  have := (h (3 / 2 ^ 53) 1 (1 + 1 / 2 ^ 51) (by decide +kernel) (by decide +kernel) (by decide +kernel) (by decide +kernel) (by decide +kernel)
    (by decide +kernel)).2 (by decide +kernel)
  revert this
  decide +kernel

theorem C169_inactive_counterexample : ¬ Exact inactive := by
  intro h
  have := (h 1 (3 / 2 ^ 54) (1 + 1 / 2 ^ 52) (by decide +kernel) (by decide +kernel) (by decide +kernel) (by decide +kernel) (by decide +kernel)
    (by decide +kernel)).2 (by decide +kernel)
  revert this
  decide +kernel

/-- `spin` with a timeout that is lost in rounding. -/
theorem C169_spin_counterexample : ¬ C169_spin_statement := by
  intro h
  have := (h (1 / 2 ^ 60) 1 1 (by decide +kernel) (by decide +kernel) (by decide +kernel) (by decide +kernel) (by decide +kernel)
    (by decide +kernel)).1 (by decide +kernel)
  revert this
  decide +kernel

/-- A node is taken for offline after three seconds, not at three seconds. -/
example : offline 3000 (1 / 4) (13 / 4) = false ∧ offline 3000 (1 / 4) (7 / 2) = true ∧ forgotten 500 2 (5 / 2) = false ∧ forgotten 500 2 3 = true ∧
    returns 1 2 (5 / 2) = false ∧ returns 1 2 3 = true ∧ fl (13 / 4) = 13 / 4 := by
  decide +kernel

end FloatTimeouts
end Dronecan
