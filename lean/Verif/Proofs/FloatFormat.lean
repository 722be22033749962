import Verif.Model.FloatField
import Verif.Proofs.Float16

/-!
# Lemmas on binary floating-point formats
-/

namespace Dronecan
namespace FloatField

open Float16 (ltle lelt mulz zpos zle zlt lt_of_zlt binExp_lt binExp_unique natCast_le_iff natCast_lt_iff mul_z_le div_z)

theorem abs_sub_of_le (x y : Rat) (h : x ≤ y) : (y - x).abs = y - x ∧ (x - y).abs = y - x := by
  constructor
  · exact Rat.abs_of_nonneg (by grind)
  · have : (x - y).abs = (-(x - y)).abs := (Rat.abs_neg).symm
    rw [this, Rat.abs_of_nonneg (by grind)]
    grind

/-! ## Rounding to integers -/

theorem roundHalfEven_cases (m : Rat) : ∃ f : Int, (f : Rat) ≤ m ∧ m < (f : Rat) + 1 ∧
    ((roundHalfEven m = f ∧ m - f < 1 / 2) ∨ (roundHalfEven m = f + 1 ∧ 1 / 2 < m - f) ∨
      (m - f = 1 / 2 ∧ (roundHalfEven m = f ∨ roundHalfEven m = f + 1) ∧ roundHalfEven m % 2 = 0)) := by
  have h1 := Rat.floor_le m
  have h2 := Rat.lt_floor_add_one m
  rw [Rat.intCast_add] at h2
  refine ⟨m.floor, h1, h2, ?_⟩
  unfold roundHalfEven
  dsimp only
  split
  · next h => exact .inl ⟨rfl, h⟩
  · split
    · next h => exact .inr (.inl ⟨rfl, h⟩)
    · have he : m - (m.floor : Rat) = 1 / 2 := by grind
      split
      · next h => exact .inr (.inr ⟨he, .inl rfl, h⟩)
      · exact .inr (.inr ⟨he, .inr rfl, by omega⟩)

/-- The result is a nearest integer; if there are two, it is even. -/
theorem roundHalfEven_nearest (m : Rat) (k : Int) :
    (m - (roundHalfEven m : Rat)).abs ≤ (m - (k : Rat)).abs ∧
    ((m - (k : Rat)).abs = (m - (roundHalfEven m : Rat)).abs → k ≠ roundHalfEven m → roundHalfEven m % 2 = 0) := by
  obtain ⟨f, h1, h2, h⟩ := roundHalfEven_cases m
  have h3 : (f : Rat) + 1 = ((f + 1 : Int) : Rat) := by rw [Rat.intCast_add]; rfl
  have a1 := (abs_sub_of_le _ _ h1).1
  have a2 : (m - ((f + 1 : Int) : Rat)).abs = (f : Rat) + 1 - m := by
    rw [← h3]
    exact (abs_sub_of_le _ _ (Rat.le_of_lt h2)).2
  have low : k ≤ f → k = f ∨ m - f + 1 ≤ (m - (k : Rat)).abs := by
    intro hk
    by_cases hkf : k = f
    · exact .inl hkf
    · right
      have : ((k + 1 : Int) : Rat) ≤ (f : Rat) := Rat.intCast_le_intCast.2 (by omega)
      rw [Rat.intCast_add] at this
      rw [(abs_sub_of_le (k : Rat) m (by grind)).1]
      grind
  have high : f + 1 ≤ k → k = f + 1 ∨ (f : Rat) + 1 - m + 1 ≤ (m - (k : Rat)).abs := by
    intro hk
    by_cases hkf : k = f + 1
    · exact .inl hkf
    · right
      have : ((f + 1 + 1 : Int) : Rat) ≤ (k : Rat) := Rat.intCast_le_intCast.2 (by omega)
      rw [Rat.intCast_add, ← h3] at this
      rw [(abs_sub_of_le m (k : Rat) (by grind)).2]
      grind
  have cases : k = f ∨ k = f + 1 ∨ (m - f + 1 ≤ (m - (k : Rat)).abs ∧ k < f) ∨ ((f : Rat) + 1 - m + 1 ≤ (m - (k : Rat)).abs ∧ f + 1 < k) := by
    by_cases hk : k ≤ f
    · rcases low hk with h | h
      · exact .inl h
      · by_cases h5 : k = f
        · exact .inl h5
        · exact .inr (.inr (.inl ⟨h, by omega⟩))
    · rcases high (by omega) with h | h
      · exact .inr (.inl h)
      · by_cases h5 : k = f + 1
        · exact .inr (.inl h5)
        · exact .inr (.inr (.inr ⟨h, by omega⟩))
  rcases h with ⟨e, hm⟩ | ⟨e, hm⟩ | ⟨hm, e | e, hev⟩
  · rw [e, a1]
    rcases cases with rfl | rfl | ⟨h, _⟩ | ⟨h, _⟩
    · rw [a1]; exact ⟨Rat.le_refl, fun _ h => absurd rfl h⟩
    · rw [a2]; exact ⟨by grind, fun h => by grind⟩
    · exact ⟨by grind, fun h => by grind⟩
    · exact ⟨by grind, fun h => by grind⟩
  · rw [e, a2]
    rcases cases with rfl | rfl | ⟨h, _⟩ | ⟨h, _⟩
    · rw [a1]; exact ⟨by grind, fun h => by grind⟩
    · rw [a2]; exact ⟨Rat.le_refl, fun _ h => absurd rfl h⟩
    · exact ⟨by grind, fun h => by grind⟩
    · exact ⟨by grind, fun h => by grind⟩
  · rw [e] at hev
    rw [e, a1]
    refine ⟨?_, fun _ _ => hev⟩
    rcases cases with rfl | rfl | ⟨h, _⟩ | ⟨h, _⟩
    · rw [a1]; exact Rat.le_refl
    · rw [a2]; grind
    · grind
    · grind
  · rw [e] at hev
    rw [e, a2]
    refine ⟨?_, fun _ _ => hev⟩
    rcases cases with rfl | rfl | ⟨h, _⟩ | ⟨h, _⟩
    · rw [a1]; grind
    · rw [a2]; exact Rat.le_refl
    · grind
    · grind

theorem le_roundHalfEven (m : Rat) (k : Int) (h : (k : Rat) ≤ m) : k ≤ roundHalfEven m := by
  have := (roundHalfEven_le m).2
  have h1 : (k : Rat) < ((roundHalfEven m + 1 : Int) : Rat) := by
    rw [Rat.intCast_add]
    have : ((1 : Int) : Rat) = 1 := rfl
    grind
  have := Rat.intCast_lt_intCast.1 h1
  omega

theorem roundHalfEven_le_int (m : Rat) (k : Int) (h : m ≤ (k : Rat)) : roundHalfEven m ≤ k := by
  have := (roundHalfEven_le m).1
  have h1 : (roundHalfEven m : Rat) < ((k + 1 : Int) : Rat) := by
    rw [Rat.intCast_add]
    have : ((1 : Int) : Rat) = 1 := rfl
    grind
  have := Rat.intCast_lt_intCast.1 h1
  omega

/-! ## Patterns -/

theorem two_pos (n : Nat) : 0 < 2 ^ n := Nat.pow_pos (by omega)

theorem cast_pow (n : Nat) : ((2 ^ n : Nat) : Rat) = (2 : Rat) ^ (n : Int) := by rw [Rat.natCast_pow, Rat.zpow_natCast]; rfl

theorem value_eq (F : Fmt) (E M : Nat) (hM : M < 2 ^ F.mant) : F.value (E * 2 ^ F.mant + M) =
    if E = 0 then (M : Rat) * (2 : Rat) ^ F.least else ((2 ^ F.mant + M : Nat) : Rat) * (2 : Rat) ^ (F.least + ((E : Int) - 1)) := by
  have h1 : (E * 2 ^ F.mant + M) / 2 ^ F.mant = E := by
    rw [Nat.add_comm, Nat.add_mul_div_right _ _ (two_pos _), Nat.div_eq_of_lt hM, Nat.zero_add]
  have h2 : (E * 2 ^ F.mant + M) % 2 ^ F.mant = M := by
    rw [Nat.add_comm, Nat.add_mul_mod_self_right, Nat.mod_eq_of_lt hM]
  unfold Fmt.value
  simp only [h1, h2]

/-- Between two powers of two the numbers are the multiples of a unit. -/
theorem value_grid (F : Fmt) (j n : Nat) (h1 : 0 < j → 2 ^ F.mant ≤ n) (h2 : n ≤ 2 * 2 ^ F.mant) :
    F.value (j * 2 ^ F.mant + n) = (n : Rat) * (2 : Rat) ^ (F.least + (j : Int)) := by
  by_cases hn : n < 2 ^ F.mant
  · have hj : j = 0 := by
      apply Classical.byContradiction
      intro h
      have := h1 (by omega)
      omega
    subst hj
    rw [value_eq F 0 n hn, if_pos rfl]
    simp
  · by_cases hn2 : n < 2 * 2 ^ F.mant
    · have : j * 2 ^ F.mant + n = (j + 1) * 2 ^ F.mant + (n - 2 ^ F.mant) := by rw [Nat.add_mul]; omega
      rw [this, value_eq F _ _ (by omega), if_neg (by omega), show 2 ^ F.mant + (n - 2 ^ F.mant) = n by omega]
      congr 2
      omega
    · have he : n = 2 * 2 ^ F.mant := by omega
      have : j * 2 ^ F.mant + n = (j + 2) * 2 ^ F.mant + 0 := by rw [Nat.add_mul]; omega
      rw [this, value_eq F _ _ (two_pos _), if_neg (by omega), he, Nat.add_zero, Rat.natCast_mul, Rat.mul_comm ((2 : Nat) : Rat), Rat.mul_assoc]
      congr 1
      have : ((2 : Nat) : Rat) * (2 : Rat) ^ (F.least + (j : Int)) = (2 : Rat) ^ (1 + (F.least + (j : Int))) := mulz 1 _
      rw [this]
      congr 1
      omega

/-- Every pattern lies in such a section. -/
theorem section_of (F : Fmt) (u : Nat) : ∃ j n, u = j * 2 ^ F.mant + n ∧ (0 < j → 2 ^ F.mant ≤ n) ∧ n < 2 * 2 ^ F.mant := by
  have h := Nat.div_add_mod u (2 ^ F.mant)
  have h2 := Nat.mod_lt u (two_pos F.mant)
  by_cases hE : u / 2 ^ F.mant = 0
  · refine ⟨0, u, by omega, by omega, ?_⟩
    rw [hE] at h
    omega
  · refine ⟨u / 2 ^ F.mant - 1, 2 ^ F.mant + u % 2 ^ F.mant, ?_, by omega, by omega⟩
    obtain ⟨d, hd⟩ : ∃ d, u / 2 ^ F.mant = d + 1 := ⟨u / 2 ^ F.mant - 1, (Nat.succ_pred_eq_of_pos (Nat.pos_of_ne_zero hE)).symm⟩
    rw [hd] at h ⊢
    rw [Nat.mul_add, Nat.mul_one, Nat.mul_comm] at h
    rw [show d + 1 - 1 = d by omega]
    omega

theorem value_step (F : Fmt) (u : Nat) : F.value u < F.value (u + 1) := by
  obtain ⟨j, n, rfl, h1, h2⟩ := section_of F u
  rw [value_grid F j n h1 (by omega), Nat.add_assoc, value_grid F j (n + 1) (fun h => by have := h1 h; omega) (by omega)]
  exact Rat.mul_lt_mul_of_pos_right ((natCast_lt_iff _ _).2 (by omega)) (zpos _)

theorem value_lt (F : Fmt) (u v : Nat) (h : u < v) : F.value u < F.value v := by
  induction v with
  | zero => omega
  | succ v ih =>
    by_cases hv : u = v
    · subst hv; exact value_step F u
    · exact ltle (ih (by omega)) (Rat.le_of_lt (value_step F v))

theorem value_le (F : Fmt) (u v : Nat) (h : u ≤ v) : F.value u ≤ F.value v := by
  by_cases hv : u = v
  · subst hv; exact Rat.le_refl
  · exact Rat.le_of_lt (value_lt F u v (by omega))

theorem value_lt_iff (F : Fmt) (u v : Nat) : F.value u < F.value v ↔ u < v := by
  refine ⟨fun h => ?_, value_lt F u v⟩
  apply Classical.byContradiction
  intro hn
  have := value_le F v u (by omega)
  grind

theorem value_nonneg (F : Fmt) (u : Nat) : 0 ≤ F.value u := by
  have h := value_le F 0 u (by omega)
  have : F.value 0 = 0 := by
    have := value_grid F 0 0 (by omega) (by omega)
    simpa using this
  rwa [this] at h

/-! ## Rounding to the format -/

theorem round_section (F : Fmt) (q : Rat) (hq : 0 ≤ q) : ∃ j n : Nat, F.round q = j * 2 ^ F.mant + n ∧ (0 < j → 2 ^ F.mant ≤ n) ∧
    n ≤ 2 * 2 ^ F.mant ∧ (n : Int) = roundHalfEven (q / (2 : Rat) ^ (F.least + (j : Int))) ∧
    (0 < j → ((2 ^ F.mant : Nat) : Rat) * (2 : Rat) ^ (F.least + (j : Int)) ≤ q) ∧
    q < ((2 * 2 ^ F.mant : Nat) : Rat) * (2 : Rat) ^ (F.least + (j : Int)) := by
  by_cases h0 : q = 0
  · subst h0
    have hz : roundHalfEven 0 = 0 := by decide +kernel
    refine ⟨0, 0, by simp [Fmt.round], by omega, by omega, ?_, by omega, ?_⟩
    · rw [Rat.div_def, Rat.zero_mul, hz]; rfl
    · exact Rat.mul_pos (by rw [show (0 : Rat) = ((0 : Nat) : Rat) from rfl]; exact (natCast_lt_iff _ _).2 (by have := two_pos F.mant; omega)) (zpos _)
  · have hpos : 0 < q := by grind
    obtain ⟨e, he⟩ : ∃ e, e = max (binExp q - F.mant) F.least := ⟨_, rfl⟩
    obtain ⟨j, hj⟩ : ∃ j : Nat, j = (e - F.least).toNat := ⟨_, rfl⟩
    have hej : F.least + (j : Int) = e := by omega
    have hlo : 0 < j → ((2 ^ F.mant : Nat) : Rat) * (2 : Rat) ^ e ≤ q := by
      intro h
      rw [cast_pow, mulz, show (F.mant : Int) + e = binExp q by omega]
      exact binExp_le q hpos
    have hhi : q < ((2 * 2 ^ F.mant : Nat) : Rat) * (2 : Rat) ^ e := by
      have h1 := binExp_lt q hpos
      have h2 := zle (show binExp q + 1 ≤ ((F.mant + 1 : Nat) : Int) + e by omega)
      have h3 : 2 * 2 ^ F.mant = 2 ^ (F.mant + 1) := by rw [Nat.pow_succ, Nat.mul_comm]
      rw [h3, cast_pow, mulz]
      exact ltle h1 h2
    have hs := zpos e
    have hm : q / (2 : Rat) ^ e * (2 : Rat) ^ e = q := Rat.div_mul_cancel (Rat.ne_of_gt hs)
    have b1 : ∀ k : Nat, (k : Rat) * (2 : Rat) ^ e ≤ q → (k : Int) ≤ roundHalfEven (q / (2 : Rat) ^ e) := by
      intro k hk
      apply le_roundHalfEven
      rw [Rat.intCast_natCast]
      rw [← hm] at hk
      exact Rat.le_of_mul_le_mul_right hk hs
    have b2 : roundHalfEven (q / (2 : Rat) ^ e) ≤ ((2 * 2 ^ F.mant : Nat) : Int) := by
      apply roundHalfEven_le_int
      rw [Rat.intCast_natCast]
      apply Rat.le_of_mul_le_mul_right _ hs
      rw [hm]
      exact Rat.le_of_lt hhi
    have b0 := b1 0 (by rw [show ((0 : Nat) : Rat) = 0 from rfl, Rat.zero_mul]; exact hq)
    refine ⟨j, (roundHalfEven (q / (2 : Rat) ^ e)).toNat, ?_, ?_, by omega, ?_, ?_, ?_⟩
    · unfold Fmt.round
      rw [if_neg h0]
      simp only [← he, ← hj]
    · intro h
      have := b1 _ (hlo h)
      omega
    · rw [hej]; omega
    · rw [hej]; exact hlo
    · rw [hej]; exact hhi

theorem mul_abs (x s : Rat) (hs : 0 < s) : (x * s).abs = x.abs * s := by
  by_cases h : 0 ≤ x
  · rw [Rat.abs_of_nonneg h, Rat.abs_of_nonneg (Rat.mul_nonneg h (Rat.le_of_lt hs))]
  · have h1 : x ≤ 0 := by grind
    have h2 : 0 ≤ -x := by grind
    have e1 : (x * s).abs = (-x * s).abs := by rw [Rat.neg_mul, Rat.abs_neg]
    rw [e1, Rat.abs_of_nonneg (Rat.mul_nonneg h2 (Rat.le_of_lt hs)), ← Rat.abs_neg, Rat.abs_of_nonneg h2]

/-- Rounding gives a nearest number, and of two nearest ones that with an even pattern, which is an even multiple of their distance. -/
theorem round_nearest (F : Fmt) (hF : 0 < F.mant) (q : Rat) (hq : 0 ≤ q) (v : Nat) :
    (q - F.value (F.round q)).abs ≤ (q - F.value v).abs ∧
    ((q - F.value v).abs = (q - F.value (F.round q)).abs → v ≠ F.round q → F.round q % 2 = 0 ∧
      ∃ c : Nat, F.value (F.round q) = ((2 * c : Nat) : Rat) * (F.value (F.round q) - F.value v).abs) := by
  obtain ⟨j, n, er, h1, h2, hn, hlo, hhi⟩ := round_section F q hq
  have hgrid : ∀ k : Nat, (0 < j → 2 ^ F.mant ≤ k) → k ≤ 2 * 2 ^ F.mant → F.value (j * 2 ^ F.mant + k) = (k : Rat) * (2 : Rat) ^ (F.least + (j : Int)) :=
    fun k => value_grid F j k
  rw [er, hgrid n h1 h2]
  have hs := zpos (F.least + (j : Int))
  generalize (2 : Rat) ^ (F.least + (j : Int)) = s at *
  have hm : q / s * s = q := Rat.div_mul_cancel (Rat.ne_of_gt hs)
  generalize q / s = m at *
  have key : ∀ k : Nat, (q - (k : Rat) * s).abs = (m - (k : Rat)).abs * s := by
    intro k
    rw [← mul_abs _ _ hs]
    congr 1
    rw [← hm]
    grind
  have hev : (n : Int) % 2 = 0 → (j * 2 ^ F.mant + n) % 2 = 0 := by
    intro h
    obtain ⟨c, hc⟩ : ∃ c, 2 ^ F.mant = 2 * c := ⟨2 ^ (F.mant - 1), by rw [← Nat.pow_succ']; congr 1; omega⟩
    rw [hc, show j * (2 * c) = 2 * (j * c) by grind]
    omega
  have near : ∀ k : Nat, (q - (n : Rat) * s).abs ≤ (q - (k : Rat) * s).abs ∧
      ((q - (k : Rat) * s).abs = (q - (n : Rat) * s).abs → k ≠ n → (j * 2 ^ F.mant + n) % 2 = 0 ∧
        ∃ c : Nat, (n : Rat) * s = ((2 * c : Nat) : Rat) * ((n : Rat) * s - (k : Rat) * s).abs) := by
    intro k
    have h := roundHalfEven_nearest m (k : Int)
    rw [← hn, Rat.intCast_natCast, Rat.intCast_natCast] at h
    rw [key, key]
    refine ⟨Rat.mul_le_mul_of_nonneg_right h.1 (Rat.le_of_lt hs), fun he hne => ?_⟩
    have h3 : ((m - (k : Rat)).abs - (m - (n : Rat)).abs) * s = 0 := by grind
    have h4 : (m - (k : Rat)).abs = (m - (n : Rat)).abs := by
      rcases Rat.mul_eq_zero.1 h3 with h4 | h4
      · grind
      · grind
    have h5 := h.2 h4 (by omega)
    refine ⟨hev h5, n / 2, ?_⟩
    have h6 : ((n : Rat) * s - (k : Rat) * s).abs = ((n : Rat) - (k : Rat)).abs * s := by
      rw [← mul_abs _ _ hs]
      congr 1
      grind
    have h7 := roundHalfEven_le m
    rw [← hn, Rat.intCast_natCast] at h7
    have h8 : ((n : Rat) - (k : Rat)).abs = 1 := by
      rcases Nat.lt_or_gt_of_ne hne with hlt | hlt
      · have h9 : (k : Rat) + 1 ≤ (n : Rat) := by
          have := (natCast_le_iff (k + 1) n).2 (by omega)
          rwa [Rat.natCast_add] at this
        rw [(abs_sub_of_le (k : Rat) n (by grind)).1]
        by_cases hm : m ≤ (n : Rat)
        · rw [(abs_sub_of_le _ _ hm).2] at h4
          rw [(abs_sub_of_le (k : Rat) m (by grind)).1] at h4
          grind
        · rw [(abs_sub_of_le (n : Rat) m (by grind)).1, (abs_sub_of_le (k : Rat) m (by grind)).1] at h4
          grind
      · have h9 : (n : Rat) + 1 ≤ (k : Rat) := by
          have := (natCast_le_iff (n + 1) k).2 (by omega)
          rwa [Rat.natCast_add] at this
        rw [(abs_sub_of_le (n : Rat) k (by grind)).2]
        by_cases hm : m ≤ (n : Rat)
        · rw [(abs_sub_of_le _ _ hm).2] at h4
          rw [(abs_sub_of_le m (k : Rat) (by grind)).2] at h4
          grind
        · rw [(abs_sub_of_le (n : Rat) m (by grind)).1, (abs_sub_of_le m (k : Rat) (by grind)).2] at h4
          grind
    rw [h6, h8, Rat.one_mul, show 2 * (n / 2) = n by omega]
  by_cases c1 : v < j * 2 ^ F.mant + 2 ^ F.mant ∧ 0 < j
  · -- below the section
    have h3 := value_lt F _ _ c1.1
    rw [hgrid _ (fun _ => Nat.le_refl _) (by have := two_pos F.mant; omega)] at h3
    have h4 := hlo c1.2
    have h5 := (near (2 ^ F.mant)).1
    rw [(abs_sub_of_le _ _ h4).1] at h5
    rw [(abs_sub_of_le (F.value v) q (by grind)).1]
    exact ⟨by grind, fun h => by grind⟩
  · by_cases c2 : j * 2 ^ F.mant + 2 * 2 ^ F.mant < v
    · -- above
      have h3 := value_lt F _ _ c2
      rw [hgrid _ (fun _ => by omega) (by omega)] at h3
      have h5 := (near (2 * 2 ^ F.mant)).1
      rw [(abs_sub_of_le _ _ (Rat.le_of_lt hhi)).2] at h5
      rw [(abs_sub_of_le q (F.value v) (by grind)).2]
      exact ⟨by grind, fun h => by grind⟩
    · have hj : j = 0 ∨ j * 2 ^ F.mant + 2 ^ F.mant ≤ v := by
        by_cases h : j = 0
        · exact .inl h
        · right
          apply Classical.byContradiction
          intro hn
          exact c1 ⟨by omega, by omega⟩
      obtain ⟨k, rfl⟩ : ∃ k, v = j * 2 ^ F.mant + k := by
        refine ⟨v - j * 2 ^ F.mant, ?_⟩
        rcases hj with h | h
        · subst h; omega
        · omega
      rw [hgrid k (fun h => by rcases hj with h' | h' <;> omega) (by omega)]
      exact ⟨(near k).1, fun h hne => (near k).2 h (by omega)⟩

/-- A number of the format is kept. -/
theorem round_value (F : Fmt) (hF : 0 < F.mant) (u : Nat) : F.round (F.value u) = u := by
  have h := (round_nearest F hF (F.value u) (value_nonneg F u) u).1
  have e : F.value u - F.value u = 0 := by grind
  rw [e, show Rat.abs 0 = 0 from rfl] at h
  apply Classical.byContradiction
  intro hne
  rcases Nat.lt_or_gt_of_ne hne with h1 | h1
  · have h2 := value_lt F _ _ h1
    rw [(abs_sub_of_le _ _ (Rat.le_of_lt h2)).1] at h
    grind
  · have h2 := value_lt F _ _ h1
    rw [(abs_sub_of_le _ _ (Rat.le_of_lt h2)).2] at h
    grind

/-- The middle above an odd pattern is rounded up. -/
theorem round_above (F : Fmt) (hF : 0 < F.mant) (q : Rat) (hq : 0 ≤ q) (u : Nat) (hu : u % 2 = 1) :
    u < F.round q ↔ F.value u + F.value (u + 1) ≤ 2 * q := by
  have h0 := value_step F u
  constructor
  · intro h
    apply Classical.byContradiction
    intro hn
    have h1 := value_le F (u + 1) (F.round q) h
    have h2 := (round_nearest F hF q hq u).1
    rw [(abs_sub_of_le q (F.value (F.round q)) (by grind)).2] at h2
    by_cases hc : q ≤ F.value u
    · rw [(abs_sub_of_le _ _ hc).2] at h2; grind
    · rw [(abs_sub_of_le (F.value u) q (by grind)).1] at h2; grind
  · intro h
    apply Classical.byContradiction
    intro hn
    have h1 := value_le F (F.round q) u (by omega)
    have h2 := round_nearest F hF q hq (u + 1)
    have h3 := (abs_sub_of_le (F.value (F.round q)) q (by grind)).1
    by_cases hc : q ≤ F.value (u + 1)
    · have h4 := (abs_sub_of_le _ _ hc).2
      rw [h3, h4] at h2
      by_cases hr : F.round q = u
      · have := (h2.2 (by grind) (by omega)).1
        omega
      · have := value_lt F (F.round q) u (by omega)
        grind
    · have h4 := (abs_sub_of_le (F.value (u + 1)) q (by grind)).1
      rw [h3, h4] at h2
      grind

theorem round_mono (F : Fmt) (hF : 0 < F.mant) (q : Rat) (hq : 0 ≤ q) (u : Nat) (h : q ≤ F.value u) : F.round q ≤ u := by
  apply Classical.byContradiction
  intro hn
  have h1 := value_lt F u (F.round q) (by omega)
  have h2 := (round_nearest F hF q hq u).1
  rw [(abs_sub_of_le _ _ h).2, (abs_sub_of_le q (F.value (F.round q)) (by grind)).2] at h2
  grind

/-- The numbers of a format are those with a significand and an exponent in its range. -/
theorem pattern_of (F : Fmt) (n : Nat) (e : Int) (hn : n < 2 * 2 ^ F.mant) (h1 : F.least ≤ e) (h2 : e < F.least + F.top - 1) :
    ∃ u, u < F.infPattern ∧ (n : Rat) * (2 : Rat) ^ e = F.value u := by
  obtain ⟨d, rfl⟩ : ∃ d : Nat, e = F.least + (d : Int) := ⟨(e - F.least).toNat, by omega⟩
  induction d generalizing n with
  | zero =>
    refine ⟨0 * 2 ^ F.mant + n, ?_, (value_grid F 0 n (by omega) (by omega)).symm⟩
    have : 2 * 2 ^ F.mant ≤ F.top * 2 ^ F.mant := Nat.mul_le_mul_right _ (by omega)
    simp only [Fmt.infPattern]
    omega
  | succ d ih =>
    by_cases hc : n < 2 ^ F.mant
    · obtain ⟨u, hu, e⟩ := ih (2 * n) (by omega) (by omega) (by omega)
      refine ⟨u, hu, ?_⟩
      rw [← e, Rat.natCast_mul, Rat.mul_comm ((2 : Nat) : Rat), Rat.mul_assoc]
      congr 1
      have : ((2 : Nat) : Rat) * (2 : Rat) ^ (F.least + (d : Int)) = (2 : Rat) ^ (1 + (F.least + (d : Int))) := mulz 1 _
      rw [this]
      congr 1
      omega
    · refine ⟨(d + 1) * 2 ^ F.mant + n, ?_, (value_grid F (d + 1) n (by omega) (by omega)).symm⟩
      have : (d + 3) * 2 ^ F.mant ≤ F.top * 2 ^ F.mant := Nat.mul_le_mul_right _ (by omega)
      have e : (d + 3) * 2 ^ F.mant = (d + 1) * 2 ^ F.mant + 2 * 2 ^ F.mant := by rw [← Nat.add_mul]
      simp only [Fmt.infPattern]
      omega

theorem number_of (F : Fmt) (htop : 2 ≤ F.top) (u : Nat) (hu : u < F.infPattern) : ∃ (n : Nat) (e : Int), n < 2 * 2 ^ F.mant ∧ F.least ≤ e ∧
    e < F.least + F.top - 1 ∧ F.value u = (n : Rat) * (2 : Rat) ^ e := by
  obtain ⟨j, n, rfl, h1, h2⟩ := section_of F u
  refine ⟨n, F.least + (j : Int), h2, by omega, ?_, value_grid F j n h1 (by omega)⟩
  have : j = 0 ∨ j + 1 < F.top := by
    by_cases hj : j = 0
    · exact .inl hj
    · right
      apply Classical.byContradiction
      intro hn
      have h3 := h1 (by omega)
      have := Nat.mul_le_mul_right (2 ^ F.mant) (show F.top ≤ j + 1 by omega)
      rw [Nat.add_mul, Nat.one_mul] at this
      simp only [Fmt.infPattern] at hu
      omega
  omega

end FloatField
end Dronecan
