import Verif.Model.Float16
import Verif.Proofs.Double

/-!
# Lemmas on binary32 patterns
-/

namespace Dronecan
namespace Float16

theorem ltle {a b c : Rat} (h1 : a < b) (h2 : b ≤ c) : a < c := by grind

theorem lelt {a b c : Rat} (h1 : a ≤ b) (h2 : b < c) : a < c := by grind

theorem mulz (a b : Int) : (2 : Rat) ^ a * (2 : Rat) ^ b = (2 : Rat) ^ (a + b) := (Rat.zpow_add (by decide) a b).symm

theorem zpos (a : Int) : (0 : Rat) < (2 : Rat) ^ a := Rat.zpow_pos (by decide)

theorem one_le_pow (n : Nat) : (1 : Rat) ≤ (2 : Rat) ^ n := by
  induction n with
  | zero => simp
  | succ n ih =>
    rw [Rat.pow_succ]
    grind

theorem zle {a b : Int} (h : a ≤ b) : (2 : Rat) ^ a ≤ (2 : Rat) ^ b := by
  obtain ⟨n, hn⟩ : ∃ n : Nat, b = a + n := ⟨(b - a).toNat, by omega⟩
  rw [hn, ← mulz, Rat.zpow_natCast]
  have h1 := one_le_pow n
  have h2 := zpos a
  have := Rat.mul_le_mul_of_nonneg_left h1 (Rat.le_of_lt h2)
  rwa [Rat.mul_one] at this

theorem zlt {a b : Int} (h : a < b) : (2 : Rat) ^ a < (2 : Rat) ^ b := by
  have h1 : (2 : Rat) ^ (a + 1) ≤ (2 : Rat) ^ b := zle (by omega)
  have h2 := zpos a
  rw [Rat.zpow_add_one (by decide)] at h1
  grind

theorem lt_of_zlt {a b : Int} (h : (2 : Rat) ^ a < (2 : Rat) ^ b) : a < b := by
  apply Classical.byContradiction
  intro hn
  have := zle (show b ≤ a by omega)
  grind

theorem num_den (q : Rat) (hq : 0 < q) : q * (q.den : Rat) = (q.num.natAbs : Rat) ∧ (0 : Rat) < (q.den : Rat) ∧ q.num.natAbs ≠ 0 := by
  have hnum : 0 < q.num := by
    have := Rat.num_nonneg.2 (Rat.le_of_lt hq)
    have : q.num ≠ 0 := fun h => Rat.ne_of_gt hq (Rat.num_eq_zero.1 h)
    omega
  have hd : (0 : Rat) < (q.den : Rat) := by
    have := q.den_pos
    exact_mod_cast this
  refine ⟨?_, hd, by omega⟩
  have hq' : (q.num : Rat) / (q.den : Rat) = q := by
    conv => rhs; rw [← Rat.num_divInt_den q]
    rw [Rat.divInt_eq_div]
    rfl
  have : q * (q.den : Rat) = (q.num : Rat) := by
    conv => lhs; lhs; rw [← hq']
    exact Rat.div_mul_cancel (Rat.ne_of_gt hd)
  rw [this]
  have : (q.num.natAbs : Int) = q.num := by omega
  rw [← Rat.intCast_natCast, this]

theorem binExp_lt (q : Rat) (hq : 0 < q) : q < (2 : Rat) ^ (binExp q + 1) := by
  unfold binExp
  dsimp only
  rw [Rat.abs_of_nonneg (Rat.le_of_lt hq)]
  split
  · obtain ⟨e1, hd, hn⟩ := num_den q hq
    have h1 : q.num.natAbs < 2 ^ (Nat.log2 q.num.natAbs + 1) := Nat.lt_log2_self
    have h2 : 2 ^ Nat.log2 q.den ≤ q.den := Nat.log2_self_le (Nat.ne_of_gt q.den_pos)
    generalize Nat.log2 q.num.natAbs = a at *
    generalize Nat.log2 q.den = b at *
    apply Rat.lt_of_mul_lt_mul_right _ (Rat.le_of_lt hd)
    rw [e1]
    have h1' : (q.num.natAbs : Rat) < (2 : Rat) ^ ((a : Int) + 1) := by
      have : (q.num.natAbs : Rat) < ((2 ^ (a + 1) : Nat) : Rat) := by exact_mod_cast h1
      rw [Rat.natCast_pow] at this
      exact this
    have h2' : (2 : Rat) ^ (b : Int) ≤ (q.den : Rat) := by
      have : ((2 ^ b : Nat) : Rat) ≤ (q.den : Rat) := by exact_mod_cast h2
      rw [Rat.natCast_pow] at this
      exact this
    have e2 : (2 : Rat) ^ ((a : Int) - b + 1) * (2 : Rat) ^ (b : Int) = (2 : Rat) ^ ((a : Int) + 1) := by
      rw [mulz]; congr 1; omega
    have := Rat.mul_le_mul_of_nonneg_left h2' (Rat.le_of_lt (zpos ((a : Int) - b + 1)))
    rw [e2] at this
    exact ltle h1' this
  · next h =>
    rw [Int.sub_add_cancel]
    exact Rat.not_le.1 h

theorem binExp_unique (q : Rat) (e : Int) (h1 : (2 : Rat) ^ e ≤ q) (h2 : q < (2 : Rat) ^ (e + 1)) : binExp q = e := by
  have hq : 0 < q := ltle (zpos e) h1
  have a := binExp_le q hq
  have b := binExp_lt q hq
  have c := lt_of_zlt (lelt h1 b)
  have d := lt_of_zlt (lelt a h2)
  omega

theorem roundHalfEven_int (n : Int) : roundHalfEven (n : Rat) = n := by
  have : (n : Rat).floor = n := Rat.floor_intCast n
  unfold roundHalfEven
  simp only [this]
  have : (n : Rat) - (n : Rat) = 0 := by grind
  rw [this, if_pos (by decide +kernel)]

theorem div_z (x : Rat) (a : Int) : x / (2 : Rat) ^ a = x * (2 : Rat) ^ (-a) := by rw [Rat.div_def, Rat.zpow_neg]

/-- A number with a 24-bit significand in the normal range. -/
theorem round32_normal (e : Int) (he : -126 ≤ e) (n : Nat) (h1 : 2 ^ 23 ≤ n) (h2 : n < 2 ^ 24) :
    round32 ((n : Rat) * (2 : Rat) ^ (e - 23)) = (e + 126).toNat * 2 ^ 23 + n := by
  have hn1 : (2 : Rat) ^ (23 : Int) ≤ (n : Rat) := by
    have : ((2 ^ 23 : Nat) : Rat) ≤ (n : Rat) := by exact_mod_cast h1
    rw [Rat.natCast_pow] at this
    exact this
  have hn2 : (n : Rat) < (2 : Rat) ^ (24 : Int) := by
    have : (n : Rat) < ((2 ^ 24 : Nat) : Rat) := by exact_mod_cast h2
    rw [Rat.natCast_pow] at this
    exact this
  have hp := zpos (e - 23)
  have hb : binExp ((n : Rat) * (2 : Rat) ^ (e - 23)) = e := by
    apply binExp_unique
    · have := Rat.mul_le_mul_of_nonneg_right hn1 (Rat.le_of_lt hp)
      rwa [mulz, show (23 : Int) + (e - 23) = e by omega] at this
    · have := Rat.mul_lt_mul_of_pos_right hn2 hp
      rwa [mulz, show (24 : Int) + (e - 23) = e + 1 by omega] at this
  have hne : (n : Rat) * (2 : Rat) ^ (e - 23) ≠ 0 := by
    have : 0 < (n : Rat) := ltle (zpos 23) hn1
    exact Rat.ne_of_gt (Rat.mul_pos this hp)
  unfold round32
  rw [if_neg hne]
  simp only [hb, Int.max_eq_left he]
  rw [div_z, Rat.mul_assoc, mulz, show e - 23 + -(e - 23) = 0 by omega, Rat.zpow_zero, Rat.mul_one, ← Rat.intCast_natCast, roundHalfEven_int]
  rfl

/-- A number below the normal range. -/
theorem round32_sub (q : Rat) (h0 : 0 ≤ q) (h1 : q < (2 : Rat) ^ (-126 : Int)) :
    round32 q = (roundHalfEven (q * (2 : Rat) ^ (149 : Int))).toNat := by
  unfold round32
  by_cases hq : q = 0
  · subst hq
    rw [if_pos rfl, Rat.zero_mul]
    have := roundHalfEven_int 0
    rw [Rat.intCast_zero] at this
    rw [this]
    rfl
  · have hpos : 0 < q := by grind
    have hb : binExp q ≤ -126 := by
      have := lt_of_zlt (lelt (binExp_le q hpos) h1)
      omega
    rw [if_neg hq]
    simp only [Int.max_eq_right hb]
    rw [div_z]
    simp

theorem value32_eq (E M : Nat) (hM : M < 2 ^ 23) :
    value32 (E * 2 ^ 23 + M) = if E = 0 then (M : Rat) * (2 : Rat) ^ (-149 : Int) else ((2 ^ 23 + M : Nat) : Rat) * (2 : Rat) ^ ((E : Int) - 150) := by
  unfold value32
  have h1 : (E * 2 ^ 23 + M) / 2 ^ 23 = E := by omega
  have h2 : (E * 2 ^ 23 + M) % 2 ^ 23 = M := by omega
  simp only [h1, h2]

theorem split32 (u : Nat) : ∃ E M, u = E * 2 ^ 23 + M ∧ M < 2 ^ 23 := ⟨u / 2 ^ 23, u % 2 ^ 23, by omega, by omega⟩

theorem value32_nonneg (u : Nat) : 0 ≤ value32 u := by
  obtain ⟨E, M, rfl, hM⟩ := split32 u
  rw [value32_eq E M hM]
  have hn : ∀ n : Nat, (0 : Rat) ≤ (n : Rat) := fun n => by exact_mod_cast Nat.zero_le n
  split
  · exact Rat.mul_nonneg (hn _) (Rat.le_of_lt (zpos _))
  · exact Rat.mul_nonneg (hn _) (Rat.le_of_lt (zpos _))

/-- Packing what was unpacked. -/
theorem round32_value32 (u : Nat) : round32 (value32 u) = u := by
  obtain ⟨E, M, rfl, hM⟩ := split32 u
  rw [value32_eq E M hM]
  split
  · next h =>
    subst h
    have hlt : (M : Rat) * (2 : Rat) ^ (-149 : Int) < (2 : Rat) ^ (-126 : Int) := by
      have : (M : Rat) < ((2 ^ 23 : Nat) : Rat) := by exact_mod_cast hM
      rw [Rat.natCast_pow] at this
      have := Rat.mul_lt_mul_of_pos_right this (zpos (-149))
      have e : ((2 : Nat) : Rat) ^ 23 * (2 : Rat) ^ (-149 : Int) = (2 : Rat) ^ (-126 : Int) := mulz 23 (-149)
      rwa [e] at this
    have h0 : 0 ≤ (M : Rat) * (2 : Rat) ^ (-149 : Int) :=
      Rat.mul_nonneg (by exact_mod_cast Nat.zero_le M) (Rat.le_of_lt (zpos _))
    rw [round32_sub _ h0 hlt, Rat.mul_assoc, mulz, show (-149 : Int) + 149 = 0 by omega, Rat.zpow_zero, Rat.mul_one, ← Rat.intCast_natCast,
      roundHalfEven_int]
    simp
  · next h =>
    rw [show (E : Int) - 150 = ((E : Int) - 127) - 23 by omega, round32_normal _ (by omega) _ (by omega) (by omega),
      show ((E : Int) - 127 + 126).toNat = E - 1 by omega]
    omega

/-- `value32` is affine between multiples of a power of two. -/
theorem value32_add (b r : Nat) (h : b % 2 ^ 23 + r ≤ 2 ^ 23) :
    value32 (b + r) = value32 b + (r : Rat) * (2 : Rat) ^ (max ((b / 2 ^ 23 : Nat) : Int) 1 - 150) := by
  obtain ⟨E, M, rfl, hM⟩ := split32 b
  have h1 : (E * 2 ^ 23 + M) / 2 ^ 23 = E := by omega
  have h2 : (E * 2 ^ 23 + M) % 2 ^ 23 = M := by omega
  rw [h2] at h
  rw [h1]
  by_cases hr : M + r < 2 ^ 23
  · rw [Nat.add_assoc, value32_eq E (M + r) hr, value32_eq E M hM]
    by_cases hE : E = 0
    · subst hE
      rw [if_pos rfl, if_pos rfl, Rat.natCast_add, Rat.add_mul]
      rfl
    · rw [if_neg hE, if_neg hE, show max ((E : Nat) : Int) 1 = E by omega, ← Nat.add_assoc, Rat.natCast_add (2 ^ 23 + M) r, Rat.add_mul]
  · have hMr : M + r = 2 ^ 23 := by omega
    have : E * 2 ^ 23 + M + r = (E + 1) * 2 ^ 23 + 0 := by omega
    rw [this, value32_eq (E + 1) 0 (by omega), if_neg (by omega), value32_eq E M hM]
    by_cases hE : E = 0
    · subst hE
      rw [if_pos rfl]
      have : (M : Rat) * (2 : Rat) ^ (-149 : Int) + (r : Rat) * (2 : Rat) ^ (max ((0 : Nat) : Int) 1 - 150) =
          ((M + r : Nat) : Rat) * (2 : Rat) ^ (-149 : Int) := by rw [Rat.natCast_add, Rat.add_mul]; rfl
      rw [this, hMr]
      rfl
    · rw [if_neg hE, show max ((E : Nat) : Int) 1 = E by omega, ← Rat.add_mul, ← Rat.natCast_add,
        show 2 ^ 23 + M + r = 2 ^ 23 * 2 by omega, show ((E + 1 : Nat) : Int) - 150 = 1 + ((E : Int) - 150) by omega, ← mulz, ← Rat.mul_assoc,
        Rat.natCast_mul, Nat.add_zero]
      rfl

theorem value32_lt (u v : Nat) (h : u < v) : value32 u < value32 v := by
  have step : ∀ u, value32 u < value32 (u + 1) := by
    intro u
    rw [value32_add u 1 (by omega)]
    have := zpos (max ((u / 2 ^ 23 : Nat) : Int) 1 - 150)
    have h1 : ((1 : Nat) : Rat) = 1 := rfl
    rw [h1, Rat.one_mul]
    grind
  induction v with
  | zero => omega
  | succ v ih =>
    by_cases hv : u = v
    · subst hv; exact step u
    · exact ltle (ih (by omega)) (Rat.le_of_lt (step v))

/-- Multiplying by a power of two within the normal range moves the exponent. -/
theorem value32_shift (E M : Nat) (hM : M < 2 ^ 23) (k : Int) (h1 : 1 ≤ E) (h2 : 1 ≤ (E : Int) + k) :
    value32 (E * 2 ^ 23 + M) * (2 : Rat) ^ k = value32 (((E : Int) + k).toNat * 2 ^ 23 + M) := by
  rw [value32_eq E M hM, value32_eq _ M hM, if_neg (by omega), if_neg (by omega), Rat.mul_assoc, mulz]
  congr 2
  omega

/-! ## Signs -/

theorem or_sign (u : Nat) (h : u < 2 ^ 31) (neg : Bool) : u ||| signBit neg = u + signBit neg := by
  cases neg with
  | false => simp [signBit]
  | true =>
    have := Nat.two_pow_add_eq_or_of_lt h 1
    have e : u ||| signBit true = 2 ^ 31 * 1 ||| u := by rw [Nat.or_comm]; rfl
    rw [e, ← this, Nat.add_comm]
    rfl

theorem and_two_pow (n i : Nat) : n &&& 2 ^ i = if n.testBit i then 2 ^ i else 0 := by
  apply Nat.eq_of_testBit_eq
  intro k
  rw [Nat.testBit_and, Nat.testBit_two_pow]
  by_cases hk : i = k
  · subst hk
    cases h : n.testBit i <;> simp
  · cases h : n.testBit i <;> simp [hk, Nat.testBit_two_pow]

theorem unpack_sign (u : Nat) (h : u < 2 ^ 31) (neg : Bool) :
    unpack32 (u ||| signBit neg) = if u < 255 <<< 23 then .fin neg (value32 u) else if u = 255 <<< 23 then .inf neg else .nan neg := by
  have h1 : (u ||| signBit neg) % 2 ^ 31 = u := by
    rw [or_sign u h]
    cases neg <;> simp [signBit] <;> omega
  have h2 : (u ||| signBit neg).testBit 31 = neg := by
    rw [Nat.testBit_or, Nat.testBit_lt_two_pow h, Bool.false_or]
    cases neg <;> decide
  unfold unpack32
  simp only [h1, h2]

theorem unpack_fin (u : Nat) (h : u < 255 * 2 ^ 23) : unpack32 u = .fin false (value32 u) := by
  have := unpack_sign u (by omega) false
  rw [if_pos (by simpa using h)] at this
  simpa [signBit] using this

theorem pack_value (v : Nat) (h : v < 255 * 2 ^ 23) (neg : Bool) : pack32 (.fin neg (value32 v)) = .ok (v + signBit neg) := by
  simp only [pack32, round32_value32]
  rw [if_pos (by simpa using h), or_sign v (by omega)]

/-! ## Binary32 numbers -/

/-- A significand of 24 bits and an exponent in the range of binary32. -/
def IsBinary32 (q : Rat) : Prop := ∃ (n : Nat) (e : Int), n < 2 ^ 24 ∧ -149 ≤ e ∧ e ≤ 104 ∧ q = (n : Rat) * (2 : Rat) ^ e

theorem isBinary32_pattern (q : Rat) (h : IsBinary32 q) : ∃ v, v < 255 * 2 ^ 23 ∧ q = value32 v := by
  obtain ⟨n, e, hn, h1, h2, rfl⟩ := h
  generalize hk : (e + 149).toNat = k
  induction k generalizing n e with
  | zero =>
    have he : e = -149 := by omega
    subst he
    by_cases hn' : n < 2 ^ 23
    · refine ⟨n, by omega, ?_⟩
      have := value32_eq 0 n hn'
      simpa using this.symm
    · refine ⟨1 * 2 ^ 23 + (n - 2 ^ 23), by omega, ?_⟩
      rw [value32_eq 1 _ (by omega), if_neg (by omega), show 2 ^ 23 + (n - 2 ^ 23) = n by omega]
      rfl
  | succ k ih =>
    by_cases hn' : n < 2 ^ 23
    · obtain ⟨v, hv, e1⟩ := ih (2 * n) (e - 1) (by omega) (by omega) (by omega) (by omega)
      refine ⟨v, hv, ?_⟩
      rw [← e1, Rat.natCast_mul, Rat.mul_comm ((2 : Nat) : Rat), Rat.mul_assoc]
      congr 1
      have : ((2 : Nat) : Rat) * (2 : Rat) ^ (e - 1) = (2 : Rat) ^ (1 + (e - 1)) := mulz 1 (e - 1)
      rw [this]
      congr 1
      omega
    · refine ⟨(e + 150).toNat * 2 ^ 23 + (n - 2 ^ 23), by omega, ?_⟩
      rw [value32_eq _ _ (by omega), if_neg (by omega), show 2 ^ 23 + (n - 2 ^ 23) = n by omega]
      congr 2
      omega

theorem isBinary32_value (v : Nat) (h : v < 255 * 2 ^ 23) : IsBinary32 (value32 v) := by
  obtain ⟨E, M, rfl, hM⟩ := split32 v
  rw [value32_eq E M hM]
  split
  · exact ⟨M, -149, by omega, by omega, by omega, rfl⟩
  · exact ⟨2 ^ 23 + M, (E : Int) - 150, by omega, by omega, by omega, rfl⟩

/-! ## Encoding -/

theorem natCast_le_iff (a b : Nat) : (a : Rat) ≤ (b : Rat) ↔ a ≤ b := by
  constructor
  · intro h; exact_mod_cast h
  · intro h; exact_mod_cast h

theorem natCast_lt_iff (a b : Nat) : (a : Rat) < (b : Rat) ↔ a < b := by
  constructor
  · intro h; exact_mod_cast h
  · intro h; exact_mod_cast h

theorem value32_le_iff (u v : Nat) : value32 u ≤ value32 v ↔ u ≤ v := by
  constructor
  · intro h
    apply Classical.byContradiction
    intro hn
    have := value32_lt v u (by omega)
    grind
  · intro h
    by_cases hv : u = v
    · subst hv; exact Rat.le_refl
    · exact Rat.le_of_lt (value32_lt u v (by omega))

theorem mul_z_le (a b : Rat) (k : Int) : a * (2 : Rat) ^ k ≤ b * (2 : Rat) ^ k ↔ a ≤ b :=
  ⟨fun h => Rat.le_of_mul_le_mul_right h (zpos k), fun h => Rat.mul_le_mul_of_nonneg_right h (Rat.le_of_lt (zpos k))⟩

/-- The values of binary32 patterns below the normal range. -/
theorem value32_small (u : Nat) (h : u ≤ 2 ^ 23) : value32 u = (u : Rat) * (2 : Rat) ^ (-149 : Int) := by
  have := value32_add 0 u (by omega)
  rw [Nat.zero_add] at this
  rw [this]
  have h0 : value32 0 = 0 := by decide +kernel
  rw [h0, Rat.zero_add]
  rfl

theorem trunc_split (E M : Nat) : (E * 2 ^ 23 + M) / 4096 * 4096 = E * 2 ^ 23 + M / 4096 * 4096 := by omega

/-- What is left after truncation, scaling and rounding. -/
theorem scaled_threshold (v : Nat) (hv : v < 255 * 2 ^ 23) :
    round32 (value32 (v / 4096 * 4096) * (2 : Rat) ^ (-112 : Int)) < 255 * 2 ^ 23 - 4096 ∧
    ∀ j, 4096 * j ≤ round32 (value32 (v / 4096 * 4096) * (2 : Rat) ^ (-112 : Int)) ↔ value32 (4096 * j) ≤ value32 v * (2 : Rat) ^ (-112 : Int) := by
  by_cases hE : 113 * 2 ^ 23 ≤ v
  · have key : ∀ x, 113 * 2 ^ 23 ≤ x → value32 x * (2 : Rat) ^ (-112 : Int) = value32 (x - 112 * 2 ^ 23) := by
      intro x hx
      obtain ⟨E, M, rfl, hM⟩ := split32 x
      rw [value32_shift E M hM (-112) (by omega) (by omega)]
      refine congrArg value32 ?_
      have : ((E : Int) + -112).toNat = E - 112 := by omega
      rw [this, Nat.sub_mul]
      have : 112 * 2 ^ 23 ≤ E * 2 ^ 23 := Nat.mul_le_mul_right _ (by omega)
      omega
    rw [key v hE, key _ (by omega), round32_value32]
    refine ⟨by omega, fun j => ?_⟩
    rw [value32_le_iff]
    omega
  · obtain ⟨E, M, rfl, hM⟩ := split32 v
    have hE' : E ≤ 112 := by omega
    generalize hv' : E * 2 ^ 23 + M = v at *
    have hw : v / 4096 * 4096 ≤ v := by omega
    -- both numbers times 2^149
    have hsmall : ∀ x, x < 113 * 2 ^ 23 → value32 x * (2 : Rat) ^ (-112 : Int) < (2 : Rat) ^ (-126 : Int) := by
      intro x hx
      have h1 := value32_lt x (113 * 2 ^ 23) hx
      have h2 : value32 (113 * 2 ^ 23) * (2 : Rat) ^ (-112 : Int) = (2 : Rat) ^ (-126 : Int) := by decide +kernel
      rw [← h2]
      exact Rat.mul_lt_mul_of_pos_right h1 (zpos _)
    have hr : round32 (value32 (v / 4096 * 4096) * (2 : Rat) ^ (-112 : Int)) =
        (roundHalfEven (value32 (v / 4096 * 4096) * (2 : Rat) ^ (37 : Int))).toNat := by
      rw [round32_sub _ (Rat.mul_nonneg (value32_nonneg _) (Rat.le_of_lt (zpos _))) (hsmall _ (by omega)), Rat.mul_assoc, mulz]
      rfl
    rw [hr]
    have hthr : ∀ j, value32 (4096 * j) ≤ value32 v * (2 : Rat) ^ (-112 : Int) ↔ 4096 * j < 2 ^ 23 ∧ ((4096 * j : Nat) : Rat) ≤ value32 v * (2 : Rat) ^ (37 : Int) := by
      intro j
      by_cases hj : 4096 * j < 2 ^ 23
      · rw [value32_small _ (by omega), ← mul_z_le _ _ 149, Rat.mul_assoc, mulz, Rat.mul_assoc, mulz, show (-149 : Int) + 149 = 0 by omega,
          Rat.zpow_zero, Rat.mul_one, show (-112 : Int) + 149 = 37 by omega]
        simp [hj]
      · constructor
        · intro h
          have h1 := hsmall v (by omega)
          have h2 : value32 (2 ^ 23) = (2 : Rat) ^ (-126 : Int) := by decide +kernel
          have h3 := (value32_le_iff (2 ^ 23) (4096 * j)).2 (by omega)
          rw [h2] at h3
          grind
        · intro h; omega
    by_cases hlow : E ≤ 100
    · have hb : ∀ x, x < 101 * 2 ^ 23 → value32 x * (2 : Rat) ^ (37 : Int) < 2048 := by
        intro x hx
        have h1 := value32_lt x (101 * 2 ^ 23) hx
        have h2 : value32 (101 * 2 ^ 23) * (2 : Rat) ^ (37 : Int) = 2048 := by decide +kernel
        rw [← h2]
        exact Rat.mul_lt_mul_of_pos_right h1 (zpos _)
      have hre : roundHalfEven (value32 (v / 4096 * 4096) * (2 : Rat) ^ (37 : Int)) ≤ 2048 := by
        have h1 := (roundHalfEven_le (value32 (v / 4096 * 4096) * (2 : Rat) ^ (37 : Int))).1
        have h2 := hb (v / 4096 * 4096) (by omega)
        have h3 : ((roundHalfEven (value32 (v / 4096 * 4096) * (2 : Rat) ^ (37 : Int)) : Int) : Rat) < ((2049 : Int) : Rat) := by
          have : ((2049 : Int) : Rat) = 2049 := rfl
          rw [this]
          grind
        have := Rat.intCast_lt_intCast.1 h3
        omega
      refine ⟨by omega, fun j => ?_⟩
      rw [hthr j]
      constructor
      · intro h
        have : j = 0 := by omega
        subst this
        refine ⟨by omega, ?_⟩
        have : ((4096 * 0 : Nat) : Rat) = 0 := rfl
        rw [this]
        exact Rat.mul_nonneg (value32_nonneg _) (Rat.le_of_lt (zpos _))
      · intro ⟨_, h⟩
        have h1 := hb v (by omega)
        have h2 : ((4096 * j : Nat) : Rat) < ((2048 : Nat) : Rat) := lelt h h1
        rw [natCast_lt_iff] at h2
        omega
    · -- an integer
      have hval : ∀ M', M' < 2 ^ 23 → value32 (E * 2 ^ 23 + M') * (2 : Rat) ^ (37 : Int) * 4096 = ((2 ^ 23 + M' : Nat) : Rat) * ((2 ^ (E - 101) : Nat) : Rat) := by
        intro M' hM'
        rw [value32_eq E M' hM', if_neg (by omega), Rat.mul_assoc, Rat.mul_assoc, Rat.natCast_pow]
        congr 1
        have h1 : (4096 : Rat) = (2 : Rat) ^ (12 : Int) := by decide +kernel
        have h2 : ((2 : Nat) : Rat) ^ (E - 101) = (2 : Rat) ^ ((E - 101 : Nat) : Int) := (Rat.zpow_natCast _ _).symm
        rw [h1, h2, mulz, mulz]
        congr 1
        omega
      have hw' : v / 4096 * 4096 = E * 2 ^ 23 + M / 4096 * 4096 := by rw [← hv']; exact trunc_split E M
      have hint : value32 (v / 4096 * 4096) * (2 : Rat) ^ (37 : Int) = (((2048 + M / 4096) * 2 ^ (E - 101) : Nat) : Rat) := by
        have := hval (M / 4096 * 4096) (by omega)
        rw [← hw', ← Rat.natCast_mul, show (2 ^ 23 + M / 4096 * 4096) * 2 ^ (E - 101) = (2048 + M / 4096) * 2 ^ (E - 101) * 4096 by
            rw [show 2 ^ 23 + M / 4096 * 4096 = (2048 + M / 4096) * 4096 by omega, Nat.mul_right_comm],
          Rat.natCast_mul _ 4096] at this
        have h4 : ((4096 : Nat) : Rat) = 4096 := rfl
        rw [h4] at this
        grind
      obtain ⟨d, hd⟩ : ∃ d, E = 101 + d := ⟨E - 101, by omega⟩
      subst hd
      rw [show 101 + d - 101 = d by omega] at hval hint
      have hd11 : d ≤ 11 := by omega
      rw [hint, ← Rat.intCast_natCast, roundHalfEven_int, Int.toNat_natCast]
      have hdiv : 2 ^ d * 2 ^ (11 - d) = 2 ^ 11 := by rw [← Nat.pow_add]; congr 1; omega
      have hle : 2 ^ d ≤ 2 ^ 11 := Nat.pow_le_pow_right (by omega) hd11
      have hpos : 0 < 2 ^ d := Nat.pow_pos (by omega)
      have hub : (2048 + M / 4096) * 2 ^ d ≤ 4095 * 2 ^ 11 := Nat.mul_le_mul (by omega) hle
      refine ⟨by omega, fun j => ?_⟩
      rw [hthr j]
      have e1 : ((4096 * j : Nat) : Rat) ≤ value32 v * (2 : Rat) ^ (37 : Int) ↔ 4096 * j * 4096 ≤ (2 ^ 23 + M) * 2 ^ d := by
        have h1 := hval M hM
        rw [hv', ← Rat.natCast_mul] at h1
        rw [← natCast_le_iff (4096 * j * 4096), ← h1, Rat.natCast_mul (4096 * j) 4096]
        have h4 : ((4096 : Nat) : Rat) = 4096 := rfl
        rw [h4]
        constructor
        · intro h; grind
        · intro h; grind
      rw [e1]
      generalize hg : 2 ^ (11 - d) = g at hdiv
      generalize 2 ^ d = s at *
      -- multiples of s
      have e2 : 4096 * j = (2 * g * j) * s := by
        have : 4096 * j = 2 * (s * g) * j := by rw [hdiv]
        rw [this]; grind
      have e3 : 4096 * j * 4096 = (4096 * (2 * g * j)) * s := by rw [e2]; grind
      rw [e3]
      constructor
      · intro h
        refine ⟨by omega, ?_⟩
        rw [e2] at h
        have := Nat.le_of_mul_le_mul_right h hpos
        exact Nat.mul_le_mul_right s (by omega)
      · intro ⟨_, h⟩
        have := Nat.le_of_mul_le_mul_right h hpos
        rw [e2]
        exact Nat.mul_le_mul_right s (by omega)

/-- Encoding a binary32 number. -/
theorem fromFloat_core (v : Nat) (hv : v < 255 * 2 ^ 23) (neg : Bool) : ∃ N,
    fromFloat (.fin neg (value32 v)) = .ok (min ((N + 4096) / 8192) 31744 + (if neg then 32768 else 0)) ∧
    ∀ j, 4096 * j ≤ N ↔ value32 (4096 * j) ≤ value32 v * (2 : Rat) ^ (-112 : Int) := by
  obtain ⟨hlt, hthr⟩ := scaled_threshold v hv
  generalize hN : round32 (value32 (v / 4096 * 4096) * (2 : Rat) ^ (-112 : Int)) = N at hlt hthr
  refine ⟨N, ?_, hthr⟩
  have hs : (v + signBit neg) &&& 0x80000000 = signBit neg := by
    rw [← or_sign v (by omega)]
    have := and_two_pow (v ||| signBit neg) 31
    rw [Nat.testBit_or, Nat.testBit_lt_two_pow (by omega : v < 2 ^ 31), Bool.false_or] at this
    rw [show (0x80000000 : Nat) = 2 ^ 31 by decide, this]
    cases neg <;> decide
  have hx : (v + signBit neg) ^^^ signBit neg = v := by
    rw [← or_sign v (by omega)]
    cases neg with
    | false => simp [signBit]
    | true =>
      apply Nat.eq_of_testBit_eq
      intro k
      rw [Nat.testBit_xor, Nat.testBit_or, show signBit true = 2 ^ 31 from rfl, Nat.testBit_two_pow]
      by_cases hk : 31 = k
      · subst hk
        rw [Nat.testBit_lt_two_pow (by omega : v < 2 ^ 31)]
        rfl
      · simp [hk]
  have hshift : v >>> 12 <<< 12 = v / 4096 * 4096 := by
    rw [Nat.shiftRight_eq_div_pow, Nat.shiftLeft_eq]
  have hpk : pack32 (scale (-112) (.fin false (value32 (v / 4096 * 4096)))) = .ok N := by
    unfold scale pack32
    simp only
    rw [hN, if_pos (by simp; omega)]
    simp [signBit]
  unfold fromFloat
  rw [pack_value v hv]
  simp only [bind, Except.bind, hs, hx, hshift]
  rw [if_neg (by simp; omega), unpack_fin _ (by omega), hpk]
  simp only
  have hsg : (signBit neg >>> 16) &&& 0xFFFF = if neg then 32768 else 0 := by cases neg <;> decide
  have hout : ((if N + 0x1000 > 31 <<< 23 then 31 <<< 23 else N + 0x1000) >>> 13) &&& 0xFFFF = min ((N + 4096) / 8192) 31744 := by
    have hm : ∀ x, x &&& 0xFFFF = x % 2 ^ 16 := fun x => Nat.and_two_pow_sub_one_eq_mod x 16
    rw [hm, Nat.shiftRight_eq_div_pow]
    simp only [Nat.shiftLeft_eq]
    split <;> omega
  rw [hout, hsg]
  congr 1
  cases neg with
  | false => simp
  | true =>
    have h1 : min ((N + 4096) / 8192) 31744 < 2 ^ 15 := by omega
    have := Nat.two_pow_add_eq_or_of_lt h1 1
    rw [Nat.or_comm]
    simp only [if_true]
    rw [Nat.add_comm _ 32768]
    exact this.symm

end Float16
end Dronecan
