import Verif.Proofs.Float16

/-!
# C59: half-precision floats
-/

namespace Dronecan
namespace Float16

/-- The number of a half-precision pattern without sign: 5 bits of exponent, 10 bits of significand, IEEE 754 binary16. -/
def halfMag (a : Nat) : Rat :=
  if a / 1024 = 0 then ((a % 1024 : Nat) : Rat) * (2 : Rat) ^ (-24 : Int)
  else ((1024 + a % 1024 : Nat) : Rat) * (2 : Rat) ^ (((a / 1024 : Nat) : Int) - 25)

/-- What a half-precision pattern stands for. -/
def half (h : Nat) : PyFloat :=
  let neg : Bool := decide (32768 ≤ h)
  let a := h % 32768
  if a < 31744 then .fin neg (halfMag a) else if a = 31744 then .inf neg else .nan neg

theorem halfMag_eq (a : Nat) : halfMag a = value32 (8192 * a) * (2 : Rat) ^ (112 : Int) := by
  have h : 8192 * a = a / 1024 * 2 ^ 23 + a % 1024 * 8192 := by omega
  rw [h, value32_eq _ _ (by omega)]
  unfold halfMag
  have h13 : ((8192 : Nat) : Rat) = (2 : Rat) ^ (13 : Int) := by decide +kernel
  split
  · rw [Rat.mul_assoc, mulz, Rat.natCast_mul, h13, Rat.mul_assoc, mulz]
    rfl
  · rw [Rat.mul_assoc, mulz, show 2 ^ 23 + a % 1024 * 8192 = (1024 + a % 1024) * 8192 by omega, Rat.natCast_mul _ 8192, h13, Rat.mul_assoc, mulz]
    congr 2
    omega

theorem halfMag_lt (a b : Nat) (h : a < b) : halfMag a < halfMag b := by
  rw [halfMag_eq, halfMag_eq]
  exact Rat.mul_lt_mul_of_pos_right (value32_lt _ _ (by omega)) (zpos _)

theorem halfMag_nonneg (a : Nat) : 0 ≤ halfMag a := by
  rw [halfMag_eq]
  exact Rat.mul_nonneg (value32_nonneg _) (Rat.le_of_lt (zpos _))

theorem halfMag_binary32 (a : Nat) (ha : a < 32768) : IsBinary32 (halfMag a) := by
  unfold halfMag
  split
  · exact ⟨a % 1024, -24, by omega, by omega, by omega, rfl⟩
  · exact ⟨1024 + a % 1024, ((a / 1024 : Nat) : Int) - 25, by omega, by omega, by omega, rfl⟩

theorem sign16 (h : Nat) (hh : h < 2 ^ 16) : (h &&& 0x8000) <<< 16 = signBit (decide (32768 ≤ h)) := by
  have h1 : h &&& 2 ^ 15 = _ := and_two_pow h 15
  have h2 : h.testBit 15 = decide (32768 ≤ h) := by
    rw [Nat.testBit_eq_decide_div_mod_eq]
    congr 1
    apply propext
    omega
  rw [show (0x8000 : Nat) = 2 ^ 15 from rfl, h1, h2]
  by_cases h3 : 32768 ≤ h
  · simp [h3, signBit]
  · simp [h3, signBit]

theorem or_exponent (x : Nat) (hx : x < 2 ^ 23) : (143 * 2 ^ 23 + x) ||| (255 <<< 23) = 255 * 2 ^ 23 + x := by
  have h1 := Nat.two_pow_add_eq_or_of_lt hx 143
  have h2 := Nat.two_pow_add_eq_or_of_lt hx 255
  rw [Nat.mul_comm 143, h1, Nat.mul_comm 255, h2, Nat.or_assoc, Nat.or_comm x, ← Nat.or_assoc]
  congr 1

/-- Decoding gives the number, infinity or NaN that the pattern stands for. -/
theorem C59_decode (h : Nat) (hh : h < 2 ^ 16) : toFloat h = .ok (half h) := by
  have ha : h % 32768 < 32768 := Nat.mod_lt _ (by omega)
  have hm : h &&& 0x7FFF = h % 32768 := Nat.and_two_pow_sub_one_eq_mod h 15
  have hmag := halfMag_eq (h % 32768)
  obtain ⟨v, hv, hval⟩ := isBinary32_pattern _ (halfMag_binary32 _ ha)
  unfold toFloat
  simp only [hm, sign16 h hh]
  have hsl : (h % 32768) <<< 13 = 8192 * (h % 32768) := by rw [Nat.shiftLeft_eq]; omega
  rw [hsl, unpack_fin _ (by omega)]
  simp only [scale]
  rw [← hmag, hval, pack_value v hv]
  simp only [bind, Except.bind]
  have hz : v + signBit false = v := rfl
  rw [hz, unpack_fin v hv]
  simp only [geInfNan, Bool.not_false, Bool.true_and]
  have h65536 : halfMag 31744 = 65536 := by decide +kernel
  unfold half
  simp only
  by_cases hfin : h % 32768 < 31744
  · have hlt := halfMag_lt _ _ hfin
    rw [h65536, hval] at hlt
    have : ¬ (65536 : Rat) ≤ value32 v := by grind
    simp only [this, decide_false, if_pos hfin, Bool.false_eq_true, if_false]
    rw [unpack_sign v (by omega), if_pos (by simpa using hv), hval]
  · have hge : (65536 : Rat) ≤ value32 v := by
      rw [← hval]
      by_cases he : h % 32768 = 31744
      · rw [he, h65536]; exact Rat.le_refl
      · have := halfMag_lt 31744 (h % 32768) (by omega)
        rw [h65536] at this
        exact Rat.le_of_lt this
    have hv2 : v = 143 * 2 ^ 23 + (h % 32768 - 31744) * 8192 := by
      have e : value32 v = value32 (143 * 2 ^ 23 + (h % 32768 - 31744) * 8192) := by
        have h3 := value32_shift 31 ((h % 32768 - 31744) * 8192) (by omega) 112 (by omega) (by omega)
        rw [show 31 * 2 ^ 23 + (h % 32768 - 31744) * 8192 = 8192 * (h % 32768) by omega, ← hmag, hval] at h3
        exact h3
      have := congrArg round32 e
      rwa [round32_value32, round32_value32] at this
    simp only [hge, decide_true, if_true, if_neg hfin]
    rw [hv2, or_exponent _ (by omega), unpack_sign _ (by omega), if_neg (by simp)]
    by_cases he : h % 32768 = 31744
    · rw [if_pos (by simp [he]), if_pos he]
    · rw [if_neg (by simp; omega), if_neg he]

/-- A subnormal number, a normal number, minus infinity, a NaN. -/
example : toFloat 0x0003 = .ok (.fin false (3 * 2 ^ (-24 : Int))) ∧ toFloat 0xC500 = .ok (.fin true 5) ∧
    toFloat 0xFC00 = .ok (.inf true) ∧ toFloat 0x7C01 = .ok (.nan false) := by decide +kernel

/-- The number is between the middles of the intervals beside the result. -/
theorem fromFloat_between (q : Rat) (hq : IsBinary32 q) (neg : Bool) : ∃ a, a ≤ 31744 ∧
    fromFloat (.fin neg q) = .ok (a + (if neg then 32768 else 0)) ∧
    (∀ b, b < a → halfMag b + halfMag (b + 1) ≤ 2 * q) ∧
    (a < 31744 → 2 * q < halfMag a + halfMag (a + 1)) := by
  obtain ⟨v, hv, rfl⟩ := isBinary32_pattern q hq
  obtain ⟨N, hN, hthr⟩ := fromFloat_core v hv neg
  have mid : ∀ a, halfMag a + halfMag (a + 1) = 2 * (value32 (4096 * (2 * a + 1)) * (2 : Rat) ^ (112 : Int)) := by
    intro a
    rw [halfMag_eq, halfMag_eq, show 8192 * (a + 1) = 8192 * a + 8192 by omega, value32_add (8192 * a) 8192 (by omega),
      show 4096 * (2 * a + 1) = 8192 * a + 4096 by omega, value32_add (8192 * a) 4096 (by omega)]
    have h1 : ((8192 : Nat) : Rat) = 2 * ((4096 : Nat) : Rat) := by decide +kernel
    rw [h1]
    grind
  have unscale : ∀ x : Rat, x * (2 : Rat) ^ (-112 : Int) * (2 : Rat) ^ (112 : Int) = x := by
    intro x
    rw [Rat.mul_assoc, mulz, show (-112 : Int) + 112 = 0 by omega, Rat.zpow_zero, Rat.mul_one]
  have cmp : ∀ j, 4096 * j ≤ N ↔ value32 (4096 * j) * (2 : Rat) ^ (112 : Int) ≤ value32 v := by
    intro j
    rw [hthr j, ← mul_z_le _ _ 112, unscale]
  refine ⟨_, Nat.min_le_right _ _, hN, ?_, ?_⟩
  · intro b hb
    rw [mid]
    have := (cmp (2 * b + 1)).1 (by omega)
    grind
  · intro ha
    rw [mid]
    have : ¬ 4096 * (2 * min ((N + 4096) / 8192) 31744 + 1) ≤ N := by omega
    rw [cmp] at this
    grind

theorem halfMag_mono (a b : Nat) (h : a ≤ b) : halfMag a ≤ halfMag b := by
  by_cases e : a = b
  · subst e; exact Rat.le_refl
  · exact Rat.le_of_lt (halfMag_lt a b (by omega))

theorem half_sub (x y : Rat) (h : x ≤ y) : (y - x).abs = y - x ∧ (x - y).abs = y - x := by
  have h1 : 0 ≤ y - x := by grind
  have e := Rat.abs_of_nonneg h1
  refine ⟨e, ?_⟩
  rw [← Rat.abs_neg, show -(x - y) = y - x by grind, e]

/-- Encoding a binary32 number in range gives a nearest finite half with the same sign; of two nearest ones that with the larger magnitude. -/
theorem C59_nearest (q : Rat) (hq : IsBinary32 q) (h1 : q < 65520) (neg : Bool) : ∃ a, a < 31744 ∧
    fromFloat (.fin neg q) = .ok (a + (if neg then 32768 else 0)) ∧
    (∀ b, b < 31744 → (q - halfMag a).abs ≤ (q - halfMag b).abs) ∧
    (∀ b, b < 31744 → (q - halfMag b).abs = (q - halfMag a).abs → b ≤ a) := by
  obtain ⟨a, ha, hr, hlo, hhi⟩ := fromFloat_between q hq neg
  have hfin : a < 31744 := by
    apply Classical.byContradiction
    intro hn
    have := hlo 31743 (by omega)
    have e : halfMag 31743 + halfMag (31743 + 1) = 2 * 65520 := by decide +kernel
    rw [e] at this
    grind
  have hhi := hhi hfin
  have habove : ∀ b, a < b → (q - halfMag a).abs < (q - halfMag b).abs := by
    intro b hb
    have h2 := halfMag_mono (a + 1) b hb
    have h3 := halfMag_lt a (a + 1) (by omega)
    have h4 : q ≤ halfMag b := by grind
    rw [(half_sub _ _ h4).2]
    by_cases h5 : halfMag a ≤ q
    · rw [(half_sub _ _ h5).1]; grind
    · rw [(half_sub q (halfMag a) (by grind)).2]; grind
  have hbelow : ∀ b, b < a → (q - halfMag a).abs ≤ (q - halfMag b).abs := by
    intro b hb
    obtain ⟨c, rfl⟩ : ∃ c, a = c + 1 := ⟨a - 1, by omega⟩
    have h2 := halfMag_mono b c (by omega)
    have h3 := halfMag_lt c (c + 1) (by omega)
    have h4 := hlo c (by omega)
    have h6 : halfMag b ≤ q := by grind
    rw [(half_sub _ _ h6).1]
    by_cases h5 : halfMag (c + 1) ≤ q
    · rw [(half_sub _ _ h5).1]; grind
    · rw [(half_sub q (halfMag (c + 1)) (by grind)).2]; grind
  refine ⟨a, hfin, hr, ?_, ?_⟩
  · intro b _
    by_cases e : b = a
    · subst e; exact Rat.le_refl
    · by_cases hb : a < b
      · exact Rat.le_of_lt (habove b hb)
      · exact hbelow b (by omega)
  · intro b _ hb
    apply Classical.byContradiction
    intro hn
    have := habove b (by omega)
    grind

/-- Two numbers in range: a tie, and a subnormal result. -/
example : IsBinary32 (2049 / 2048) ∧ (2049 / 2048 : Rat) < 65520 ∧ fromFloat (.fin true (2049 / 2048)) = .ok 0xBC01 ∧
    IsBinary32 (5 * 2 ^ (-26 : Int)) ∧ fromFloat (.fin false (5 * 2 ^ (-26 : Int))) = .ok 1 :=
  ⟨⟨2049, -11, by decide, by decide, by decide, by decide +kernel⟩, by decide +kernel, by decide +kernel,
    ⟨5, -26, by decide, by decide, by decide, by decide +kernel⟩, by decide +kernel⟩

/-- Encoding a binary32 number from 65520 on gives infinity, as it does for infinity. -/
theorem C59_overflow (q : Rat) (hq : IsBinary32 q) (h1 : 65520 ≤ q) (neg : Bool) :
    fromFloat (.fin neg q) = .ok (31744 + (if neg then 32768 else 0)) ∧ fromFloat (.inf neg) = .ok (31744 + (if neg then 32768 else 0)) := by
  constructor
  · obtain ⟨a, ha, hr, hlo, hhi⟩ := fromFloat_between q hq neg
    have : a = 31744 := by
      apply Classical.byContradiction
      intro hn
      have h2 := hhi (by omega)
      have h3 := halfMag_mono a 31743 (by omega)
      have h4 := halfMag_mono (a + 1) 31744 (by omega)
      have e : halfMag 31743 + halfMag 31744 = 2 * 65520 := by decide +kernel
      grind
    rw [hr, this]
  · cases neg <;> decide +kernel

/-- The largest finite half is 65504; 65520 is the middle between it and 65536. -/
example : halfMag 31743 = 65504 ∧ IsBinary32 65520 ∧ IsBinary32 100000 ∧ fromFloat (.fin false 65519) = .ok 31743 :=
  ⟨by decide +kernel, ⟨65520, 0, by decide, by decide, by decide, by decide +kernel⟩, ⟨100000, 0, by decide, by decide, by decide, by decide +kernel⟩,
    by decide +kernel⟩

/-- Decoding any pattern that is not a NaN and encoding the result gives the pattern back. -/
theorem C59_roundtrip (h : Nat) (hh : h < 2 ^ 16) (hn : h % 32768 ≤ 31744) : (toFloat h >>= fromFloat) = .ok h := by
  rw [C59_decode h hh]
  simp only [bind, Except.bind, half]
  have hs : h = h % 32768 + (if decide (32768 ≤ h) = true then 32768 else 0) := by
    by_cases hc : 32768 ≤ h
    · simp only [hc, decide_true, if_true]; omega
    · simp only [hc, decide_false]; simp; omega
  by_cases hfin : h % 32768 < 31744
  · rw [if_pos hfin]
    obtain ⟨a, ha, hr, hlo, hhi⟩ := fromFloat_between (halfMag (h % 32768)) (halfMag_binary32 _ (by omega)) (decide (32768 ≤ h))
    have : a = h % 32768 := by
      apply Classical.byContradiction
      intro hne
      by_cases hlt : a < h % 32768
      · have h1 := hhi (by omega)
        have h2 := halfMag_lt _ _ hlt
        have h3 := halfMag_mono (a + 1) (h % 32768) (by omega)
        grind
      · have h1 := hlo (h % 32768) (by omega)
        have h2 := halfMag_lt (h % 32768) (h % 32768 + 1) (by omega)
        grind
    rw [hr, this, ← hs]
  · have he : h % 32768 = 31744 := by omega
    rw [if_neg hfin, if_pos he]
    rw [he] at hs
    have : ∀ b : Bool, fromFloat (.inf b) = .ok (31744 + (if b = true then 32768 else 0)) := by decide +kernel
    rw [this, ← hs]

example : (0x8001 : Nat) % 32768 ≤ 31744 ∧ (0xFC00 : Nat) % 32768 ≤ 31744 ∧ (toFloat 0x8001 >>= fromFloat) = .ok 0x8001 := by decide +kernel

/-- NaNs stay NaN and keep their sign; their payload does not survive. -/
theorem C59_nan (h : Nat) (hh : h < 2 ^ 16) (hn : 31744 < h % 32768) :
    (toFloat h >>= fromFloat) = .ok (32767 + (if 32768 ≤ h then 32768 else 0)) ∧
    (∀ r, (toFloat h >>= fromFloat) = .ok r → half r = .nan (decide (32768 ≤ h))) := by
  have e : (toFloat h >>= fromFloat) = .ok (32767 + (if 32768 ≤ h then 32768 else 0)) := by
    rw [C59_decode h hh]
    simp only [bind, Except.bind, half]
    rw [if_neg (by omega), if_neg (by omega)]
    have : ∀ b : Bool, fromFloat (.nan b) = .ok (32767 + (if b = true then 32768 else 0)) := by decide +kernel
    rw [this]
    simp
  refine ⟨e, ?_⟩
  intro r hr
  rw [e] at hr
  cases hr
  by_cases hc : 32768 ≤ h
  · simp only [hc, if_true, decide_true]; decide +kernel
  · simp only [hc, if_false, decide_false]; decide +kernel

example : (31744 : Nat) < 0x7C01 % 32768 ∧ (toFloat 0x7C01 >>= fromFloat) = .ok 0x7FFF := by decide +kernel

/-- Numbers that are not binary32 numbers are first rounded to the nearest one, ties to even; the result need not be a nearest half. -/
theorem C59_double_rounding : ∃ q : Rat, 0 ≤ q ∧ q < 65520 ∧ ∃ a b, fromFloat (.fin false q) = .ok a ∧ a < 31744 ∧ b < 31744 ∧
    (q - halfMag b).abs < (q - halfMag a).abs :=
  ⟨1 + (2 : Rat) ^ (-11 : Int) - (2 : Rat) ^ (-40 : Int), by decide +kernel, by decide +kernel, 15361, 15360, by decide +kernel, by decide, by decide,
    by decide +kernel⟩

/-- Numbers that are too large for binary32 are refused. -/
theorem C59_too_large (q : Rat) (h : (2 : Rat) ^ (128 : Int) ≤ q) (neg : Bool) : fromFloat (.fin neg q) = .error .overflowError := by
  have hr : ¬ round32 q < 255 <<< 23 := by
    have hq : 0 < q := ltle (zpos 128) h
    have hb : 127 < binExp q := by
      have := lt_of_zlt (lelt h (binExp_lt q hq))
      omega
    unfold round32
    rw [if_neg (Rat.ne_of_gt hq)]
    simp only [show max (binExp q) (-126) = binExp q by omega]
    have : 254 ≤ (binExp q + 126).toNat := by omega
    have := Nat.mul_le_mul_right (2 ^ 23) this
    have h23 : (2 ^ 23 : Int) ≤ roundHalfEven (q / (2 : Rat) ^ (binExp q - 23)) := by
      have h1 := binExp_le q hq
      have h2 : (2 : Rat) ^ (23 : Int) ≤ q / (2 : Rat) ^ (binExp q - 23) := by
        rw [div_z, ← mul_z_le _ _ (binExp q - 23), Rat.mul_assoc, mulz, mulz, show -(binExp q - 23) + (binExp q - 23) = 0 by omega, Rat.zpow_zero,
          Rat.mul_one, show (23 : Int) + (binExp q - 23) = binExp q by omega]
        exact h1
      have h3 := (roundHalfEven_le (q / (2 : Rat) ^ (binExp q - 23))).2
      have h4 : ((2 ^ 23 - 1 : Int) : Rat) < ((roundHalfEven (q / (2 : Rat) ^ (binExp q - 23)) : Int) : Rat) := by
        have e1 : ((2 ^ 23 - 1 : Int) : Rat) = 8388607 := by decide +kernel
        have e2 : (2 : Rat) ^ (23 : Int) = 8388608 := by decide +kernel
        rw [e1]
        grind
      have := Rat.intCast_lt_intCast.1 h4
      omega
    have h255 : (255 <<< 23 : Nat) = 254 * 2 ^ 23 + 2 ^ 23 := by decide
    rw [h255]
    omega
  unfold fromFloat
  simp only [pack32, if_neg hr, bind, Except.bind]

example : fromFloat (.fin true ((2 : Rat) ^ (200 : Int))) = .error .overflowError := by decide +kernel

end Float16
end Dronecan
