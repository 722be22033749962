import Verif.Proofs.Prim

/-!
# C03, C04: reading back assigned integers

`assignRead p x` is `obj.f = x; obj.f` for a field of primitive type `p`.
The specification is ordinary arithmetic: `max`/`min` for saturation, `%` for unsigned wrap-around and
Lean's balanced remainder `Int.bmod` (the representative in `[-2^(n-1), 2^(n-1))`) for two's complement.
-/

namespace Dronecan

/-- C03, saturated: the value read back is the assigned integer clamped to `[0, 2^n - 1]`. -/
theorem C03_unsigned_saturated (n : Nat) (hn : 1 ≤ n) (x : Int) :
    assignRead ⟨.unsigned, n, false⟩ x = .ok (some (max 0 (min x (2 ^ n - 1)))) := by
  have hp := two_pow_pos_int n
  apply assignRead_unsigned n false x _ hn _ (by omega)
  exact castInt_saturated _ _ _ _ _ rfl (by omega)

example : assignRead ⟨.unsigned, 12, false⟩ 70000 = .ok (some 4095) := by
  rw [C03_unsigned_saturated 12 (by decide)]; decide

/-- C03, truncated: the value read back is the assigned integer modulo `2^n`. -/
theorem C03_unsigned_truncated (n : Nat) (hn : 1 ≤ n) (x : Int) :
    assignRead ⟨.unsigned, n, true⟩ x = .ok (some (x % 2 ^ n)) := by
  have hp := two_pow_pos_int n
  apply assignRead_unsigned n true x _ hn _ (Int.emod_nonneg _ (by omega))
  simp [castInt]

example : assignRead ⟨.unsigned, 12, true⟩ (-1) = .ok (some 4095) := by
  rw [C03_unsigned_truncated 12 (by decide)]; decide

/-- C03, boolean: reads back 1 iff a non-zero value was assigned, whatever the cast mode. -/
theorem C03_boolean (tr : Bool) (x : Int) :
    assignRead ⟨.boolean, 1, tr⟩ x = .ok (some (if x = 0 then 0 else 1)) := by
  by_cases h : x = 0 <;> simp [assignRead, setInt, getInt, h, natOfBits]

/-- C04, truncated: the value read back is the two's-complement wrap of the assigned integer. -/
theorem C04_signed_truncated (n : Nat) (hn : 1 ≤ n) (x : Int) :
    assignRead ⟨.signed, n, true⟩ x = .ok (some (Int.bmod x (2 ^ n))) := by
  have hp := two_pow_pos_int n
  have hc : castInt x ⟨.signed, n, true⟩ = x % 2 ^ n := by simp [castInt]
  have h0 := Int.emod_nonneg x (b := 2 ^ n) (by omega)
  have h1 := Int.emod_lt_of_pos x hp
  rw [assignRead_signed n true x _ hn hc (by omega) h1]
  congr 2
  rw [← cast_two_pow, Int.emod_bmod]

example : assignRead ⟨.signed, 8, true⟩ 200 = .ok (some (-56)) := by
  rw [C04_signed_truncated 8 (by decide)]; decide

/-- C04, saturated, for widths up to 53: the value read back is the assigned integer clamped to
`[-2^(n-1), 2^(n-1) - 1]`. Missing for the full property: widths 54 to 64, where the claim is false
(`C04_signed_saturated_counterexample`). -/
theorem C04_signed_saturated_partial (n : Nat) (hn : 1 ≤ n) (h53 : n ≤ 53) (x : Int) :
    assignRead ⟨.signed, n, false⟩ x = .ok (some (max (-2 ^ (n - 1)) (min x (2 ^ (n - 1) - 1)))) := by
  have hp := two_pow_pred n hn
  have hpp := two_pow_pos_int (n - 1)
  have hc : castInt x ⟨.signed, n, false⟩ = max (-2 ^ (n - 1)) (min x (2 ^ (n - 1) - 1)) := by
    exact castInt_saturated _ _ _ _ _ (signedRange_small n hn h53) (by omega)
  rw [assignRead_signed n false x _ hn hc (by omega) (by omega), bmod_eq_self n _ hn (by omega) (by omega)]

example : assignRead ⟨.signed, 16, false⟩ (-40000) = .ok (some (-32768)) := by
  rw [C04_signed_saturated_partial 16 (by decide) (by decide)]; decide

/-- C04 fails for saturated signed widths 54..64: any value above the range reads back as the most negative
number, any value below the range reads back as the most positive one. -/
theorem C04_signed_saturated_counterexample (n : Nat) (h54 : 54 ≤ n) (h64 : n ≤ 64) (x : Int) :
    (2 ^ (n - 1) ≤ x → assignRead ⟨.signed, n, false⟩ x = .ok (some (-2 ^ (n - 1)))) ∧
    (x < -2 ^ (n - 1) → assignRead ⟨.signed, n, false⟩ x = .ok (some (2 ^ (n - 1) - 1))) := by
  have hn : 1 ≤ n := by omega
  have hp := two_pow_pred n hn
  have hpp := two_pow_pos_int (n - 1)
  constructor
  · intro hx
    have hc : castInt x ⟨.signed, n, false⟩ = 2 ^ (n - 1) := by
      rw [castInt_saturated .signed n x _ _ (signedRange_large n h54 h64) (by omega)]; omega
    rw [assignRead_signed n false x _ hn hc (by omega) (by omega)]
    congr 2
    have e : -(2 : Int) ^ (n - 1) + 2 ^ n = 2 ^ (n - 1) := by omega
    have b := bmod_eq_self n (-2 ^ (n - 1)) hn (by omega) (by omega)
    rwa [← Int.add_bmod_right, cast_two_pow, e] at b
  · intro hx
    have hc : castInt x ⟨.signed, n, false⟩ = -2 ^ (n - 1) - 1 := by
      rw [castInt_saturated .signed n x _ _ (signedRange_large n h54 h64) (by omega)]; omega
    rw [assignRead_signed n false x _ hn hc (by omega) (by omega)]
    congr 2
    rw [← Int.add_bmod_right, cast_two_pow]
    have : -(2 : Int) ^ (n - 1) - 1 + 2 ^ n = 2 ^ (n - 1) - 1 := by omega
    rw [this, bmod_eq_self n _ hn (by omega) (by omega)]

/-- C04, saturated, widths 54..64: values inside the range do read back unchanged. Together with the
previous theorem this describes the behaviour for every assigned integer. -/
theorem C04_signed_saturated_wide_partial (n : Nat) (h54 : 54 ≤ n) (h64 : n ≤ 64) (x : Int)
    (h0 : -2 ^ (n - 1) ≤ x) (h1 : x < 2 ^ (n - 1)) :
    assignRead ⟨.signed, n, false⟩ x = .ok (some x) := by
  have hn : 1 ≤ n := by omega
  have hp := two_pow_pred n hn
  have hpp := two_pow_pos_int (n - 1)
  have hc : castInt x ⟨.signed, n, false⟩ = x := by
    rw [castInt_saturated .signed n x _ _ (signedRange_large n h54 h64) (by omega)]; omega
  rw [assignRead_signed n false x _ hn hc (by omega) (by omega), bmod_eq_self n _ hn h0 h1]

example : assignRead ⟨.signed, 64, false⟩ (2 ^ 63) = .ok (some (-2 ^ 63)) :=
  (C04_signed_saturated_counterexample 64 (by decide) (by decide) (2 ^ 63)).1 (by decide)

end Dronecan
