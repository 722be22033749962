import Verif.Model.Simulators
import Verif.Props.Actuators

/-!
# The examples that simulate devices (C166)
-/

namespace Dronecan
namespace Simulators
open Actuators (setNum toPy number abs_cases IsHalf fl_near)
open FloatField (Num Representable largest Rounded Nearest ExpectedHalf)
open Float16 (PyFloat)

/-! ## Specification -/

/-- What is read from an integer field of `w` bits, and from a float of half precision. -/
def ReadsInt (w : Nat) (b : Bits) (n : Int) : Prop := getInt ⟨.unsigned, w, false⟩ b = some n
def ReadsHalf (b : Bits) (x : PyFloat) : Prop := FloatField.get 16 b = .ok (some x)

/-- The nearest integer within the range of a `uint8`. -/
def clamp (n : Int) : Int := max 0 (min n 255)

/-- The argument of `--voltage`: a finite float has its sign apart. -/
def Float (x : PyFloat) : Prop := ∀ neg q, x = .fin neg q → 0 ≤ q

/-! ## Fields -/

theorem set_float (x : PyFloat) (hx : Float x) : ∃ b r, FloatField.set 16 false (.float x) = .ok b ∧ ReadsHalf b r ∧ ExpectedHalf false x r := by
  obtain ⟨r, h1, h2⟩ := FloatField.C111_half false x hx
  simp only [FloatField.assignRead] at h1
  cases hs : FloatField.set 16 false (.float x) with
  | error e => rw [hs] at h1; cases h1
  | ok bits => rw [hs] at h1; exact ⟨bits, r, rfl, h1, h2⟩

theorem float_toPy (w : Rat) : Float (toPy w) := by
  intro neg q h
  injection h with h3 h4
  subst h4
  have := abs_cases w
  grind

theorem set_id (n : Int) : ∃ b, setNum ⟨.unsigned, 8, false⟩ (.int n) = .ok b ∧ ReadsInt 8 b (clamp n) := by
  have h := C03_unsigned_saturated 8 (by decide) n
  simp only [assignRead] at h
  simp only [setNum]
  cases hs : setInt ⟨.unsigned, 8, false⟩ n with
  | error e => rw [hs] at h; cases h
  | ok b =>
    rw [hs] at h
    injection h with h
    exact ⟨b, rfl, h⟩

/-! ## The servo -/

/-- **C166** (servo): every call sends the states of actuators 3 and 5. Both tell the same position, which is between -1 and 1, force 1, speed 2 and a power of
17 %. -/
theorem C166_servo (s : Rat) (h1 : -1 ≤ s) (h2 : s ≤ 1) : ∃ a b x v, servo s = .ok [a, b] ∧ ReadsInt 8 a.id 3 ∧ ReadsInt 8 b.id 5 ∧
    ExpectedHalf false (toPy s) x ∧ number x = some v ∧ -1 ≤ v ∧ v ≤ 1 ∧
    ∀ m ∈ [a, b], ReadsHalf m.position x ∧ ReadsHalf m.force (.fin false 1) ∧ ReadsHalf m.speed (.fin false 2) ∧ ReadsInt 7 m.power 17 := by
  obtain ⟨p, x, e1, e2, e3⟩ := set_float (toPy s) (float_toPy s)
  have one : IsHalf 1 := ⟨1, 0, by decide, by decide, by decide, by decide +kernel⟩
  have mone : IsHalf (-1) := ⟨1, 0, by decide, by decide, by decide, by decide +kernel⟩
  obtain ⟨v, v1, v2, v3⟩ := Actuators.read_signed mone one (by grind) (by grind) e3
  refine ⟨⟨formatBin 8 3, p, formatBin 16 0x3c00, formatBin 16 0x4000, formatBin 7 17⟩, ⟨formatBin 8 5, p, formatBin 16 0x3c00, formatBin 16 0x4000, formatBin 7 17⟩,
    x, v, ?_, by dsimp only [ReadsInt]; decide +kernel, by dsimp only [ReadsInt]; decide +kernel, e3, v1, v2, v3, ?_⟩
  · simp only [servo, e1]
    have f1 : FloatField.set 16 false (.int 1) = .ok (formatBin 16 0x3c00) := by decide +kernel
    have f2 : FloatField.set 16 false (.int 2) = .ok (formatBin 16 0x4000) := by decide +kernel
    have f3 : setNum ⟨.unsigned, 7, false⟩ (.int 17) = .ok (formatBin 7 17) := by decide +kernel
    have f4 : setNum ⟨.unsigned, 8, false⟩ (.int 3) = .ok (formatBin 8 3) := by decide +kernel
    have f5 : setNum ⟨.unsigned, 8, false⟩ (.int 5) = .ok (formatBin 8 5) := by decide +kernel
    rw [f1, f2, f3, f4, f5]
    rfl
  · have g1 : ReadsHalf (formatBin 16 0x3c00) (.fin false 1) := by dsimp only [ReadsHalf]; decide +kernel
    have g2 : ReadsHalf (formatBin 16 0x4000) (.fin false 2) := by dsimp only [ReadsHalf]; decide +kernel
    have g3 : ReadsInt 7 (formatBin 7 17) 17 := by dsimp only [ReadsInt]; decide +kernel
    intro m hm
    simp only [List.mem_cons, List.not_mem_nil, or_false] at hm
    rcases hm with rfl | rfl <;> exact ⟨e2, g1, g2, g3⟩

example : servo (1 / 2) = .ok [⟨formatBin 8 3, formatBin 16 0x3800, formatBin 16 0x3c00, formatBin 16 0x4000, formatBin 7 17⟩,
    ⟨formatBin 8 5, formatBin 16 0x3800, formatBin 16 0x3c00, formatBin 16 0x4000, formatBin 7 17⟩] := by decide +kernel

/-! ## The range finder -/

/-- **C166** (range finder): every call sends a measurement of sensor 1, a lidar (2) whose reading is valid (1), with a field of view of 30 degrees, rounded to
0.5234375. The range read is between 0.5 and 4.5 and is 2.5 + 2 s, but for an error of 2^-50 before it is rounded to half precision. -/
theorem C166_range (s : Rat) (h1 : -1 ≤ s) (h2 : s ≤ 1) : ∃ m x w v, measure s = .ok m ∧ ReadsInt 8 m.id 1 ∧ ReadsInt 5 m.kind 2 ∧ ReadsInt 3 m.reading 1 ∧
    ReadsHalf m.view (.fin false (5234375 / 10000000)) ∧ ReadsHalf m.range x ∧ ExpectedHalf false (toPy w) x ∧
    (w - (5 / 2 + 2 * s)).abs ≤ 1 / 2 ^ 50 ∧ number x = some v ∧ 1 / 2 ≤ v ∧ v ≤ 9 / 2 := by
  obtain ⟨p, x, e1, e2, e3⟩ := set_float (toPy (range s)) (float_toPy _)
  have n1 := fl_near (q := 2 * s) (c := 2) (by grind) (by grind)
  have n2 := fl_near (q := 5 / 2 + fl (2 * s)) (c := 9 / 2 + 1 / 2) (by grind) (by grind)
  have hr : range s = fl (5 / 2 + fl (2 * s)) := rfl
  rw [← hr] at n2
  have lo : IsHalf (1 / 2) := ⟨1, -1, by decide, by decide, by decide, by decide +kernel⟩
  have hi : IsHalf (9 / 2) := ⟨9, -1, by decide, by decide, by decide, by decide +kernel⟩
  obtain ⟨v, v1, v2, v3⟩ := Actuators.read_signed lo hi (by grind) (by grind) e3
  have f1 : setNum ⟨.unsigned, 8, false⟩ (.int 1) = .ok (formatBin 8 1) := by decide +kernel
  have f2 : FloatField.set 16 false (.float (toPy view)) = .ok (formatBin 16 0x3830) := by decide +kernel
  have f3 : setNum ⟨.unsigned, 5, false⟩ (.int 2) = .ok (formatBin 5 2) := by decide +kernel
  have f4 : setNum ⟨.unsigned, 3, false⟩ (.int 1) = .ok (formatBin 3 1) := by decide +kernel
  refine ⟨⟨formatBin 8 1, formatBin 16 0x3830, formatBin 5 2, formatBin 3 1, p⟩, x, range s, v, ?_, by dsimp only [ReadsInt]; decide +kernel,
    by dsimp only [ReadsInt]; decide +kernel, by dsimp only [ReadsInt]; decide +kernel, by dsimp only [ReadsHalf]; decide +kernel, e2, e3, ?_, v1, v2, v3⟩
  · simp only [measure, e1, f1, f2, f3, f4]
    rfl
  · have e : (2 : Rat) ^ 50 = 1125899906842624 := by decide +kernel
    rw [e]
    have := abs_cases (range s - (5 / 2 + 2 * s))
    grind

example : measure 1 = .ok ⟨formatBin 8 1, formatBin 16 0x3830, formatBin 5 2, formatBin 3 1, formatBin 16 0x4480⟩ := by decide +kernel

/-! ## The battery -/

/-- **C166** (battery): every call sends the voltage given, rounded to half precision, with a current of 0.3 (rounded), a temperature of 290.25 K (for 17 degrees
Celsius), and no charge. Identifiers beyond 0 and 255 become these. -/
theorem C166_battery (a : Args) (h : Float a.voltage) : ∃ m x, battery a = .ok m ∧ ReadsInt 8 m.id (clamp a.batteryId) ∧ ReadsHalf m.voltage x ∧
    ExpectedHalf false a.voltage x ∧ ReadsHalf m.current (.fin false (1229 / 4096)) ∧ ReadsHalf m.temperature (.fin false (1161 / 4)) ∧
    ReadsInt 7 m.charge 0 ∧ ReadsHalf m.remaining (.fin false 0) ∧ ReadsHalf m.full (.fin false 0) := by
  obtain ⟨p, x, e1, e2, e3⟩ := set_float a.voltage h
  obtain ⟨i, i1, i2⟩ := set_id a.batteryId
  have f1 : FloatField.set 16 false (.float (toPy (fl (3 / 10)))) = .ok (formatBin 16 0x34cd) := by decide +kernel
  have f2 : FloatField.set 16 false (.float (toPy (fl (17 + fl (27315 / 100))))) = .ok (formatBin 16 0x5c89) := by decide +kernel
  have f3 : setNum ⟨.unsigned, 7, false⟩ (.int 0) = .ok (formatBin 7 0) := by decide +kernel
  have f4 : FloatField.set 16 false (.int 0) = .ok (formatBin 16 0) := by decide +kernel
  refine ⟨⟨i, p, formatBin 16 0x34cd, formatBin 16 0x5c89, formatBin 7 0, formatBin 16 0, formatBin 16 0⟩, x, ?_, i2, e2, e3,
    by dsimp only [ReadsHalf]; decide +kernel, by dsimp only [ReadsHalf]; decide +kernel, by dsimp only [ReadsInt]; decide +kernel, by dsimp only [ReadsHalf]; decide +kernel,
    by dsimp only [ReadsHalf]; decide +kernel⟩
  simp only [battery, e1, i1, f1, f2, f3, f4]
  rfl

theorem fill_eq (v : PyFloat) (n : Nat) (b : Bits) (hb : FloatField.set 16 false (.float (quotient v n)) = .ok b) (k m : Nat) (z : Bits) :
    fill v n k (List.replicate (k + m) z) = .ok (List.replicate k b ++ List.replicate m z) := by
  induction k generalizing m with
  | zero => simp [fill]
  | succ k ih =>
    have := ih (m + 1)
    rw [show k + (m + 1) = k + 1 + m by omega] at this
    simp only [fill, this, hb]
    show Except.ok _ = _
    congr 1
    rw [List.set_append_right _ _ (by simp)]
    rw [List.replicate_succ' (n := k) (a := b)]
    simp [List.replicate_succ (n := m)]

theorem float_quotient (v : PyFloat) (n : Nat) (h : Float v) : Float (quotient v n) := by
  cases v with
  | fin neg q =>
    intro neg' q' e
    injection e with e1 e2
    subst e2
    have hq := h neg q rfl
    apply GnssTools.fl_nonneg
    rw [Rat.div_def]
    rcases Nat.eq_zero_or_pos n with rfl | hn
    · simp
    · exact Rat.mul_nonneg hq (Rat.le_of_lt (Rat.inv_pos.2 (Rat.natCast_lt_natCast.2 hn)))
  | inf neg => intro _ _ e; exact nomatch e
  | nan neg => intro _ _ e; exact nomatch e

/-- **C166** (cells): with up to 255 cells every call sends that many voltages, all the same: the quotient, rounded to half precision. -/
theorem C166_cells (a : Args) (n : Nat) (hn : a.cells = n) (h255 : n ≤ 255) (h : Float a.voltage) : ∃ m x b, balance a = .ok m ∧
    ReadsInt 8 m.id (clamp a.batteryId) ∧ m.cells = List.replicate n b ∧ ReadsHalf b x ∧ ExpectedHalf false (quotient a.voltage n) x := by
  obtain ⟨p, x, e1, e2, e3⟩ := set_float _ (float_quotient a.voltage n h)
  obtain ⟨i, i1, i2⟩ := set_id a.batteryId
  have f : FloatField.set 16 false (.float (.fin false 0)) = .ok (formatBin 16 0) := by decide +kernel
  refine ⟨⟨i, List.replicate n p⟩, x, p, ?_, i2, rfl, e2, e3⟩
  have hf := fill_eq a.voltage n p e1 n 0 (formatBin 16 0)
  rw [Nat.add_zero] at hf
  have hlt : ¬ (255 : Int) < n := by omega
  simp [balance, i1, f, hn, hlt, hf, bind, Except.bind, pure, Except.pure]

/-- **C166** (cells): more cells raise AttributeError, and nothing is sent; with a negative number none are sent. -/
theorem C166_cells_refused (a : Args) : (255 < a.cells → balance a = .error .attributeError) ∧
    (a.cells < 0 → ∃ m, balance a = .ok m ∧ m.cells = []) := by
  obtain ⟨i, i1, i2⟩ := set_id a.batteryId
  have f : FloatField.set 16 false (.float (.fin false 0)) = .ok (formatBin 16 0) := by decide +kernel
  constructor
  · intro h
    simp [balance, i1, h, bind, Except.bind, throw, throwThe, MonadExceptOf.throw]
  · intro h
    refine ⟨⟨i, []⟩, ?_, rfl⟩
    have e : a.cells.toNat = 0 := by omega
    have hlt : ¬ (255 : Int) < a.cells := by omega
    simp [balance, i1, f, e, hlt, fill, bind, Except.bind, pure, Except.pure]

/-- The error of rounding to half precision by way of single precision. -/
theorem half_error {q t y : Rat} (f : Int) (hf : -14 ≤ f) (hf' : f ≤ 15) (h0 : 0 ≤ q) (hq : q ≤ (2 : Rat) ^ f) (h1 : Rounded 32 q t) (h2 : Nearest 16 t y) :
    (q - y).abs < (2 : Rat) ^ (f - 10) + 2 * (2 : Rat) ^ (f - 23) := by
  have key : ∀ d : Nat, ∃ k : Nat, k ≤ 2 ^ d ∧ 0 ≤ q - (k : Rat) * (2 : Rat) ^ (f - d) ∧ q - (k : Rat) * (2 : Rat) ^ (f - d) < (2 : Rat) ^ (f - d) := by
    intro d
    have hp : (0 : Rat) < (2 : Rat) ^ (f - d) := Rat.zpow_pos (by decide)
    have e : (2 : Rat) ^ f = ((2 ^ d : Nat) : Rat) * (2 : Rat) ^ (f - d) := by
      rw [Rat.natCast_pow, show ((2 : Nat) : Rat) = 2 from rfl, ← Rat.zpow_natCast, ← Rat.zpow_add (by decide)]
      congr 1
      omega
    rw [e] at hq
    generalize (2 : Rat) ^ (f - d) = u at *
    have hfl := Rat.floor_le (q / u)
    have hlf := Rat.lt_floor (x := q / u)
    have hqu : q / u * u = q := by rw [Rat.div_mul_cancel]; grind
    have hnn : 0 ≤ (q / u).floor := Rat.le_floor_iff.2 (by
      show ((0 : Int) : Rat) ≤ q / u
      rw [Rat.div_def]
      exact Rat.mul_nonneg h0 (Rat.le_of_lt (Rat.inv_pos.2 hp)))
    obtain ⟨k, hk⟩ := Int.eq_ofNat_of_zero_le hnn
    rw [hk] at hfl hlf
    have a1 := Rat.mul_le_mul_of_nonneg_right hfl (Rat.le_of_lt hp)
    have a2 := Rat.mul_lt_mul_of_pos_right hlf hp
    rw [show (q / u - 1) * u = q / u * u - u by grind, hqu] at a2
    rw [hqu] at a1
    have hkc : ((k : Int) : Rat) = (k : Rat) := rfl
    rw [hkc] at a1 a2
    refine ⟨k, ?_, by grind, by grind⟩
    have : (k : Rat) * u ≤ ((2 ^ d : Nat) : Rat) * u := by grind
    have := Rat.le_of_mul_le_mul_right this hp
    exact Rat.natCast_le_natCast.1 this
  obtain ⟨k, k1, k2, k3⟩ := key 10
  obtain ⟨j, j1, j2, j3⟩ := key 23
  have r1 := h1.1.2 ((j : Rat) * (2 : Rat) ^ (f - 23)) ⟨j, f - 23, by show j < 2 ^ 24; omega, by show (-149 : Int) ≤ _; omega, by show _ ≤ (104 : Int); omega, rfl⟩
  have r2 := h2.2 ((k : Rat) * (2 : Rat) ^ (f - 10)) ⟨k, f - 10, by show k < 2 ^ 11; omega, by show (-24 : Int) ≤ _; omega, by show _ ≤ (5 : Int); omega, rfl⟩
  simp only [show ((23 : Nat) : Int) = 23 from rfl, show ((10 : Nat) : Int) = 10 from rfl] at j2 j3 k2 k3
  generalize (j : Rat) * (2 : Rat) ^ (f - 23) = J at *
  generalize (k : Rat) * (2 : Rat) ^ (f - 10) = K at *
  have c1 := abs_cases (q - t)
  have c2 := abs_cases (q - J)
  have c3 := abs_cases (t - y)
  have c4 := abs_cases (t - K)
  have c5 := abs_cases (q - y)
  grind

theorem powers : ∀ i : Fin 30, fl ((2 : Rat) ^ ((i.val : Int) - 14)) = (2 : Rat) ^ ((i.val : Int) - 14) ∧ (2 : Rat) ^ ((i.val : Int) - 14) ≤ largest 16 := by
  decide +kernel

/-- **C166** (cells): if the voltage divided by the number of cells is less than 2^f then what is read differs from it by less than 2^(f - 10) + 2^(f - 20). -/
theorem C166_cells_near (a : Args) (n : Nat) (hn : a.cells = n) (h1 : 1 ≤ n) (h255 : n ≤ 255) (neg : Bool) (q : Rat) (hv : a.voltage = .fin neg q) (hq : 0 ≤ q)
    (f : Int) (hf : -14 ≤ f) (hf' : f ≤ 15) (hlt : q / n ≤ (2 : Rat) ^ f) : ∃ m y, balance a = .ok m ∧ m.cells.length = n ∧
      (∀ b ∈ m.cells, ReadsHalf b (.fin neg y)) ∧ (q / n - y).abs < (2 : Rat) ^ (f - 10) + (2 : Rat) ^ (f - 20) := by
  have hfl : Float a.voltage := by
    intro neg' q' e
    rw [hv] at e
    injection e with e1 e2
    rw [← e2]
    exact hq
  obtain ⟨m, x, b, r1, -, r3, r4, r5⟩ := C166_cells a n hn h255 hfl
  have h0 : 0 ≤ q / n := by
    rw [Rat.div_def]
    exact Rat.mul_nonneg hq (Rat.le_of_lt (Rat.inv_pos.2 (Rat.natCast_lt_natCast.2 h1)))
  have near := fl_near (q := q / n) (c := (2 : Rat) ^ f) (by grind) hlt
  have hfn : 0 ≤ fl (q / n) := GnssTools.fl_nonneg h0
  have hpow := powers ⟨(f + 14).toNat, by omega⟩
  rw [show (((f + 14).toNat : Nat) : Int) - 14 = f by omega] at hpow
  have hle : fl (q / n) ≤ (2 : Rat) ^ f := by
    have := Actuators.fl_mono_all hlt
    rwa [hpow.1] at this
  rw [hv] at r5
  simp only [quotient, ExpectedHalf] at r5
  have hmax := hpow.2
  rw [if_pos (by grind)] at r5
  obtain ⟨t, y, rfl, s1, s2, -⟩ := r5
  have he := half_error f hf hf' hfn hle s1 s2
  refine ⟨m, y, r1, by rw [r3]; simp, ?_, ?_⟩
  · intro b' hb'
    rw [r3] at hb'
    rw [(List.mem_replicate.1 hb').2]
    exact r4
  · have e1 : (2 : Rat) ^ f = 8388608 * (2 : Rat) ^ (f - 23) := by
      rw [show (8388608 : Rat) = (2 : Rat) ^ (23 : Int) by decide +kernel, ← Rat.zpow_add (by decide)]
      congr 1
      omega
    have e2 : (2 : Rat) ^ (f - 20) = 8 * (2 : Rat) ^ (f - 23) := by
      rw [show (8 : Rat) = (2 : Rat) ^ (3 : Int) by decide +kernel, ← Rat.zpow_add (by decide)]
      congr 1
      omega
    rw [e1] at near
    rw [e2]
    have hp : (0 : Rat) < (2 : Rat) ^ (f - 23) := Rat.zpow_pos (by decide)
    have c1 := abs_cases (fl (q / n) - y)
    have c2 := abs_cases (q / n - y)
    grind

/-- A cell of 4.1 V is below 2^3. -/
example : fl (246 / 10) / (6 : Nat) ≤ (2 : Rat) ^ (3 : Int) := by decide +kernel

example : balance { voltage := .fin false (fl (246 / 10)) } = .ok ⟨formatBin 8 1, List.replicate 6 (formatBin 16 0x441a)⟩ := by decide +kernel

end Simulators
end Dronecan
