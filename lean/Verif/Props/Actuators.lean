import Verif.Model.Actuators
import Verif.Proofs.FlMono
import Verif.Props.FloatField
import Verif.Props.ConstExpr
import Verif.Props.GnssTools
import Verif.Props.Prim

/-!
# The examples that command actuators (C156, C157)
-/

namespace Dronecan
namespace Actuators
open FloatField (Num Representable largest Rounded Nearest ExpectedHalf)
open Float16 (PyFloat)
open Parser (fl_neg)

/-! ## Specification -/

/-- The number that a float stands for. -/
def number : PyFloat → Option Rat
  | .fin neg q => some (if neg then -q else q)
  | _ => none

/-- What a receiver reads: the actuator, the type of the command (unitless) and the float. -/
def Reads (c : Command) (n : Int) (x : PyFloat) : Prop :=
  getInt ⟨.unsigned, 8, false⟩ c.id = some n ∧ getInt ⟨.unsigned, 8, false⟩ c.kind = some 0 ∧ FloatField.get 16 c.value = .ok (some x)

/-- The value that is meant: `low` for -1, `high` for 1, and linear in between. -/
def meant (low high s : Rat) : Rat := (low + high) / 2 + s * ((high - low) / 2)

/-- A number of half precision, of either sign. -/
def IsHalf (q : Rat) : Prop := Representable 16 q.abs

/-- The actuator given, or 1, gets a command. -/
def C156_id_statement : Prop := ∀ (a : Args) (n : Nat) (s : Rat), n ≤ 255 → (a.id = some (.fin false n) ∨ a.id = none ∧ n = 1) → -1 ≤ s → s ≤ 1 →
  ∃ c x, control a s = .ok c ∧ Reads c n x

/-- The value that a receiver reads is within the limits. -/
def C156_limits_statement : Prop := ∀ (a : Args) (s : Rat), a.id = none → a.low ≤ a.high → -1 ≤ s → s ≤ 1 →
  ∃ c x v, control a s = .ok c ∧ Reads c 1 x ∧ number x = some v ∧ a.low ≤ v ∧ v ≤ a.high

/-! ## Rounding -/

theorem fl_mono_all {p q : Rat} (h : p ≤ q) : fl p ≤ fl q := by
  by_cases h0 : 0 ≤ p
  · exact fl_mono h0 h
  · by_cases h1 : 0 ≤ q
    · have a : fl p ≤ 0 := by
        have := GnssTools.fl_nonneg (q := -p) (by grind)
        rw [fl_neg] at this
        grind
      have b := GnssTools.fl_nonneg h1
      grind
    · have := fl_mono (p := -q) (q := -p) (by grind) (by grind)
      rw [fl_neg, fl_neg] at this
      grind

/-- The error of rounding. -/
theorem fl_near {q c : Rat} (h1 : -c ≤ q) (h2 : q ≤ c) :
    -(c * (1 / 9007199254740992)) ≤ fl q - q ∧ fl q - q ≤ c * (1 / 9007199254740992) := by
  by_cases h : 0 < q
  · have := GnssTools.fl_bounds h
    constructor <;> grind
  · by_cases h0 : q = 0
    · subst h0
      rw [fl_zero]
      constructor <;> grind
    · have := GnssTools.fl_bounds (q := -q) (by grind)
      rw [fl_neg] at this
      constructor <;> grind

theorem scaled {s x c : Rat} (h1 : -1 ≤ s) (h2 : s ≤ 1) (hx1 : -c ≤ x) (hx2 : x ≤ c) : -c ≤ s * x ∧ s * x ≤ c := by
  have a := Rat.mul_nonneg (a := 1 + s) (b := c + x) (by grind) (by grind)
  have b := Rat.mul_nonneg (a := 1 - s) (b := c - x) (by grind) (by grind)
  have a' := Rat.mul_nonneg (a := 1 + s) (b := c - x) (by grind) (by grind)
  have b' := Rat.mul_nonneg (a := 1 - s) (b := c + x) (by grind) (by grind)
  constructor <;> grind

theorem value_near {low high s B : Rat} (h1 : -1 ≤ s) (h2 : s ≤ 1) (l1 : -B ≤ low) (l2 : low ≤ B) (u1 : -B ≤ high) (u2 : high ≤ B) :
    -(B / 1125899906842624) ≤ value low high s - meant low high s ∧ value low high s - meant low high s ≤ B / 1125899906842624 := by
  simp only [value, meant]
  have e1 := fl_near (q := high - low) (c := 2 * B) (by grind) (by grind)
  generalize fl (high - low) = d at e1
  have e2 := fl_near (q := 1 / 2 * d) (c := B * (1 + 1 / 9007199254740992)) (by grind) (by grind)
  generalize fl (1 / 2 * d) = amp at e2
  have e3 := fl_near (q := low + amp) (c := B * (1 + 1 / 2251799813685248)) (by grind) (by grind)
  generalize fl (low + amp) = mid at e3
  have s1 := scaled (s := s) (x := amp) (c := B * (1 + 1 / 2251799813685248)) h1 h2 (by grind) (by grind)
  have s2 := scaled (s := s) (x := amp - (high - low) / 2) (c := B * (9 / 4 / 9007199254740992)) h1 h2 (by grind) (by grind)
  have s3 := scaled (s := s) (x := (high - low) / 2) (c := B) h1 h2 (by grind) (by grind)
  have s4 := scaled (s := s) (x := (high - low) / 2) (c := (high - low).abs / 2) h1 h2
  generalize hp : s * amp = p at s1
  have e4 := fl_near s1.1 s1.2
  generalize fl p = p' at e4
  have hs2 : s * (amp - (high - low) / 2) = p - s * ((high - low) / 2) := by rw [← hp]; grind
  rw [hs2] at s2
  have s5 := scaled (s := s) (x := 1 / 2) (c := 1 / 2) h1 h2 (by grind) (by grind)
  have hconv : -B ≤ (low + high) / 2 + s * ((high - low) / 2) ∧ (low + high) / 2 + s * ((high - low) / 2) ≤ B := by
    have a := Rat.mul_nonneg (a := 1 + s) (b := B - high) (by grind) (by grind)
    have b := Rat.mul_nonneg (a := 1 - s) (b := B - low) (by grind) (by grind)
    have a' := Rat.mul_nonneg (a := 1 + s) (b := B + high) (by grind) (by grind)
    have b' := Rat.mul_nonneg (a := 1 - s) (b := B + low) (by grind) (by grind)
    constructor <;> grind
  generalize s * ((high - low) / 2) = t at *
  have e5 := fl_near (q := mid + p') (c := B * (1 + 1 / 1125899906842624)) (by grind) (by grind)
  constructor <;> grind

/-! ## Half precision -/

theorem abs_cases (a : Rat) : (0 ≤ a ∧ a.abs = a) ∨ (a < 0 ∧ a.abs = -a) := by
  by_cases h : 0 ≤ a
  · exact .inl ⟨h, Rat.abs_of_nonneg h⟩
  · exact .inr ⟨by grind, Rat.abs_of_nonpos (by grind)⟩

theorem half_multiple {q : Rat} (h : Representable 16 q) : ∃ z : Int, q * 16777216 = z := by
  obtain ⟨n, e, -, h2, -, rfl⟩ := h
  have h2 : (-24 : Int) ≤ e := h2
  refine ⟨n * 2 ^ (e + 24).toNat, ?_⟩
  have h16 : (16777216 : Rat) = (2 : Rat) ^ (24 : Int) := by decide +kernel
  rw [h16, Rat.mul_assoc, ← Rat.zpow_add (by decide)]
  have : e + 24 = (((e + 24).toNat : Nat) : Int) := by omega
  rw [this, Rat.zpow_natCast, Int.toNat_natCast, Rat.intCast_mul, Rat.intCast_pow]
  rfl

theorem isHalf_multiple {q : Rat} (h : IsHalf q) : ∃ z : Int, q * 16777216 = z := by
  obtain ⟨z, hz⟩ := half_multiple h
  rcases abs_cases q with ⟨-, h⟩ | ⟨-, h⟩
  · exact ⟨z, by rw [← hz, h]⟩
  · exact ⟨-z, by rw [h] at hz; rw [Rat.intCast_neg, ← hz]; grind⟩

theorem le_of_near {a b : Rat} (ha : ∃ z : Int, a * 16777216 = z) (hb : ∃ z : Int, b * 16777216 = z) (h : a < b + 1 / 16777216) : a ≤ b := by
  obtain ⟨z, hz⟩ := ha
  obtain ⟨w, hw⟩ := hb
  have h1 : (z : Rat) < ((w + 1 : Int) : Rat) := by
    rw [← hz, Rat.intCast_add, ← hw]
    grind
  have h2 : z ≤ w := by have := Rat.intCast_lt_intCast.1 h1; omega
  have h3 : (z : Rat) ≤ (w : Rat) := Rat.intCast_le_intCast.2 h2
  rw [← hz, ← hw] at h3
  grind

theorem half_single {q : Rat} (h : Representable 16 q) : Representable 32 q := by
  obtain ⟨n, e, h1, h2, h3, h4⟩ := h
  have h1 : n < 2 ^ 11 := h1
  have h2 : (-24 : Int) ≤ e := h2
  have h3 : e ≤ 5 := h3
  exact ⟨n, e, by show n < 2 ^ 24; omega, by show (-149 : Int) ≤ e; omega, by show e ≤ (104 : Int); omega, h4⟩

theorem half_bounds {q t y z : Rat} (h1 : Rounded 32 q t) (h2 : Nearest 16 t y) (hz : Representable 16 z) :
    (q < z + 1 / 67108864 → y ≤ z) ∧ (z < q + 1 / 67108864 → z ≤ y) := by
  have a := h1.1.2 z (half_single hz)
  have b := h2.2 z hz
  have c1 := abs_cases (q - t)
  have c2 := abs_cases (q - z)
  have c3 := abs_cases (t - y)
  have c4 := abs_cases (t - z)
  constructor
  · intro h
    apply le_of_near (half_multiple h2.1) (half_multiple hz)
    grind
  · intro h
    apply le_of_near (half_multiple hz) (half_multiple h2.1)
    grind

theorem largest_half : Representable 16 (largest 16) := ⟨2047, 5, by decide, by decide, by decide, rfl⟩

/-- A value that is nearly within limits of half precision is read as one that is within them. -/
theorem read_within {neg : Bool} {q low high : Rat} {x : PyFloat} (hq : 0 ≤ q) (hl : IsHalf low) (hh : IsHalf high)
    (h1 : low < q + 1 / 67108864) (h2 : q < high + 1 / 67108864) (hx : ExpectedHalf false (.fin neg q) x) :
    ∃ y, x = .fin neg y ∧ low ≤ y ∧ y ≤ high := by
  have hz : (∃ z : Int, (0 : Rat) * 16777216 = z) := ⟨0, by simp⟩
  have hh0 : 0 ≤ high := le_of_near hz (isHalf_multiple hh) (by grind)
  have hh' : Representable 16 high := by have := hh; rwa [IsHalf, Rat.abs_of_nonneg hh0] at this
  simp only [ExpectedHalf] at hx
  by_cases hle : q ≤ largest 16
  · rw [if_pos hle] at hx
    obtain ⟨t, y, rfl, r1, r2, -⟩ := hx
    refine ⟨y, rfl, ?_, (half_bounds r1 r2 hh').1 h2⟩
    by_cases hl0 : 0 ≤ low
    · exact (half_bounds r1 r2 (by have := hl; rwa [IsHalf, Rat.abs_of_nonneg hl0] at this)).2 h1
    · have := (FloatField.representable_le 16 y r2.1).1
      grind
  · rw [if_neg hle] at hx
    refine ⟨largest 16, hx, ?_, ?_⟩
    · have := (FloatField.representable_le 16 _ hl).2
      have := abs_cases low
      grind
    · exact le_of_near (half_multiple largest_half) (half_multiple hh') (by grind)

theorem read_signed {w low high : Rat} {x : PyFloat} (hl : IsHalf low) (hh : IsHalf high) (h1 : low < w + 1 / 67108864)
    (h2 : w < high + 1 / 67108864) (hx : ExpectedHalf false (toPy w) x) : ∃ v, number x = some v ∧ low ≤ v ∧ v ≤ high := by
  have hneg : ∀ q : Rat, IsHalf q → IsHalf (-q) := by
    intro q h
    have : (-q).abs = q.abs := by
      have := abs_cases q
      have := abs_cases (-q)
      grind
    rwa [IsHalf, this]
  rcases abs_cases w with ⟨hw, e⟩ | ⟨hw, e⟩
  · rw [toPy, e] at hx
    obtain ⟨y, rfl, a, b⟩ := read_within hw hl hh h1 h2 hx
    refine ⟨y, ?_, a, b⟩
    simp only [number]
    rw [if_neg (by simp; grind)]
  · rw [toPy, e] at hx
    obtain ⟨y, rfl, a, b⟩ := read_within (by grind) (hneg _ hh) (hneg _ hl) (by grind) (by grind) hx
    refine ⟨-y, ?_, by grind, by grind⟩
    simp only [number]
    rw [if_pos (by simp [hw])]

/-! ## The servo -/

theorem set_ok (w : Rat) : ∃ bits x, FloatField.set 16 false (.float (toPy w)) = .ok bits ∧ FloatField.get 16 bits = .ok (some x) ∧
    ExpectedHalf false (toPy w) x := by
  obtain ⟨x, h1, h2⟩ := FloatField.C111_half false (toPy w) (by
    intro neg q h
    injection h with h3 h4
    subst h4
    have := abs_cases w
    grind)
  simp only [FloatField.assignRead] at h1
  cases hs : FloatField.set 16 false (.float (toPy w)) with
  | error e => rw [hs] at h1; cases h1
  | ok bits => rw [hs] at h1; exact ⟨bits, x, rfl, h1, h2⟩

theorem setNum_one : setNum ⟨.unsigned, 8, false⟩ (.int 1) = .ok (formatBin 8 1) := rfl

theorem read_id : ∀ n : Nat, n < 256 → getInt ⟨.unsigned, 8, false⟩ (formatBin 8 n) = some n := by decide +kernel

theorem control_none (a : Args) (s : Rat) (h : a.id = none) : ∃ c x, control a s = .ok c ∧ Reads c 1 x ∧ ExpectedHalf false (toPy (value a.low a.high s)) x := by
  obtain ⟨bits, x, h1, h2, h3⟩ := set_ok (value a.low a.high s)
  refine ⟨⟨formatBin 8 1, formatBin 8 0, bits⟩, x, ?_, ⟨read_id 1 (by decide), read_id 0 (by decide), h2⟩, h3⟩
  simp only [control, Args.actuatorId, h, h1]
  rfl

/-- **C156** (value): without `--actuator-id`, actuator 1 gets a command. The value is that meant but for an error of at most one part in 2^50 of the
    greatest limit before it is rounded to half precision. -/
theorem C156_value (a : Args) (h : a.id = none) (s B : Rat) (h1 : -1 ≤ s) (h2 : s ≤ 1) (hl : a.low.abs ≤ B) (hh : a.high.abs ≤ B) :
    ∃ c x w, control a s = .ok c ∧ Reads c 1 x ∧ ExpectedHalf false (toPy w) x ∧ (w - meant a.low a.high s).abs ≤ B / 2 ^ 50 := by
  obtain ⟨c, x, r1, r2, r3⟩ := control_none a s h
  have c1 := abs_cases a.low
  have c2 := abs_cases a.high
  have := value_near (low := a.low) (high := a.high) (B := B) h1 h2 (by grind) (by grind) (by grind) (by grind)
  refine ⟨c, x, _, r1, r2, r3, ?_⟩
  have e : (2 : Rat) ^ 50 = 1125899906842624 := by decide +kernel
  rw [e]
  have := abs_cases (value a.low a.high s - meant a.low a.high s)
  grind

/-- **C156** (limits): if the limits are numbers of half precision then the value that is read is within them. -/
theorem C156_limits_partial (a : Args) (h : a.id = none) (hl : IsHalf a.low) (hh : IsHalf a.high) (hlh : a.low ≤ a.high) (s : Rat) (h1 : -1 ≤ s)
    (h2 : s ≤ 1) : ∃ c x v, control a s = .ok c ∧ Reads c 1 x ∧ number x = some v ∧ a.low ≤ v ∧ v ≤ a.high := by
  obtain ⟨c, x, r1, r2, r3⟩ := control_none a s h
  have c1 := abs_cases a.low
  have c2 := abs_cases a.high
  have m : largest 16 = 65504 := by decide +kernel
  have b1 := (FloatField.representable_le 16 _ hl).2
  have b2 := (FloatField.representable_le 16 _ hh).2
  rw [m] at b1 b2
  have hv := value_near (low := a.low) (high := a.high) (B := 65504) h1 h2 (by grind) (by grind) (by grind) (by grind)
  have hm : a.low ≤ meant a.low a.high s ∧ meant a.low a.high s ≤ a.high := by
    have p := Rat.mul_nonneg (a := 1 + s) (b := a.high - a.low) (by grind) (by grind)
    have q := Rat.mul_nonneg (a := 1 - s) (b := a.high - a.low) (by grind) (by grind)
    simp only [meant]
    constructor <;> grind
  obtain ⟨v, q1, q2, q3⟩ := read_signed hl hh (by grind) (by grind) r3
  exact ⟨c, x, v, r1, r2, q1, q2, q3⟩

/-- The limits -1 and 1, which are the default. -/
example : IsHalf ({} : Args).low ∧ IsHalf ({} : Args).high :=
  ⟨⟨1, 0, by decide, by decide, by decide, by decide +kernel⟩, ⟨1, 0, by decide, by decide, by decide, by decide +kernel⟩⟩

/-- With the limits 0 and 0.3, the value 0.30004882... is read. -/
theorem C156_limits_counterexample : ¬ C156_limits_statement := by
  intro h
  obtain ⟨c, x, v, h1, h2, h3, -, h5⟩ := h { low := 0, high := fl (3 / 10) } 1 rfl (by decide +kernel) (by decide) (by decide)
  have e : control { low := 0, high := fl (3 / 10) } 1 = .ok ⟨formatBin 8 1, formatBin 8 0, formatBin 16 0x34cd⟩ := by decide +kernel
  rw [e] at h1
  injection h1 with h1
  subst h1
  have g : FloatField.get 16 (formatBin 16 0x34cd) = .ok (some (.fin false (1229 / 4096))) := by decide +kernel
  have h2 := h2.2.2
  rw [g] at h2
  injection h2 with h2
  injection h2 with h2
  subst h2
  injection h3 with h3
  subst h3
  revert h5
  decide +kernel

/-- **C156** (identifiers): with `--actuator-id`, numbers from 0 to 255 make every call raise ValueError. Greater ones make the commands go to actuator
    255, negative ones to actuator 0. -/
theorem C156_ids_partial (a : Args) (neg : Bool) (q : Rat) (h : a.id = some (.fin neg q)) (s : Rat) (ss : List Rat) :
    (0 ≤ (if neg then -q else q) → (if neg then -q else q) ≤ 255 → servo a (s :: ss) = ([], some .valueError)) ∧
    (255 < (if neg then -q else q) → ∃ c x, control a s = .ok c ∧ Reads c 255 x) ∧
    ((if neg then -q else q) < 0 → ∃ c x, control a s = .ok c ∧ Reads c 0 x) := by
  have r : valueRange ⟨.unsigned, 8, false⟩ = (0, 255) := by decide +kernel
  obtain ⟨bits, x, h1, h2, h3⟩ := set_ok (value a.low a.high s)
  refine ⟨?_, ?_, ?_⟩
  · intro p1 p2
    have : setNum ⟨.unsigned, 8, false⟩ a.actuatorId = .error .valueError := by
      simp only [Args.actuatorId, h, setNum, r, FloatField.gt, FloatField.lt]
      rw [if_neg (by decide), if_neg (by simp only [decide_eq_true_eq]; grind), if_neg (by simp only [decide_eq_true_eq]; grind)]
    simp only [servo, control, this]
  · intro p
    have : setNum ⟨.unsigned, 8, false⟩ a.actuatorId = .ok (formatBin 8 255) := by
      simp only [Args.actuatorId, h, setNum, r, FloatField.gt, FloatField.lt]
      rw [if_neg (by decide), if_pos (by simp only [decide_eq_true_eq]; grind)]
      rfl
    refine ⟨⟨formatBin 8 255, formatBin 8 0, bits⟩, x, ?_, read_id 255 (by decide), read_id 0 (by decide), h2⟩
    simp only [control, this, h1]
    rfl
  · intro p
    have : setNum ⟨.unsigned, 8, false⟩ a.actuatorId = .ok (formatBin 8 0) := by
      simp only [Args.actuatorId, h, setNum, r, FloatField.gt, FloatField.lt]
      rw [if_neg (by decide), if_neg (by simp only [decide_eq_true_eq]; grind), if_pos (by simp only [decide_eq_true_eq]; grind)]
      rfl
    refine ⟨⟨formatBin 8 0, formatBin 8 0, bits⟩, x, ?_, read_id 0 (by decide), read_id 0 (by decide), h2⟩
    simp only [control, this, h1]
    rfl

/-- `--actuator-id 2` -/
theorem C156_id_counterexample : ¬ C156_id_statement := by
  intro h
  obtain ⟨c, x, h1, -⟩ := h { id := some (.fin false 2) } 2 0 (by decide) (.inl rfl) (by decide) (by decide)
  have e : control { id := some (.fin false 2) } 0 = .error .valueError := by decide +kernel
  rw [e] at h1
  cases h1

/-- Without `--actuator-id` no call raises, and each sends one command. -/
theorem C156_runs (a : Args) (h : a.id = none) (ss : List Rat) : ∃ cs : List Command, servo a ss = (cs, none) ∧ cs.length = ss.length ∧
    ∀ (i : Nat) c, cs[i]? = some c → ∃ s, ss[i]? = some s ∧ control a s = .ok c := by
  induction ss with
  | nil => exact ⟨[], rfl, rfl, fun i c hc => by simp at hc⟩
  | cons s ss ih =>
    obtain ⟨cs, h1, h2, h3⟩ := ih
    obtain ⟨c, x, r1, -⟩ := control_none a s h
    refine ⟨c :: cs, by simp only [servo, r1, h1], by simp [h2], ?_⟩
    intro i c' hc
    cases i with
    | zero => exact ⟨s, rfl, by simp at hc; rw [← hc]; exact r1⟩
    | succ i => exact h3 i c' (by simpa using hc)

/-! ## The throttle -/

/-- **C157**: every call sends the same throttle to the first four motor controllers. It is the integer part of 512 (s + 2), but for rounding, and is
    between 512 and 1536. If asked for, the safety is switched off before. -/
theorem C157_throttle (safety : Bool) (s : Rat) (h1 : -1 ≤ s) (h2 : s ≤ 1) : ∃ (c : Bits) (n : Int),
    throttle safety s = .ok ((if safety then [.safetyOff] else []) ++ [.raw [c, c, c, c]]) ∧ getInt ⟨.signed, 14, false⟩ c = some n ∧
    512 ≤ n ∧ n ≤ 1536 ∧ (n : Rat) ≤ 512 * (s + 2) + 1 / 2 ^ 40 ∧ 512 * (s + 2) < n + 1 + 1 / 2 ^ 40 := by
  have e40 : (2 : Rat) ^ 40 = 1099511627776 := by decide +kernel
  have a1 : fl 1 ≤ fl (s + 2) := fl_mono_all (by grind)
  have a2 : fl (s + 2) ≤ fl 3 := fl_mono_all (by grind)
  have f1 : fl 1 = 1 := by decide +kernel
  have f3 : fl 3 = 3 := by decide +kernel
  rw [f1] at a1
  rw [f3] at a2
  have b1 : fl 512 ≤ fl (512 * fl (s + 2)) := fl_mono_all (by grind)
  have b2 : fl (512 * fl (s + 2)) ≤ fl 1536 := fl_mono_all (by grind)
  have f512 : fl 512 = 512 := by decide +kernel
  have f1536 : fl 1536 = 1536 := by decide +kernel
  rw [f512] at b1
  rw [f1536] at b2
  have n1 := fl_near (q := s + 2) (c := 3) (by grind) (by grind)
  have n2 := fl_near (q := 512 * fl (s + 2)) (c := 1536) (by grind) (by grind)
  have ht : setpoint s = (fl (512 * fl (s + 2))).floor := by
    simp only [setpoint, truncRat]
    rw [if_neg (by grind)]
  have g1 : 512 ≤ setpoint s := by
    rw [ht]
    exact Rat.le_floor_iff.2 (by exact b1)
  have g2 := Rat.floor_le (fl (512 * fl (s + 2)))
  have g3 := Rat.lt_floor (x := fl (512 * fl (s + 2)))
  rw [← ht] at g2 g3
  have g4 : setpoint s ≤ 1536 := by
    apply Rat.intCast_le_intCast.1
    exact Rat.le_trans g2 b2
  have hr := C04_signed_saturated_partial 14 (by decide) (by decide) (setpoint s)
  have hc : max (-2 ^ (14 - 1)) (min (setpoint s) (2 ^ (14 - 1) - 1)) = setpoint s := by
    have e1 : (2 : Int) ^ (14 - 1) = 8192 := by decide
    rw [e1]
    omega
  rw [hc] at hr
  simp only [assignRead] at hr
  simp only [throttle, setNum]
  cases hs : setInt ⟨.signed, 14, false⟩ (setpoint s) with
  | error e => rw [hs] at hr; cases hr
  | ok c =>
    rw [hs] at hr
    injection hr with hr
    refine ⟨c, setpoint s, rfl, hr, g1, g4, ?_, ?_⟩
    · rw [e40]; grind
    · rw [e40]; grind

/-- At the ends, and in the middle. -/
example : setpoint (-1) = 512 ∧ setpoint 0 = 1024 ∧ setpoint 1 = 1536 ∧
    throttle true 0 = .ok [.safetyOff, .raw [formatBin 14 1024, formatBin 14 1024, formatBin 14 1024, formatBin 14 1024]] := by decide +kernel

/-! ## Floats in integer fields -/

/-- Greater than a bound, or infinity. -/
def Above (x : PyFloat) (b : Int) : Prop := x = .inf false ∨ ∃ q, number x = some q ∧ (b : Rat) < q

/-- Less than a bound, or minus infinity. -/
def Below (x : PyFloat) (b : Int) : Prop := x = .inf true ∨ ∃ q, number x = some q ∧ q < (b : Rat)

/-- The least and the greatest integer of a type. -/
def least (p : PrimTy) : Int := if p.kind = .signed then -2 ^ (p.bitlen - 1) else 0
def greatest (p : PrimTy) : Int := if p.kind = .signed then 2 ^ (p.bitlen - 1) - 1 else 2 ^ p.bitlen - 1

/-- A float that is assigned to an integer field without an exception is beyond the bounds, and the field reads as the bound. -/
def C158_statement : Prop := ∀ (p : PrimTy) (x : PyFloat) (b : Bits), p.kind = .unsigned ∨ p.kind = .signed → 1 ≤ p.bitlen → p.bitlen ≤ 64 →
  setNum p (.float x) = .ok b →
  (Above x (greatest p) ∧ getInt p b = some (greatest p)) ∨ (Below x (least p) ∧ getInt p b = some (least p))

theorem gt_iff (x : PyFloat) (b : Int) : FloatField.gt (.float x) b = true ↔ Above x b := by
  cases x with
  | fin neg q => simp [FloatField.gt, Above, number]
  | inf neg => cases neg <;> simp [FloatField.gt, Above, number]
  | nan neg => simp [FloatField.gt, Above, number]

theorem lt_iff (x : PyFloat) (b : Int) : FloatField.lt (.float x) b = true ↔ Below x b := by
  cases x with
  | fin neg q => simp [FloatField.lt, Below, number]
  | inf neg => cases neg <;> simp [FloatField.lt, Below, number]
  | nan neg => simp [FloatField.lt, Below, number]

/-- The bounds are right but for wide signed types. -/
theorem range_eq (p : PrimTy) (hk : p.kind = .unsigned ∨ p.kind = .signed ∧ p.bitlen ≤ 53) (h1 : 1 ≤ p.bitlen) : valueRange p = (least p, greatest p) := by
  obtain ⟨k, n, tr⟩ := p
  rcases hk with hk | ⟨hk, h53⟩
  · simp only at hk
    subst hk
    simp [valueRange, least, greatest, unsignedRange]
  · simp only at hk h53 h1
    subst hk
    simp only [valueRange, least, greatest, signedRange_small n h1 h53, if_true]

theorem bound_read (p : PrimTy) (hk : p.kind = .unsigned ∨ p.kind = .signed ∧ p.bitlen ≤ 53) (h1 : 1 ≤ p.bitlen) (ht : p.truncated = false) (v : Int)
    (hv : v = greatest p ∨ v = least p) : ∃ b, setInt p v = .ok b ∧ getInt p b = some v := by
  have key : assignRead p v = .ok (some v) := by
    obtain ⟨k, n, tr⟩ := p
    simp only at hk h1 ht
    subst ht
    have hp : (1 : Int) ≤ 2 ^ n := Int.pow_pos (by decide)
    have hp' : (1 : Int) ≤ 2 ^ (n - 1) := Int.pow_pos (by decide)
    rcases hk with hk | ⟨hk, h53⟩
    · subst hk
      rw [C03_unsigned_saturated n h1]
      simp only [greatest, least] at hv
      rw [if_neg (by decide), if_neg (by decide)] at hv
      have : max 0 (min v (2 ^ n - 1)) = v := by omega
      rw [this]
    · subst hk
      rw [C04_signed_saturated_partial n h1 h53]
      simp only [greatest, least, if_true] at hv
      have : max (-2 ^ (n - 1)) (min v (2 ^ (n - 1) - 1)) = v := by omega
      rw [this]
  simp only [assignRead] at key
  cases hs : setInt p v with
  | error e => rw [hs] at key; cases key
  | ok b =>
    rw [hs] at key
    injection key with key
    exact ⟨b, rfl, key⟩

/-- **C158**: the statement holds for unsigned types, and for signed ones of at most 53 bits. -/
theorem C158_partial (p : PrimTy) (x : PyFloat) (b : Bits) (hk : p.kind = .unsigned ∨ p.kind = .signed ∧ p.bitlen ≤ 53) (h1 : 1 ≤ p.bitlen)
    (h : setNum p (.float x) = .ok b) :
    (Above x (greatest p) ∧ getInt p b = some (greatest p)) ∨ (Below x (least p) ∧ getInt p b = some (least p)) := by
  have r := range_eq p hk h1
  have h : (if p.truncated then .error .typeError
      else if FloatField.gt (.float x) (valueRange p).2 then setInt p (valueRange p).2
      else if FloatField.lt (.float x) (valueRange p).1 then setInt p (valueRange p).1
      else .error .valueError) = Except.ok b := by
    simp only [setNum] at h
    rcases hk with hk | ⟨hk, -⟩ <;> simpa only [hk] using h
  rw [r] at h
  by_cases ht : p.truncated = true
  · rw [if_pos ht] at h
    cases h
  · rw [if_neg ht] at h
    have ht' : p.truncated = false := by simpa using ht
    split at h
    · rename_i hg
      obtain ⟨b', e1, e2⟩ := bound_read p hk h1 ht' _ (.inl rfl)
      rw [e1] at h
      injection h with h
      subst h
      exact .inl ⟨(gt_iff x _).1 hg, e2⟩
    · split at h
      · rename_i hg
        obtain ⟨b', e1, e2⟩ := bound_read p hk h1 ht' _ (.inr rfl)
        rw [e1] at h
        injection h with h
        subst h
        exact .inr ⟨(lt_iff x _).1 hg, e2⟩
      · cases h

/-- **C158** (exceptions): a truncated field refuses every float; a saturated one those that are not beyond the bounds, whole numbers among them, and
    NaN. -/
theorem C158_raises (p : PrimTy) (x : PyFloat) (hk : p.kind = .unsigned ∨ p.kind = .signed ∧ p.bitlen ≤ 53) (h1 : 1 ≤ p.bitlen) :
    (p.truncated = true → setNum p (.float x) = .error .typeError) ∧
    (p.truncated = false → ¬ Above x (greatest p) → ¬ Below x (least p) → setNum p (.float x) = .error .valueError) ∧
    (p.truncated = false → Above x (greatest p) ∨ Below x (least p) → ∃ b, setNum p (.float x) = .ok b) := by
  have r := range_eq p hk h1
  have h : setNum p (.float x) = (if p.truncated then .error .typeError
      else if FloatField.gt (.float x) (valueRange p).2 then setInt p (valueRange p).2
      else if FloatField.lt (.float x) (valueRange p).1 then setInt p (valueRange p).1
      else .error .valueError) := by
    rcases hk with hk | ⟨hk, -⟩ <;> simp only [setNum, hk]
  rw [h, r]
  refine ⟨fun ht => if_pos ht, fun ht ha hb => ?_, fun ht hab => ?_⟩
  · rw [if_neg (by simp [ht]), if_neg (fun h => ha ((gt_iff x _).1 h)), if_neg (fun h => hb ((lt_iff x _).1 h))]
  · rw [if_neg (by simp [ht])]
    by_cases ha : Above x (greatest p)
    · rw [if_pos ((gt_iff x _).2 ha)]
      obtain ⟨b, e1, -⟩ := bound_read p hk h1 ht _ (.inl rfl)
      exact ⟨b, e1⟩
    · rw [if_neg (fun h => ha ((gt_iff x _).1 h)), if_pos ((lt_iff x _).2 (hab.resolve_left ha))]
      obtain ⟨b, e1, -⟩ := bound_read p hk h1 ht _ (.inr rfl)
      exact ⟨b, e1⟩

/-- **C158** (booleans): every float but zero reads as true. -/
theorem C158_boolean (tr : Bool) (x : PyFloat) : ∃ b, setNum ⟨.boolean, 1, tr⟩ (.float x) = .ok b ∧
    getInt ⟨.boolean, 1, tr⟩ b = some (if number x = some 0 then 0 else 1) := by
  refine ⟨_, rfl, ?_⟩
  cases x with
  | fin neg q =>
    by_cases h : q = 0
    · subst h
      cases neg <;> rfl
    · have : ¬ ((if neg then -q else q) = 0) := by cases neg <;> simp [h] <;> grind
      simp only [number, Option.some.injEq, this, if_false, h, ne_eq, not_false_eq_true, decide_true]
      rfl
  | inf neg => rfl
  | nan neg => rfl

/-- 300 in a field of eight bits reads as 255; infinity in a signed field of fourteen bits as 8191. -/
example : setNum ⟨.unsigned, 8, false⟩ (.float (.fin false 300)) = .ok (formatBin 8 255) ∧
    setNum ⟨.signed, 14, false⟩ (.float (.inf false)) = .ok (formatBin 14 8191) ∧
    setNum ⟨.signed, 14, false⟩ (.float (.fin true 2)) = .error .valueError := by decide +kernel

/-- Infinity in a signed field of 64 bits reads as a negative number. -/
theorem C158_counterexample : ¬ C158_statement := by
  intro h
  have := h ⟨.signed, 64, false⟩ (.inf false) (formatBin 64 (2 ^ 63)) (.inr rfl) (by decide) (by decide) (by decide +kernel)
  rcases this with ⟨-, h⟩ | ⟨h, -⟩
  · revert h
    decide +kernel
  · rcases h with h | ⟨q, h, -⟩
    · cases h
    · cases h

end Actuators
end Dronecan
