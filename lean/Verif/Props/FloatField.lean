import Verif.Proofs.FloatFormat
import Verif.Proofs.Bits
import Verif.Props.Float16

/-!
# Floating-point fields (C111, C112)
-/

namespace Dronecan
namespace FloatField

open Float16 (PyFloat halfMag half)

/-! ## Specification -/

/-- IEEE 754: the number of bits of the significand, the least and the greatest exponent of its last bit. -/
structure Ieee where
  precision : Nat
  least : Int
  greatest : Int

def ieee (bitlen : Nat) : Ieee :=
  if bitlen = 16 then ⟨11, -24, 5⟩ else if bitlen = 32 then ⟨24, -149, 104⟩ else ⟨53, -1074, 971⟩

/-- The non-negative numbers of a format. -/
def Representable (bitlen : Nat) (q : Rat) : Prop := ∃ (n : Nat) (e : Int), n < 2 ^ (ieee bitlen).precision ∧ (ieee bitlen).least ≤ e ∧
  e ≤ (ieee bitlen).greatest ∧ q = (n : Rat) * (2 : Rat) ^ e

/-- The greatest number of a format. -/
def largest (bitlen : Nat) : Rat := ((2 ^ (ieee bitlen).precision - 1 : Nat) : Rat) * (2 : Rat) ^ (ieee bitlen).greatest

/-- A number of the format such that no other one is nearer. -/
def Nearest (bitlen : Nat) (q y : Rat) : Prop := Representable bitlen y ∧ ∀ z, Representable bitlen z → (q - y).abs ≤ (q - z).abs

/-- The nearest number, ties to even: if another one is as near, then this one is an even multiple of the distance of the two. -/
def Rounded (bitlen : Nat) (q y : Rat) : Prop := Nearest bitlen q y ∧
  ∀ z, Representable bitlen z → (q - z).abs = (q - y).abs → z ≠ y → ∃ c : Nat, y = ((2 * c : Nat) : Rat) * (y - z).abs

/-- A float: the finite ones are those of binary64. -/
def IsFloat : PyFloat → Prop
  | .fin _ q => Representable 64 q
  | _ => True

/-- What is beyond the range: the greatest number, or infinity. -/
def beyond (bitlen : Nat) (truncated neg : Bool) : PyFloat := if truncated then .inf neg else .fin neg (largest bitlen)

/-- What is expected to be read after the assignment of a float. -/
def Expected (bitlen : Nat) (truncated : Bool) : PyFloat → PyFloat → Prop
  | .nan neg, r => r = .nan neg
  | .inf neg, r => r = beyond bitlen truncated neg
  | .fin neg q, r => if q ≤ largest bitlen then ∃ y, r = .fin neg y ∧ Nearest bitlen q y else r = beyond bitlen truncated neg

/-- C111: a field reads back as the nearest number of its format. -/
def C111_statement : Prop := ∀ (bitlen : Nat) (truncated : Bool) (x : PyFloat), bitlen = 16 ∨ bitlen = 32 ∨ bitlen = 64 → IsFloat x →
  ∃ r, assignRead bitlen truncated (.float x) = .ok (some r) ∧ Expected bitlen truncated x r

/-! ## Formats -/

def binary16 : Fmt := ⟨10, -24, 31⟩

def fmt (bitlen : Nat) : Fmt := if bitlen = 16 then binary16 else if bitlen = 32 then binary32 else binary64

theorem fmt_ieee (bitlen : Nat) : 2 ^ (ieee bitlen).precision = 2 * 2 ^ (fmt bitlen).mant ∧ (ieee bitlen).least = (fmt bitlen).least ∧
    (ieee bitlen).greatest + 1 = (fmt bitlen).least + (fmt bitlen).top - 1 ∧ 0 < (fmt bitlen).mant ∧ 2 ≤ (fmt bitlen).top ∧
    (fmt bitlen).infPattern % 2 = 0 ∧ 0 < (fmt bitlen).infPattern := by
  unfold ieee fmt
  split
  · decide +kernel
  · split <;> decide +kernel

theorem representable_iff (bitlen : Nat) (q : Rat) : Representable bitlen q ↔ ∃ u, u < (fmt bitlen).infPattern ∧ q = (fmt bitlen).value u := by
  obtain ⟨h1, h2, h3, h4, h5, -⟩ := fmt_ieee bitlen
  constructor
  · intro ⟨n, e, a, b, c, d⟩
    obtain ⟨u, hu, e1⟩ := pattern_of (fmt bitlen) n e (by omega) (by omega) (by omega)
    exact ⟨u, hu, d.trans e1⟩
  · intro ⟨u, hu, e1⟩
    obtain ⟨n, e, a, b, c, d⟩ := number_of (fmt bitlen) h5 u hu
    exact ⟨n, e, by omega, by omega, by omega, e1.trans d⟩

theorem largest_eq (bitlen : Nat) : largest bitlen = (fmt bitlen).value ((fmt bitlen).infPattern - 1) := by
  unfold largest ieee fmt
  split
  · decide +kernel
  · split <;> decide +kernel

theorem representable_le (bitlen : Nat) (q : Rat) (h : Representable bitlen q) : 0 ≤ q ∧ q ≤ largest bitlen := by
  obtain ⟨u, hu, rfl⟩ := (representable_iff bitlen q).1 h
  rw [largest_eq]
  exact ⟨value_nonneg _ _, value_le _ _ _ (by omega)⟩

/-- Rounding a number in range. -/
theorem round_fmt (bitlen : Nat) (q : Rat) (h0 : 0 ≤ q) (h1 : q ≤ largest bitlen) :
    (fmt bitlen).round q < (fmt bitlen).infPattern ∧ Rounded bitlen q ((fmt bitlen).value ((fmt bitlen).round q)) := by
  obtain ⟨-, -, -, hm, -, -, hpos⟩ := fmt_ieee bitlen
  rw [largest_eq] at h1
  have hr := round_mono _ hm q h0 _ h1
  have hr' : (fmt bitlen).round q < (fmt bitlen).infPattern := by omega
  refine ⟨hr', ⟨(representable_iff bitlen _).2 ⟨_, hr', rfl⟩, ?_⟩, ?_⟩
  · intro z hz
    obtain ⟨u, hu, rfl⟩ := (representable_iff bitlen z).1 hz
    exact (round_nearest _ hm q h0 u).1
  · intro z hz he hne
    obtain ⟨u, hu, rfl⟩ := (representable_iff bitlen z).1 hz
    exact ((round_nearest _ hm q h0 u).2 he (fun h => hne (by rw [h]))).2

/-- A number of the format is nearest to itself only. -/
theorem nearest_self (bitlen : Nat) (q y : Rat) (h : Representable bitlen q) (hn : Nearest bitlen q y) : y = q := by
  have h1 := hn.2 q h
  have e : q - q = 0 := by grind
  rw [e, show Rat.abs 0 = 0 from rfl] at h1
  by_cases hc : y ≤ q
  · rw [(abs_sub_of_le _ _ hc).1] at h1; grind
  · rw [(abs_sub_of_le q y (by grind)).2] at h1; grind

theorem maxFloat_eq (bitlen : Nat) (hb : bitlen = 16 ∨ bitlen = 32 ∨ bitlen = 64) : maxFloat bitlen = .ok (largest bitlen) := by
  rcases hb with rfl | rfl | rfl <;> decide +kernel

theorem largest_pos (bitlen : Nat) : 0 < largest bitlen := by
  unfold largest ieee
  split
  · decide +kernel
  · split <;> decide +kernel

/-! ## Reading back -/

theorem unpack_pattern (F : Fmt) (u : Nat) (hu : u < (F.top + 1) * 2 ^ F.mant) (neg : Bool) :
    F.unpack (u + if neg then (F.top + 1) * 2 ^ F.mant else 0) =
      if u < F.infPattern then .fin neg (F.value u) else if u = F.infPattern then .inf neg else .nan neg := by
  unfold Fmt.unpack
  cases neg with
  | false =>
    simp only [Bool.false_eq_true, if_false, Nat.add_zero, Nat.mod_eq_of_lt hu]
    rw [show decide ((F.top + 1) * 2 ^ F.mant ≤ u) = false by simp; omega]
  | true =>
    simp only [if_true, Nat.add_mod_right, Nat.mod_eq_of_lt hu]
    rw [show decide ((F.top + 1) * 2 ^ F.mant ≤ u + (F.top + 1) * 2 ^ F.mant) = true by simp]

theorem infPattern_lt (F : Fmt) : F.infPattern < (F.top + 1) * 2 ^ F.mant ∧ F.infPattern + 2 ^ F.mant = (F.top + 1) * 2 ^ F.mant := by
  have := two_pos F.mant
  simp only [Fmt.infPattern, Nat.add_mul]
  omega

/-- A float rounded to the format. -/
def stored (F : Fmt) : PyFloat → PyFloat
  | .fin neg q => .fin neg (F.value (F.round q))
  | x => x

/-- `struct` gives back what was packed. -/
theorem unpack_pack (F : Fmt) (hF : 0 < F.mant) (x : PyFloat) (u : Nat) (h : F.pack x = .ok u) : F.unpack u = stored F x := by
  have hi := infPattern_lt F
  cases x with
  | fin neg q =>
    simp only [Fmt.pack] at h
    split at h
    · next hr =>
      cases h
      rw [unpack_pattern F _ (by omega), if_pos hr]
      rfl
    · cases h
  | inf neg =>
    simp only [Fmt.pack] at h
    cases h
    rw [unpack_pattern F _ hi.1, if_neg (by omega), if_pos rfl]
    rfl
  | nan neg =>
    simp only [Fmt.pack] at h
    cases h
    have h1 : 2 ^ F.mant = 2 * 2 ^ (F.mant - 1) := by rw [← Nat.pow_succ']; congr 1; omega
    have h2 := two_pos (F.mant - 1)
    rw [unpack_pattern F _ (by omega), if_neg (by omega), if_neg (by omega)]
    rfl

theorem formatBin_ne_nil (w v : Nat) : formatBin w v ≠ [] := by
  intro h
  have := length_formatBin w v
  rw [h] at this
  simp at this
  omega

theorem get_formatBin (bitlen u : Nat) : get bitlen (formatBin bitlen u) =
    if bitlen = 16 then (Float16.toFloat u).map some
    else if bitlen = 32 then .ok (some (binary32.unpack u))
    else if bitlen = 64 then .ok (some (binary64.unpack u))
    else .error .valueError := by
  unfold get
  rw [if_neg (formatBin_ne_nil _ _), natOfBits_formatBin]

/-- Assigning what `cast` leaves. -/
theorem assignRead_eq (bitlen : Nat) (hb : bitlen = 16 ∨ bitlen = 32 ∨ bitlen = 64) (truncated : Bool) (x y : Num) (z : PyFloat) (u : Nat)
    (h1 : cast truncated (largest bitlen) x = .ok y) (h2 : toFloat y = .ok z) (h3 : encode bitlen z = .ok u) :
    assignRead bitlen truncated x = get bitlen (formatBin bitlen u) := by
  simp only [assignRead, set, maxFloat_eq bitlen hb, bind, Except.bind, h1, h2, h3]

/-- What `cast` makes of a float. -/
def limited (bitlen : Nat) (truncated : Bool) : PyFloat → PyFloat
  | .nan neg => .nan neg
  | .inf neg => beyond bitlen truncated neg
  | .fin neg q => if q ≤ largest bitlen then .fin neg q else beyond bitlen truncated neg

theorem cast_float (bitlen : Nat) (truncated : Bool) (x : PyFloat) (hx : ∀ neg q, x = .fin neg q → 0 ≤ q) :
    cast truncated (largest bitlen) (.float x) = .ok (.float (limited bitlen truncated x)) := by
  have hp := largest_pos bitlen
  unfold limited
  generalize hl : largest bitlen = L at *
  cases x with
  | nan neg => cases truncated <;> cases neg <;> simp [cast, gt, lt, isnan, toFloat]
  | inf neg => cases truncated <;> cases neg <;> simp [cast, gt, lt, isnan, toFloat, beyond, hl]
  | fin neg q =>
    have hq := hx neg q rfl
    by_cases hc : q ≤ L
    · have h1 : ¬ L < q := by grind
      have h2 : ¬ L < -q := by grind
      have h3 : ¬ q < -L := by grind
      have h4 : ¬ -q < -L := by grind
      cases truncated <;> cases neg <;> simp [cast, gt, lt, isnan, toFloat, hc, h1, h2, h3, h4]
    · have h1 : L < q := by grind
      have h2 : ¬ L < -q := by grind
      have h4 : -q < -L := by grind
      cases truncated <;> cases neg <;> simp [cast, gt, lt, isnan, toFloat, beyond, hc, h1, h2, h4, hl]

/-! ## 32 and 64 bits -/

/-- What is stored for a float within the range of the field. -/
theorem readBack (bitlen : Nat) (hb : bitlen = 32 ∨ bitlen = 64) (x : PyFloat) (hx : ∀ neg q, x = .fin neg q → 0 ≤ q ∧ q ≤ largest bitlen) :
    ∃ u, encode bitlen x = .ok u ∧ get bitlen (formatBin bitlen u) = .ok (some (stored (fmt bitlen) x)) := by
  have key : ∀ F : Fmt, 0 < F.mant → (∀ neg q, x = .fin neg q → F.round q < F.infPattern) → ∃ u, F.pack x = .ok u := by
    intro F _ h
    cases x with
    | fin neg q => exact ⟨_, if_pos (h neg q rfl)⟩
    | inf neg => exact ⟨_, rfl⟩
    | nan neg => exact ⟨_, rfl⟩
  rcases hb with rfl | rfl
  · obtain ⟨u, hu⟩ := key binary32 (by decide) (fun neg q h => (round_fmt 32 q (hx neg q h).1 (hx neg q h).2).1)
    refine ⟨u, by simpa [encode] using hu, ?_⟩
    rw [get_formatBin]
    have := unpack_pack binary32 (by decide) x u hu
    rw [this]
    rfl
  · obtain ⟨u, hu⟩ := key binary64 (by decide) (fun neg q h => (round_fmt 64 q (hx neg q h).1 (hx neg q h).2).1)
    refine ⟨u, by simpa [encode] using hu, ?_⟩
    rw [get_formatBin]
    have := unpack_pack binary64 (by decide) x u hu
    rw [this]
    rfl

theorem largest_representable (bitlen : Nat) : Representable bitlen (largest bitlen) := by
  obtain ⟨-, -, -, -, -, -, hpos⟩ := fmt_ieee bitlen
  exact (representable_iff bitlen _).2 ⟨_, by omega, largest_eq bitlen⟩

/-- What is beyond the range of single or double precision. -/
theorem beyond_wide (bitlen : Nat) (hb : bitlen = 32 ∨ bitlen = 64) (truncated neg : Bool) : ∃ u, encode bitlen (beyond bitlen truncated neg) = .ok u ∧
    get bitlen (formatBin bitlen u) = .ok (some (beyond bitlen truncated neg)) := by
  obtain ⟨u, hu, hg⟩ := readBack bitlen hb (beyond bitlen truncated neg) (by
    intro neg' q h
    cases truncated with
    | true => simp [beyond] at h
    | false =>
      simp only [beyond, Bool.false_eq_true, if_false] at h
      cases h
      exact ⟨Rat.le_of_lt (largest_pos _), Rat.le_refl⟩)
  refine ⟨u, hu, ?_⟩
  rw [hg]
  cases truncated with
  | true => rfl
  | false =>
    show Except.ok (some (PyFloat.fin neg ((fmt bitlen).value ((fmt bitlen).round (largest bitlen))))) = .ok (some (.fin neg (largest bitlen)))
    have hr := (round_fmt bitlen (largest bitlen) (Rat.le_of_lt (largest_pos _)) Rat.le_refl).2.1
    rw [nearest_self bitlen _ _ (largest_representable bitlen) hr]

/-- What is expected, with ties to even. -/
def ExpectedEven (bitlen : Nat) (truncated : Bool) : PyFloat → PyFloat → Prop
  | .nan neg, r => r = .nan neg
  | .inf neg, r => r = beyond bitlen truncated neg
  | .fin neg q, r => if q ≤ largest bitlen then ∃ y, r = .fin neg y ∧ Rounded bitlen q y else r = beyond bitlen truncated neg

theorem ExpectedEven.expected {bitlen : Nat} {truncated : Bool} {x r : PyFloat} (h : ExpectedEven bitlen truncated x r) :
    Expected bitlen truncated x r := by
  cases x with
  | nan neg => exact h
  | inf neg => exact h
  | fin neg q =>
    simp only [ExpectedEven] at h
    simp only [Expected]
    split at h
    · next hc =>
      rw [if_pos hc]
      obtain ⟨y, e, hr⟩ := h
      exact ⟨y, e, hr.1⟩
    · next hc => rw [if_neg hc]; exact h

/-- Fields of 32 and 64 bits: the statement holds for every number, with ties to even. -/
theorem C111_wide (bitlen : Nat) (hb : bitlen = 32 ∨ bitlen = 64) (truncated : Bool) (x : PyFloat) (hx : ∀ neg q, x = .fin neg q → 0 ≤ q) :
    ∃ r, assignRead bitlen truncated (.float x) = .ok (some r) ∧ ExpectedEven bitlen truncated x r := by
  have hb' : bitlen = 16 ∨ bitlen = 32 ∨ bitlen = 64 := .inr hb
  have hc := cast_float bitlen truncated x hx
  have hbey := beyond_wide bitlen hb truncated
  cases x with
  | nan neg =>
    obtain ⟨u, hu, hg⟩ := readBack bitlen hb (.nan neg) (fun _ _ h => nomatch h)
    refine ⟨.nan neg, ?_, rfl⟩
    rw [assignRead_eq bitlen hb' truncated _ _ _ u hc rfl hu, hg]
    rfl
  | inf neg =>
    obtain ⟨u, hu, hg⟩ := hbey neg
    refine ⟨beyond bitlen truncated neg, ?_, rfl⟩
    rw [assignRead_eq bitlen hb' truncated _ _ _ u hc rfl hu, hg]
  | fin neg q =>
    have h0 := hx neg q rfl
    simp only [ExpectedEven]
    by_cases hq : q ≤ largest bitlen
    · simp only [if_pos hq]
      simp only [limited, if_pos hq] at hc
      obtain ⟨u, hu, hg⟩ := readBack bitlen hb (.fin neg q) (fun _ _ h => by cases h; exact ⟨h0, hq⟩)
      refine ⟨_, ?_, _, rfl, (round_fmt bitlen q h0 hq).2⟩
      rw [assignRead_eq bitlen hb' truncated _ _ _ u hc rfl hu, hg]
      rfl
    · simp only [if_neg hq]
      simp only [limited, if_neg hq] at hc
      obtain ⟨u, hu, hg⟩ := hbey neg
      refine ⟨_, ?_, rfl⟩
      rw [assignRead_eq bitlen hb' truncated _ _ _ u hc rfl hu, hg]

/-- Fields of 64 bits keep every float, except that saturated ones do not keep infinities. -/
theorem C111_double (truncated : Bool) (x : PyFloat) (hx : IsFloat x) (hi : truncated = true ∨ ∀ neg, x ≠ .inf neg) :
    assignRead 64 truncated (.float x) = .ok (some x) := by
  obtain ⟨r, h, he⟩ := C111_wide 64 (.inr rfl) truncated x (fun neg q h => by
    subst h
    exact (representable_le 64 q hx).1)
  rw [h]
  cases x with
  | nan neg => rw [show r = .nan neg from he]
  | inf neg =>
    rcases hi with rfl | hi
    · rw [show r = _ from he]; rfl
    · exact absurd rfl (hi neg)
  | fin neg q =>
    simp only [ExpectedEven] at he
    rw [if_pos (representable_le 64 q hx).2] at he
    obtain ⟨y, e, hr⟩ := he
    rw [e, nearest_self 64 q y hx hr.1]

/-! ## 16 bits -/

theorem value32_eq_fmt (u : Nat) : Float16.value32 u = binary32.value u := by
  obtain ⟨E, M, rfl, hM⟩ := Float16.split32 u
  rw [Float16.value32_eq E M hM]
  refine Eq.trans ?_ (value_eq binary32 E M hM).symm
  show _ = if E = 0 then (M : Rat) * (2 : Rat) ^ (-149 : Int) else ((2 ^ 23 + M : Nat) : Rat) * (2 : Rat) ^ ((-149 : Int) + ((E : Int) - 1))
  rw [show (-149 : Int) + ((E : Int) - 1) = (E : Int) - 150 by omega]

theorem round32_eq_fmt (q : Rat) : Float16.round32 q = binary32.round q := by
  unfold Float16.round32 Fmt.round
  simp only [binary32]
  split
  · rfl
  · have h : max (binExp q - ((23 : Nat) : Int)) (-149) = max (binExp q) (-126) - 23 := by omega
    rw [h]
    congr 2
    omega

theorem halfMag_eq_fmt (a : Nat) : halfMag a = binary16.value a := by
  have h := value_eq binary16 (a / 1024) (a % 1024) (Nat.mod_lt _ (by decide))
  have e : a / 1024 * 2 ^ binary16.mant + a % 1024 = a := by
    show a / 1024 * 2 ^ 10 + a % 1024 = a
    omega
  rw [e] at h
  rw [h]
  show _ = if a / 1024 = 0 then ((a % 1024 : Nat) : Rat) * (2 : Rat) ^ (-24 : Int)
    else ((2 ^ 10 + a % 1024 : Nat) : Rat) * (2 : Rat) ^ ((-24 : Int) + (((a / 1024 : Nat) : Int) - 1))
  rw [show (-24 : Int) + (((a / 1024 : Nat) : Int) - 1) = ((a / 1024 : Nat) : Int) - 25 by omega]
  rfl

/-- `f16_from_f32` sees the nearest single-precision number only. -/
theorem fromFloat_round (neg : Bool) (q : Rat) : Float16.fromFloat (.fin neg q) = Float16.fromFloat (.fin neg (binary32.value (binary32.round q))) := by
  have h : Float16.pack32 (.fin neg q) = Float16.pack32 (.fin neg (binary32.value (binary32.round q))) := by
    simp only [Float16.pack32, round32_eq_fmt, round_value binary32 (by decide)]
  simp only [Float16.fromFloat, h]

theorem get16 (a : Nat) (ha : a < 32768) (neg : Bool) : get 16 (formatBin 16 (a + if neg then 32768 else 0)) =
    .ok (some (if a < 31744 then .fin neg (halfMag a) else if a = 31744 then .inf neg else .nan neg)) := by
  rw [get_formatBin, if_pos rfl, Float16.C59_decode _ (by split <;> omega)]
  simp only [half, Except.map]
  have h1 : (a + if neg = true then 32768 else 0) % 32768 = a := by split <;> omega
  have h2 : decide (32768 ≤ a + if neg = true then 32768 else 0) = neg := by
    cases neg
    · simp; omega
    · simp
  rw [h1, h2]

/-- What is stored for a number in the range of half precision. -/
theorem readBack16 (neg : Bool) (q : Rat) (h0 : 0 ≤ q) (hq : q ≤ largest 16) : ∃ u s y, encode 16 (.fin neg q) = .ok u ∧
    get 16 (formatBin 16 u) = .ok (some (.fin neg y)) ∧ Rounded 32 q s ∧ Nearest 16 s y ∧
    (∀ z, Representable 16 z → (s - z).abs = (s - y).abs → z ≤ y) := by
  have hL : largest 16 = 65504 := by decide +kernel
  have hL32 : largest 16 ≤ largest 32 := by decide +kernel
  have hv : binary32.value 0x477FE000 = 65504 := by decide +kernel
  obtain ⟨hr, hrd⟩ := round_fmt 32 q h0 (by grind)
  have hs : binary32.value (binary32.round q) ≤ 65504 := by
    rw [← hv]
    exact value_le _ _ _ (round_mono binary32 (by decide) q h0 _ (by rw [hv, ← hL]; exact hq))
  have hb : Float16.IsBinary32 (binary32.value (binary32.round q)) := by
    obtain ⟨n, e, a, b, c, d⟩ := hrd.1.1
    exact ⟨n, e, a, b, c, d⟩
  obtain ⟨a, ha, e, hn, ht⟩ := Float16.C59_nearest _ hb (by grind) neg
  refine ⟨a + (if neg then 32768 else 0), binary32.value (binary32.round q), halfMag a, ?_, ?_, hrd, ⟨?_, ?_⟩, ?_⟩
  · simp only [encode, if_pos]
    rw [fromFloat_round, e]
  · rw [get16 a (by omega), if_pos ha]
  · exact (representable_iff 16 _).2 ⟨a, ha, halfMag_eq_fmt a⟩
  · intro z hz
    obtain ⟨b, hb, rfl⟩ := (representable_iff 16 z).1 hz
    have := hn b hb
    rwa [halfMag_eq_fmt b] at this
  · intro z hz he
    obtain ⟨b, hb, rfl⟩ := (representable_iff 16 z).1 hz
    have h1 := ht b hb (by rw [halfMag_eq_fmt b]; exact he)
    rw [halfMag_eq_fmt a]
    exact value_le _ _ _ h1

/-- What is beyond the range of half precision. -/
theorem beyond16 (truncated neg : Bool) : ∃ u, encode 16 (beyond 16 truncated neg) = .ok u ∧
    get 16 (formatBin 16 u) = .ok (some (beyond 16 truncated neg)) := by
  cases truncated <;> cases neg
  · exact ⟨0x7BFF, by decide +kernel, by decide +kernel⟩
  · exact ⟨0xFBFF, by decide +kernel, by decide +kernel⟩
  · exact ⟨0x7C00, by decide +kernel, by decide +kernel⟩
  · exact ⟨0xFC00, by decide +kernel, by decide +kernel⟩

/-- What is read after an assignment to a field of 16 bits. -/
def ExpectedHalf (truncated : Bool) : PyFloat → PyFloat → Prop
  | .nan neg, r => r = .nan neg
  | .inf neg, r => r = beyond 16 truncated neg
  | .fin neg q, r =>
    if q ≤ largest 16 then ∃ s y, r = .fin neg y ∧ Rounded 32 q s ∧ Nearest 16 s y ∧
      ∀ z, Representable 16 z → (s - z).abs = (s - y).abs → z ≤ y
    else r = beyond 16 truncated neg

/-- Fields of 16 bits: numbers in range are first rounded to single precision, ties to even, and then to half precision, ties away from zero. -/
theorem C111_half (truncated : Bool) (x : PyFloat) (hx : ∀ neg q, x = .fin neg q → 0 ≤ q) :
    ∃ r, assignRead 16 truncated (.float x) = .ok (some r) ∧
      ExpectedHalf truncated x r := by
  have hc := cast_float 16 truncated x hx
  cases x with
  | nan neg =>
    have h : ∀ neg, Float16.fromFloat (.nan neg) = .ok (32767 + if neg then 32768 else 0) := by decide +kernel
    refine ⟨.nan neg, ?_, rfl⟩
    rw [assignRead_eq 16 (.inl rfl) truncated _ _ _ _ hc rfl (h neg), get16 32767 (by omega)]
    rfl
  | inf neg =>
    obtain ⟨u, hu, hg⟩ := beyond16 truncated neg
    refine ⟨_, ?_, rfl⟩
    rw [assignRead_eq 16 (.inl rfl) truncated _ _ _ u hc rfl hu, hg]
  | fin neg q =>
    by_cases hq : q ≤ largest 16
    · simp only [limited, ExpectedHalf, if_pos hq] at hc ⊢
      obtain ⟨u, s, y, hu, hg, h1, h2, h3⟩ := readBack16 neg q (hx neg q rfl) hq
      refine ⟨_, ?_, s, y, rfl, h1, h2, h3⟩
      rw [assignRead_eq 16 (.inl rfl) truncated _ _ _ u hc rfl hu, hg]
    · simp only [limited, ExpectedHalf, if_neg hq] at hc ⊢
      obtain ⟨u, hu, hg⟩ := beyond16 truncated neg
      refine ⟨_, ?_, rfl⟩
      rw [assignRead_eq 16 (.inl rfl) truncated _ _ _ u hc rfl hu, hg]

/-! ## C111 -/

/-- The statement holds for fields of 32 and 64 bits, and for fields of 16 bits if the number is one of single precision or beyond the range. -/
theorem C111_partial (bitlen : Nat) (truncated : Bool) (x : PyFloat) (hb : bitlen = 16 ∨ bitlen = 32 ∨ bitlen = 64) (hx : IsFloat x)
    (h16 : bitlen = 16 → ∀ neg q, x = .fin neg q → q ≤ largest 16 → Representable 32 q) :
    ∃ r, assignRead bitlen truncated (.float x) = .ok (some r) ∧ Expected bitlen truncated x r := by
  have hx' : ∀ neg q, x = .fin neg q → 0 ≤ q := by
    intro neg q h
    subst h
    exact (representable_le 64 q hx).1
  rcases hb with rfl | hb
  · obtain ⟨r, h, he⟩ := C111_half truncated x hx'
    refine ⟨r, h, ?_⟩
    cases x with
    | nan neg => exact he
    | inf neg => exact he
    | fin neg q =>
      simp only [Expected]
      simp only [ExpectedHalf] at he
      split at he
      · next hq =>
        rw [if_pos hq]
        obtain ⟨s, y, e, h1, h2, -⟩ := he
        rw [nearest_self 32 q s (h16 rfl neg q rfl hq) h1.1] at h2
        exact ⟨y, e, h2⟩
      · next hq => rw [if_neg hq]; exact he
  · obtain ⟨r, h, he⟩ := C111_wide bitlen hb truncated x hx'
    exact ⟨r, h, he.expected⟩

/-- Just below the middle of 1 and the next number of half precision: the field reads back as the latter. -/
theorem C111_counterexample : ¬ C111_statement := by
  intro h
  obtain ⟨r, h1, h2⟩ := h 16 false (.fin false ((2 ^ 40 + 2 ^ 29 - 1 : Nat) * (2 : Rat) ^ (-40 : Int))) (.inl rfl)
    ⟨2 ^ 40 + 2 ^ 29 - 1, -40, by decide +kernel, by decide +kernel, by decide +kernel, rfl⟩
  have e : assignRead 16 false (.float (.fin false ((2 ^ 40 + 2 ^ 29 - 1 : Nat) * (2 : Rat) ^ (-40 : Int)))) = .ok (some (.fin false (1025 / 1024))) := by
    decide +kernel
  rw [e] at h1
  cases h1
  simp only [Expected] at h2
  rw [if_pos (by decide +kernel)] at h2
  obtain ⟨y, e1, h3⟩ := h2
  cases e1
  have := h3.2 1 ⟨1, 0, by decide, by decide, by decide, by decide +kernel⟩
  exact absurd this (by decide +kernel)

/-- Numbers in range and beyond, infinities and ties. -/
example : assignRead 32 false (.float (.fin true (1 / 10))) = .ok (some (.fin true (13421773 / 134217728))) ∧
    assignRead 16 false (.float (.fin true 65505)) = .ok (some (.fin true 65504)) ∧
    assignRead 16 true (.float (.fin true 65505)) = .ok (some (.inf true)) ∧
    assignRead 32 false (.float (.inf false)) = .ok (some (.fin false (largest 32))) ∧
    assignRead 32 true (.float (.fin false (16777217 / 16777216))) = .ok (some (.fin false 1)) ∧
    assignRead 64 true (.float (.fin false (2 ^ (-1074 : Int)))) = .ok (some (.fin false (2 ^ (-1074 : Int)))) ∧
    assignRead 8 true (.float (.fin false 1)) = .error .dsdlException := by decide +kernel

/-! ## Integers -/

theorem largest_le (bitlen : Nat) (hb : bitlen = 16 ∨ bitlen = 32 ∨ bitlen = 64) : Representable 64 (largest bitlen) := by
  rcases hb with rfl | rfl | rfl
  · exact ⟨2 ^ 11 - 1, 5, by decide +kernel, by decide, by decide, by decide +kernel⟩
  · exact ⟨2 ^ 24 - 1, 104, by decide +kernel, by decide, by decide, by decide +kernel⟩
  · exact ⟨2 ^ 53 - 1, 971, by decide +kernel, by decide, by decide, by decide +kernel⟩

theorem natAbs_cast (n : Int) : ((n.natAbs : Nat) : Rat) = if n < 0 then -(n : Rat) else (n : Rat) := by
  rw [← Rat.intCast_natCast]
  split
  · rw [show (n.natAbs : Int) = -n by omega, Rat.intCast_neg]
  · rw [show (n.natAbs : Int) = n by omega]

theorem gt_int (n : Int) (L : Rat) (hL : 0 < L) : gt (.int n) L = (decide (L < ((n.natAbs : Nat) : Rat)) && !decide (n < 0)) := by
  simp only [gt]
  rw [natAbs_cast]
  by_cases h : n < 0
  · have : (n : Rat) < 0 := by
      have := Rat.intCast_lt_intCast.2 h
      exact this
    simp only [h, decide_true, Bool.not_true, Bool.and_false]
    rw [decide_eq_false (by grind)]
  · simp [h]

theorem lt_int (n : Int) (L : Rat) (hL : 0 < L) : lt (.int n) (-L) = (decide (L < ((n.natAbs : Nat) : Rat)) && decide (n < 0)) := by
  simp only [lt]
  rw [natAbs_cast]
  by_cases h : n < 0
  · simp only [h, if_true, decide_true, Bool.and_true]
    by_cases hc : L < -(n : Rat)
    · rw [decide_eq_true (by grind), decide_eq_true hc]
    · rw [decide_eq_false (by grind), decide_eq_false hc]
  · have : (0 : Rat) ≤ (n : Rat) := by
      have := Rat.intCast_le_intCast.2 (show 0 ≤ n by omega)
      exact this
    simp only [h, decide_false, Bool.and_false]
    rw [decide_eq_false (by grind)]

/-- The integers that can be converted to a float. -/
theorem toFloat_int (n : Int) : toFloat (.int n) = if ((n.natAbs : Nat) : Rat) < 2 ^ (1024 : Int) - 2 ^ (970 : Int) then
    .ok (.fin (decide (n < 0)) (binary64.value (binary64.round ((n.natAbs : Nat) : Rat)))) else .error .overflowError := by
  have h := round_above binary64 (by decide) ((n.natAbs : Nat) : Rat) (by rw [show (0 : Rat) = ((0 : Nat) : Rat) from rfl, Float16.natCast_le_iff]; omega)
    (binary64.infPattern - 1) (by decide +kernel)
  have e : binary64.value (binary64.infPattern - 1) + binary64.value (binary64.infPattern - 1 + 1) = 2 * (2 ^ (1024 : Int) - 2 ^ (970 : Int)) := by
    decide +kernel
  rw [e] at h
  have hpos : 0 < binary64.infPattern := by decide +kernel
  simp only [toFloat]
  generalize (2 : Rat) ^ (1024 : Int) - 2 ^ (970 : Int) = B at *
  by_cases hc : ((n.natAbs : Nat) : Rat) < B
  · have : ¬ (2 * B ≤ 2 * ((n.natAbs : Nat) : Rat)) := by grind
    have h2 : ¬ binary64.infPattern - 1 < binary64.round ((n.natAbs : Nat) : Rat) := fun x => this (h.1 x)
    generalize binary64.infPattern = P at *
    rw [if_pos hc, if_pos (by omega)]
  · have : 2 * B ≤ 2 * ((n.natAbs : Nat) : Rat) := by grind
    have h2 := h.2 this
    generalize binary64.infPattern = P at *
    rw [if_neg hc, if_neg (by omega)]

theorem cast_int_saturated (bitlen : Nat) (n : Int) : cast false (largest bitlen) (.int n) =
    .ok (if ((n.natAbs : Nat) : Rat) ≤ largest bitlen then .int n else .float (.fin (decide (n < 0)) (largest bitlen))) := by
  simp only [cast, if_true, gt_int n _ (largest_pos bitlen), lt_int n _ (largest_pos bitlen)]
  by_cases hc : ((n.natAbs : Nat) : Rat) ≤ largest bitlen
  · rw [if_pos hc, decide_eq_false (Rat.not_lt.2 hc)]
    simp
  · rw [if_neg hc, decide_eq_true (Rat.not_le.1 hc)]
    by_cases hn : n < 0 <;> simp [hn]

theorem cast_int_truncated (bitlen : Nat) (n : Int) : cast true (largest bitlen) (.int n) =
    if ((n.natAbs : Nat) : Rat) < 2 ^ (1024 : Int) - 2 ^ (970 : Int) then
      .ok (if ((n.natAbs : Nat) : Rat) ≤ largest bitlen then .int n else .float (.inf (decide (n < 0))))
    else .error .overflowError := by
  simp only [cast, Bool.true_eq_false, if_false, isnan, toFloat_int, gt_int n _ (largest_pos bitlen), lt_int n _ (largest_pos bitlen)]
  generalize (2 : Rat) ^ (1024 : Int) - 2 ^ (970 : Int) = B
  by_cases hB : ((n.natAbs : Nat) : Rat) < B
  · rw [if_pos hB, if_pos hB]
    by_cases hc : ((n.natAbs : Nat) : Rat) ≤ largest bitlen
    · rw [if_pos hc, decide_eq_false (Rat.not_lt.2 hc)]
      simp
    · rw [if_neg hc, decide_eq_true (Rat.not_le.1 hc)]
      by_cases hn : n < 0 <;> simp [hn]
  · rw [if_neg hB, if_neg hB]

/-- Integers in range are treated like the nearest float, ties to even. Beyond the range, a saturated field reads as its greatest number; a truncated
one reads as infinity, or the assignment raises OverflowError if the integer has no float. -/
theorem C111_int (bitlen : Nat) (hb : bitlen = 16 ∨ bitlen = 32 ∨ bitlen = 64) (n : Int) :
    (((n.natAbs : Nat) : Rat) ≤ largest bitlen → ∀ truncated, ∃ d, Rounded 64 ((n.natAbs : Nat) : Rat) d ∧
      assignRead bitlen truncated (.int n) = assignRead bitlen truncated (.float (.fin (decide (n < 0)) d))) ∧
    (largest bitlen < ((n.natAbs : Nat) : Rat) →
      assignRead bitlen false (.int n) = .ok (some (.fin (decide (n < 0)) (largest bitlen))) ∧
      assignRead bitlen true (.int n) = if ((n.natAbs : Nat) : Rat) < 2 ^ (1024 : Int) - 2 ^ (970 : Int) then
        .ok (some (.inf (decide (n < 0)))) else .error .overflowError) := by
  have h0 : (0 : Rat) ≤ ((n.natAbs : Nat) : Rat) := by rw [show (0 : Rat) = ((0 : Nat) : Rat) from rfl, Float16.natCast_le_iff]; omega
  have hB : largest 64 < 2 ^ (1024 : Int) - 2 ^ (970 : Int) := by decide +kernel
  have h64 := (representable_le 64 _ (largest_le bitlen hb)).2
  constructor
  · intro hn truncated
    obtain ⟨hr, hrd⟩ := round_fmt 64 _ h0 (by grind)
    refine ⟨_, hrd, ?_⟩
    have hd : binary64.value (binary64.round ((n.natAbs : Nat) : Rat)) ≤ largest bitlen := by
      obtain ⟨w, hw, e⟩ := (representable_iff 64 _).1 (largest_le bitlen hb)
      have e' : largest bitlen = binary64.value w := e
      rw [e'] at hn ⊢
      exact value_le _ _ _ (round_mono binary64 (by decide) _ h0 w hn)
    have hlt : ((n.natAbs : Nat) : Rat) < 2 ^ (1024 : Int) - 2 ^ (970 : Int) := by
      generalize (2 : Rat) ^ (1024 : Int) - 2 ^ (970 : Int) = B at *
      grind
    have c1 : cast truncated (largest bitlen) (.int n) = .ok (.int n) := by
      cases truncated with
      | false => rw [cast_int_saturated, if_pos hn]
      | true => rw [cast_int_truncated, if_pos hlt, if_pos hn]
    have c2 := cast_float bitlen truncated (.fin (decide (n < 0)) (binary64.value (binary64.round ((n.natAbs : Nat) : Rat))))
      (fun _ _ h => by cases h; exact value_nonneg _ _)
    simp only [limited, if_pos hd] at c2
    have c3 := toFloat_int n
    rw [if_pos hlt] at c3
    show assignRead bitlen truncated (.int n) = assignRead bitlen truncated (.float (.fin (decide (n < 0))
      (binary64.value (binary64.round ((n.natAbs : Nat) : Rat)))))
    simp only [assignRead, set, maxFloat_eq bitlen hb, bind, Except.bind, c1, c2, c3]
    rfl
  · intro hn
    have hbey : ∀ truncated, ∃ u, encode bitlen (beyond bitlen truncated (decide (n < 0))) = .ok u ∧
        get bitlen (formatBin bitlen u) = .ok (some (beyond bitlen truncated (decide (n < 0)))) := by
      intro truncated
      rcases hb with rfl | hb
      · exact beyond16 truncated _
      · exact beyond_wide bitlen hb truncated _
    constructor
    · obtain ⟨u, hu, hg⟩ := hbey false
      have c := cast_int_saturated bitlen n
      rw [if_neg (by grind)] at c
      rw [assignRead_eq bitlen hb false _ _ _ u c rfl hu, hg]
      rfl
    · have c := cast_int_truncated bitlen n
      rw [if_neg (show ¬ ((n.natAbs : Nat) : Rat) ≤ largest bitlen by grind)] at c
      by_cases hc : ((n.natAbs : Nat) : Rat) < 2 ^ (1024 : Int) - 2 ^ (970 : Int)
      · rw [if_pos hc] at c ⊢
        obtain ⟨u, hu, hg⟩ := hbey true
        rw [assignRead_eq bitlen hb true _ _ _ u c rfl hu, hg]
        rfl
      · rw [if_neg hc] at c ⊢
        simp only [assignRead, set, maxFloat_eq bitlen hb, bind, Except.bind, c]

/-- The initial value; integers in range and beyond. -/
example : assignRead 16 false (.int 0) = .ok (some (.fin false 0)) ∧ assignRead 32 false (.int (-16777217)) = .ok (some (.fin true 16777216)) ∧
    assignRead 16 true (.int (-70000)) = .ok (some (.inf true)) ∧ assignRead 64 false (.int (2 ^ 1024)) = .ok (some (.fin false (largest 64))) ∧
    assignRead 16 true (.int (2 ^ 1024)) = .error .overflowError := by decide +kernel

/-! ## C112 -/

/-- C112: what was read from a field can be assigned to another one of the same type, which then has the same bits (NaNs apart). -/
def C112_statement : Prop := ∀ (bitlen : Nat) (truncated : Bool) (bits : Bits) (x : PyFloat), bitlen = 16 ∨ bitlen = 32 ∨ bitlen = 64 →
  bits.length = bitlen → get bitlen bits = .ok (some x) → (∀ neg, x ≠ .nan neg) → set bitlen truncated (.float x) = .ok bits

theorem pack_unpack (F : Fmt) (hF : 0 < F.mant) (u : Nat) (hu : u < 2 * ((F.top + 1) * 2 ^ F.mant)) (hn : ∀ neg, F.unpack u ≠ .nan neg) :
    F.pack (F.unpack u) = .ok u ∧ ∀ neg q, F.unpack u = .fin neg q → ∃ a, a < F.infPattern ∧ q = F.value a := by
  have hS : 0 < (F.top + 1) * 2 ^ F.mant := Nat.mul_pos (by omega) (two_pos _)
  obtain ⟨a, neg, ha, rfl⟩ : ∃ a, ∃ neg : Bool, a < (F.top + 1) * 2 ^ F.mant ∧ u = a + if neg then (F.top + 1) * 2 ^ F.mant else 0 := by
    by_cases h : u < (F.top + 1) * 2 ^ F.mant
    · exact ⟨u, false, h, by simp⟩
    · exact ⟨u - (F.top + 1) * 2 ^ F.mant, true, by omega, by simp; omega⟩
  rw [unpack_pattern F a ha neg] at hn ⊢
  by_cases h1 : a < F.infPattern
  · rw [if_pos h1]
    refine ⟨?_, fun _ _ h => by cases h; exact ⟨a, h1, rfl⟩⟩
    simp only [Fmt.pack, round_value F hF, if_pos h1]
  · rw [if_neg h1] at hn ⊢
    by_cases h2 : a = F.infPattern
    · rw [if_pos h2]
      refine ⟨?_, fun _ _ h => nomatch h⟩
      simp only [Fmt.pack, h2]
    · rw [if_neg h2] at hn
      exact absurd rfl (hn neg)

/-- The statement holds for numbers, and in truncated fields for infinities as well. -/
theorem C112_partial (bitlen : Nat) (truncated : Bool) (bits : Bits) (x : PyFloat) (hb : bitlen = 16 ∨ bitlen = 32 ∨ bitlen = 64)
    (hl : bits.length = bitlen) (hg : get bitlen bits = .ok (some x)) (hn : ∀ neg, x ≠ .nan neg)
    (hi : truncated = true ∨ ∀ neg, x ≠ .inf neg) : set bitlen truncated (.float x) = .ok bits := by
  have hlt : natOfBits bits < 2 ^ bitlen := by rw [← hl]; exact natOfBits_lt bits
  have hbits : formatBin bitlen (natOfBits bits) = bits := by
    rw [formatBin_eq bitlen _ (by omega) hlt, ← hl]
    exact bitsBE_natOfBits bits
  rw [← hbits] at hg
  rw [get_formatBin] at hg
  generalize natOfBits bits = u at *
  obtain ⟨e, hr⟩ : encode bitlen x = .ok u ∧ ∀ neg q, x = .fin neg q → Representable bitlen q := by
    rcases hb with rfl | rfl | rfl
    · rw [if_pos rfl, Float16.C59_decode u hlt] at hg
      cases hg
      have hnn : u % 32768 ≤ 31744 := by
        apply Classical.byContradiction
        intro h
        refine hn (decide (32768 ≤ u)) ?_
        simp only [half]
        rw [if_neg (by omega), if_neg (by omega)]
      have h := Float16.C59_roundtrip u hlt hnn
      rw [Float16.C59_decode u hlt] at h
      refine ⟨h, fun neg q hq => ?_⟩
      simp only [half] at hq
      split at hq
      · next hc =>
        cases hq
        exact (representable_iff 16 _).2 ⟨_, hc, halfMag_eq_fmt _⟩
      · split at hq <;> cases hq
    · have hg : Except.ok (some (binary32.unpack u)) = (Except.ok (some x) : Except Err (Option PyFloat)) := hg
      cases hg
      obtain ⟨h1, h2⟩ := pack_unpack binary32 (by decide) u hlt hn
      exact ⟨h1, fun neg q hq => (representable_iff 32 q).2 (h2 neg q hq)⟩
    · have hg : Except.ok (some (binary64.unpack u)) = (Except.ok (some x) : Except Err (Option PyFloat)) := hg
      cases hg
      obtain ⟨h1, h2⟩ := pack_unpack binary64 (by decide) u hlt hn
      exact ⟨h1, fun neg q hq => (representable_iff 64 q).2 (h2 neg q hq)⟩
  have hc := cast_float bitlen truncated x (fun neg q hq => (representable_le _ _ (hr neg q hq)).1)
  have hlim : limited bitlen truncated x = x := by
    cases x with
    | nan neg => rfl
    | inf neg =>
      rcases hi with rfl | hi
      · rfl
      · exact absurd rfl (hi neg)
    | fin neg q =>
      simp only [limited, if_pos (representable_le _ _ (hr neg q rfl)).2]
  rw [hlim] at hc
  simp only [set, maxFloat_eq bitlen hb, bind, Except.bind, hc, toFloat, e, hbits]

/-- A received infinity that is copied into a saturated field becomes the greatest number. -/
theorem C112_counterexample : ¬ C112_statement := by
  intro h
  have := h 16 false (formatBin 16 0x7C00) (.inf false) (.inl rfl) (by decide +kernel) (by decide +kernel) (fun _ h => nomatch h)
  exact absurd this (by decide +kernel)

/-- Bits of a negative subnormal number and of an infinity. -/
example : get 32 (formatBin 32 0x80000001) = .ok (some (.fin true (2 ^ (-149 : Int)))) ∧
    set 32 false (.float (.fin true (2 ^ (-149 : Int)))) = .ok (formatBin 32 0x80000001) ∧
    set 64 true (.float (.inf true)) = .ok (formatBin 64 0xFFF0000000000000) := by decide +kernel

end FloatField
end Dronecan
