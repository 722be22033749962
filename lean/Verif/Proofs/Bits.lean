import Verif.Model.Bits

/-! Helper lemmas about bit strings. -/

namespace Dronecan

/-! ## natOfBits and bitsBE -/

/-- The `w` low bits of `v`, most significant first. -/
def bitsBE (w v : Nat) : Bits := (List.range w).reverse.map v.testBit

@[simp] theorem bitsBE_zero (v : Nat) : bitsBE 0 v = [] := rfl

theorem bitsBE_succ (w v : Nat) : bitsBE (w + 1) v = v.testBit w :: bitsBE w v := by
  simp [bitsBE, List.range_succ]

@[simp] theorem length_bitsBE (w v : Nat) : (bitsBE w v).length = w := by simp [bitsBE]

theorem foldl_natOfBits (s : Bits) (a : Nat) :
    s.foldl (fun a b => 2 * a + b.toNat) a = a * 2 ^ s.length + natOfBits s := by
  unfold natOfBits
  induction s generalizing a with
  | nil => simp
  | cons b s ih =>
    simp only [List.foldl_cons, List.length_cons]
    rw [ih, ih (2 * 0 + b.toNat), Nat.pow_succ]
    rw [Nat.add_mul]
    have : 2 * a * 2 ^ s.length = a * (2 ^ s.length * 2) := by
      rw [Nat.mul_comm 2 a, Nat.mul_assoc, Nat.mul_comm 2]
    rw [this, Nat.mul_zero, Nat.zero_add, Nat.add_assoc]

@[simp] theorem natOfBits_nil : natOfBits [] = 0 := rfl

theorem natOfBits_cons (b : Bool) (s : Bits) :
    natOfBits (b :: s) = b.toNat * 2 ^ s.length + natOfBits s := by
  rw [natOfBits, List.foldl_cons, foldl_natOfBits]; simp

theorem natOfBits_append (s t : Bits) :
    natOfBits (s ++ t) = natOfBits s * 2 ^ t.length + natOfBits t := by
  rw [natOfBits, List.foldl_append, foldl_natOfBits]; rfl

theorem natOfBits_lt (s : Bits) : natOfBits s < 2 ^ s.length := by
  induction s with
  | nil => simp
  | cons b s ih =>
    rw [natOfBits_cons, List.length_cons, Nat.pow_succ]
    cases b <;> simp <;> omega

theorem natOfBits_bitsBE (w v : Nat) : natOfBits (bitsBE w v) = v % 2 ^ w := by
  induction w with
  | zero => simp [Nat.mod_one]
  | succ w ih =>
    rw [bitsBE_succ, natOfBits_cons, ih, length_bitsBE, Nat.toNat_testBit, Nat.pow_succ, Nat.mod_mul]
    rw [Nat.mul_comm, Nat.add_comm]

theorem testBit_natOfBits (s : Bits) (i : Nat) :
    (natOfBits s).testBit i = if i < s.length then s.getD (s.length - 1 - i) false else false := by
  induction s generalizing i with
  | nil => simp
  | cons b s ih =>
    rw [natOfBits_cons, Nat.mul_comm, Nat.testBit_two_pow_mul_add _ (natOfBits_lt s), ih]
    by_cases h : i < s.length
    · have : s.length - i = (s.length - 1 - i) + 1 := by omega
      simp [h, show i < s.length + 1 by omega, this]
    · by_cases h2 : i = s.length
      · subst h2; cases b <;> simp
      · have h3 : i - s.length = (i - s.length - 1) + 1 := by omega
        simp [h, show ¬ i < s.length + 1 by omega]
        rw [h3]
        cases b <;> simp [Nat.testBit_succ]

theorem bitsBE_natOfBits (s : Bits) : bitsBE s.length (natOfBits s) = s := by
  induction s with
  | nil => rfl
  | cons b s ih =>
    rw [List.length_cons, bitsBE_succ]
    have h1 : (natOfBits (b :: s)).testBit s.length = b := by
      rw [testBit_natOfBits]; simp
    have h2 : bitsBE s.length (natOfBits (b :: s)) = bitsBE s.length (natOfBits s) := by
      unfold bitsBE
      apply List.map_congr_left
      intro i hi
      simp at hi
      rw [natOfBits_cons, Nat.mul_comm, Nat.testBit_two_pow_mul_add _ (natOfBits_lt s)]
      simp [hi]
    rw [h1, h2, ih]

theorem natOfBits_inj {s t : Bits} (hl : s.length = t.length) (h : natOfBits s = natOfBits t) : s = t := by
  rw [← bitsBE_natOfBits s, ← bitsBE_natOfBits t, h, hl]

theorem bitsBE_add_replicate (k w v : Nat) (h : v < 2 ^ w) :
    bitsBE (w + k) v = List.replicate k false ++ bitsBE w v := by
  induction k with
  | zero => simp
  | succ k ih =>
    rw [← Nat.add_assoc, bitsBE_succ, ih, List.replicate_succ, List.cons_append]
    congr 1
    apply Nat.testBit_lt_two_pow
    exact Nat.lt_of_lt_of_le h (Nat.pow_le_pow_right (by decide) (by omega))

theorem formatBin_eq (w v : Nat) (hw : 0 < w) (h : v < 2 ^ w) : formatBin w v = bitsBE w v := by
  have hl : v.log2 + 1 ≤ w := by
    by_cases hv : v = 0
    · subst hv; simp; omega
    · have := (Nat.log2_lt hv).2 h; omega
  unfold formatBin binDigits
  have hv : v < 2 ^ (v.log2 + 1) := Nat.lt_log2_self
  have := bitsBE_add_replicate (w - (v.log2 + 1)) (v.log2 + 1) v hv
  rw [Nat.add_sub_cancel' hl] at this
  rw [this]; rfl

theorem length_formatBin (w v : Nat) : (formatBin w v).length = max w (v.log2 + 1) := by
  simp [formatBin, binDigits]; omega

theorem natOfBits_formatBin (w v : Nat) : natOfBits (formatBin w v) = v := by
  unfold formatBin
  rw [natOfBits_append]
  have h1 : natOfBits (List.replicate (w - (v.log2 + 1)) false) = 0 := by
    generalize w - (v.log2 + 1) = k
    induction k with
    | zero => rfl
    | succ k ih => rw [List.replicate_succ, natOfBits_cons, ih]; simp
  have h2 : natOfBits (binDigits v) = v := by
    show natOfBits (bitsBE (v.log2 + 1) v) = v
    rw [natOfBits_bitsBE, Nat.mod_eq_of_lt Nat.lt_log2_self]
  rw [h1, h2]; simp

theorem natOfBits_replicate_false (k : Nat) : natOfBits (List.replicate k false) = 0 := by
  induction k with
  | zero => rfl
  | succ k ih => rw [List.replicate_succ, natOfBits_cons, ih]; simp

theorem getElem_bitsBE (w v i : Nat) (h : i < (bitsBE w v).length) :
    (bitsBE w v)[i] = v.testBit (w - 1 - i) := by
  simp [bitsBE]

/-! ## slices -/

@[simp] theorem slices_nil {α} (n : Nat) (hn : 0 < n) : slices n ([] : List α) = [] := by
  have : (n - 1) / n = 0 := Nat.div_eq_of_lt (by omega)
  simp [slices, this]

theorem slices_cons {α} (n : Nat) (hn : 0 < n) (s : List α) (hs : s ≠ []) :
    slices n s = s.take n :: slices n (s.drop n) := by
  unfold slices
  have hpos : 0 < s.length := by cases s <;> simp_all
  have hd : (s.length + (n - 1)) / n = ((s.drop n).length + (n - 1)) / n + 1 := by
    rw [List.length_drop]
    by_cases h : n ≤ s.length
    · have : s.length + (n - 1) = (s.length - n + (n - 1)) + n := by omega
      rw [this, Nat.add_div_right _ hn]
    · have h1 : s.length - n + (n - 1) = n - 1 := by omega
      rw [h1, Nat.div_eq_of_lt (show n - 1 < n by omega)]
      have h2 : s.length + (n - 1) = (s.length - 1) + n := by omega
      rw [h2, Nat.add_div_right _ hn, Nat.div_eq_of_lt (by omega)]
  rw [hd, List.range_succ_eq_map, List.map_cons, List.map_map]
  congr 1
  apply List.map_congr_left
  · intro k _
    simp only [Function.comp_apply, List.drop_drop, Nat.mul_succ, Nat.add_comm]

theorem slices_append {α} (n : Nat) (hn : 0 < n) (a b : List α) (ha : a.length = n) :
    slices n (a ++ b) = a :: slices n b := by
  have hne : a ++ b ≠ [] := by
    intro h; rw [List.append_eq_nil_iff] at h; rw [h.1] at ha; simp at ha; omega
  rw [slices_cons n hn _ hne, ← ha]
  simp

theorem slices_short {α} (n : Nat) (hn : 0 < n) (s : List α) (hs : s ≠ []) (hl : s.length ≤ n) :
    slices n s = [s] := by
  rw [slices_cons n hn s hs, List.take_of_length_le hl, List.drop_eq_nil_of_le hl, slices_nil n hn]

/-- Induction on a list in steps of `n`. -/
theorem list_step_induction {α} (n : Nat) (hn : 0 < n) {P : List α → Prop} (nil : P [])
    (step : ∀ s, s ≠ [] → P (s.drop n) → P s) : ∀ s, P s := by
  intro s
  induction hl : s.length using Nat.strongRecOn generalizing s with
  | _ k ih =>
    by_cases h : s = []
    · rw [h]; exact nil
    · apply step s h
      apply ih (s.drop n).length ?_ _ rfl
      have : 0 < s.length := List.length_pos_iff.2 h
      rw [List.length_drop]; omega

theorem flatten_slices {α} (n : Nat) (hn : 0 < n) (s : List α) : (slices n s).flatten = s := by
  induction s using list_step_induction n hn with
  | nil => simp [hn]
  | step s h ih => rw [slices_cons n hn s h, List.flatten_cons, ih, List.take_append_drop]

theorem length_of_mem_slices {α} (n : Nat) (hn : 0 < n) (s : List α) :
    ∀ c ∈ slices n s, 0 < c.length ∧ c.length ≤ n := by
  induction s using list_step_induction n hn with
  | nil => simp [hn]
  | step s h ih =>
    rw [slices_cons n hn s h]
    intro c hc
    rcases List.mem_cons.1 hc with rfl | hc
    · have : 0 < s.length := by cases s <;> simp_all
      rw [List.length_take]; omega
    · exact ih c hc

/-! ## bytes and bits -/

theorem formatBin_byte (c : Byte) : formatBin 8 c.toNat = bitsBE 8 c.toNat :=
  formatBin_eq 8 _ (by decide) c.isLt

@[simp] theorem bitsFromBytes_nil : bitsFromBytes [] = [] := rfl

theorem bitsFromBytes_cons (c : Byte) (s : List Byte) :
    bitsFromBytes (c :: s) = bitsBE 8 c.toNat ++ bitsFromBytes s := by
  simp [bitsFromBytes, formatBin_byte]

theorem bitsFromBytes_append (s t : List Byte) :
    bitsFromBytes (s ++ t) = bitsFromBytes s ++ bitsFromBytes t := by
  simp [bitsFromBytes]

@[simp] theorem length_bitsFromBytes (s : List Byte) : (bitsFromBytes s).length = 8 * s.length := by
  induction s with
  | nil => rfl
  | cons c s ih => rw [bitsFromBytes_cons, List.length_append, ih, length_bitsBE, List.length_cons]; omega

theorem byte_of_bitsBE (c : Byte) : BitVec.ofNat 8 (natOfBits (bitsBE 8 c.toNat)) = c := by
  rw [natOfBits_bitsBE]
  apply BitVec.eq_of_toNat_eq
  have := c.isLt
  simp; omega

theorem bytesFromBits_aligned (s : Bits) (h : s.length % 8 = 0) :
    bytesFromBits s = (slices 8 s).map fun c => BitVec.ofNat 8 (natOfBits c) := by
  simp [bytesFromBits, h]

theorem bytesFromBits_bitsFromBytes (s : List Byte) : bytesFromBits (bitsFromBytes s) = s := by
  rw [bytesFromBits_aligned _ (by simp)]
  induction s with
  | nil => simp
  | cons c s ih =>
    rw [bitsFromBytes_cons, slices_append 8 (by decide) _ _ (length_bitsBE _ _), List.map_cons, ih,
      byte_of_bitsBE]

theorem bitsFromBytes_map_slices (s : Bits) (h : s.length % 8 = 0) :
    bitsFromBytes ((slices 8 s).map fun c => BitVec.ofNat 8 (natOfBits c)) = s := by
  induction s using list_step_induction 8 (by decide) with
  | nil => simp
  | step s hs ih =>
    have hpos : 0 < s.length := by cases s <;> simp_all
    have hd : (s.drop 8).length % 8 = 0 := by rw [List.length_drop]; omega
    rw [slices_cons 8 (by decide) s hs, List.map_cons, bitsFromBytes_cons, ih hd]
    have ht : (s.take 8).length = 8 := by rw [List.length_take]; omega
    have : bitsBE 8 (BitVec.ofNat 8 (natOfBits (s.take 8))).toNat = s.take 8 := by
      have hlt := natOfBits_lt (s.take 8)
      rw [ht] at hlt
      rw [BitVec.toNat_ofNat, Nat.mod_eq_of_lt hlt]
      have := bitsBE_natOfBits (s.take 8)
      rwa [ht] at this
    rw [this, List.take_append_drop]

/-- Number of zero bits `bytes_from_bits` appends. -/
def padLen (n : Nat) : Nat := (8 - n % 8) % 8

theorem bitsFromBytes_bytesFromBits (s : Bits) :
    bitsFromBytes (bytesFromBits s) = s ++ List.replicate (padLen s.length) false := by
  unfold bytesFromBits padLen
  by_cases h : s.length % 8 = 0
  · simp only [h, ne_eq, not_true_eq_false, ↓reduceIte]
    rw [bitsFromBytes_map_slices _ h]; simp
  · simp only [ne_eq, h, not_false_eq_true, ↓reduceIte]
    rw [bitsFromBytes_map_slices]
    · congr 2
      omega
    · simp; omega

/-! ## byte order -/

theorem length_slices {α} (n : Nat) (s : List α) : (slices n s).length = (s.length + (n - 1)) / n := by
  simp [slices]

theorem slicesFromEnd_nil : slicesFromEnd [] = [] := rfl

theorem slicesFromEnd_short (s : Bits) (h0 : s ≠ []) (h : s.length ≤ 8) : slicesFromEnd s = [s] := by
  have hpos : 0 < s.length := by cases s <;> simp_all
  have : (s.length + 7) / 8 = 1 := by omega
  simp [slicesFromEnd, this, show s.length - 8 = 0 by omega]

theorem slicesFromEnd_append (s t : Bits) (h : t.length = 8) :
    slicesFromEnd (s ++ t) = t :: slicesFromEnd s := by
  unfold slicesFromEnd
  have h1 : ((s ++ t).length + 7) / 8 = (s.length + 7) / 8 + 1 := by
    rw [List.length_append, h]; omega
  rw [h1, List.range_succ_eq_map, List.map_cons, List.map_map]
  congr 1
  · have : (s ++ t).take (s.length + 8) = s ++ t := List.take_of_length_le (by simp [h])
    simp [h, this]
  · apply List.map_congr_left
    intro k hk
    simp only [Function.comp_apply, List.length_append, h]
    have : s.length + 8 - 8 * (k + 1) = s.length - 8 * k := by omega
    rw [this, List.take_append_of_le_length (by omega)]

/-- Reverse the order of 8-bit groups counted from the front (shorter group last). -/
def revSlices (s : Bits) : Bits := (slices 8 s).reverse.flatten

/-- Reverse the order of 8-bit groups counted from the end (shorter group first). -/
def revSlicesFromEnd (s : Bits) : Bits := (slicesFromEnd s).flatten

theorem revSlices_append (a b : Bits) (h : a.length = 8) :
    revSlices (a ++ b) = revSlices b ++ a := by
  simp [revSlices, slices_append 8 (by decide) a b h]

theorem revSlicesFromEnd_append (s t : Bits) (h : t.length = 8) :
    revSlicesFromEnd (s ++ t) = t ++ revSlicesFromEnd s := by
  simp [revSlicesFromEnd, slicesFromEnd_append s t h]

theorem revSlices_short (s : Bits) (h : s.length ≤ 8) : revSlices s = s := by
  by_cases h0 : s = []
  · subst h0; rfl
  · simp [revSlices, slices_short 8 (by decide) s h0 h]

theorem revSlicesFromEnd_short (s : Bits) (h : s.length ≤ 8) : revSlicesFromEnd s = s := by
  by_cases h0 : s = []
  · subst h0; rfl
  · simp [revSlicesFromEnd, slicesFromEnd_short s h0 h]

/-- A bit string is short or has a first group of eight. -/
theorem front_cases {P : Bits → Prop} (short : ∀ s, s.length ≤ 8 → P s)
    (step : ∀ a b, a.length = 8 → P b → P (a ++ b)) : ∀ s, P s := by
  intro s
  induction s using list_step_induction 8 (by decide) with
  | nil => exact short [] (by simp)
  | step s _ ih =>
    by_cases h : s.length ≤ 8
    · exact short s h
    · rw [← List.take_append_drop 8 s]
      exact step _ _ (by rw [List.length_take]; omega) ih

theorem back_cases {P : Bits → Prop} (short : ∀ s, s.length ≤ 8 → P s)
    (step : ∀ a b, b.length = 8 → P a → P (a ++ b)) : ∀ s, P s := by
  intro s
  induction hl : s.length using Nat.strongRecOn generalizing s with
  | _ k ih =>
    by_cases h : s.length ≤ 8
    · exact short s h
    · rw [← List.take_append_drop (s.length - 8) s]
      apply step _ _ (by rw [List.length_drop]; omega)
      exact ih _ (by rw [List.length_take]; omega) _ rfl

@[simp] theorem length_revSlices (s : Bits) : (revSlices s).length = s.length := by
  induction s using front_cases with
  | short s h => rw [revSlices_short s h]
  | step a b h ih => rw [revSlices_append a b h]; simp [ih]; omega

@[simp] theorem length_revSlicesFromEnd (s : Bits) : (revSlicesFromEnd s).length = s.length := by
  induction s using back_cases with
  | short s h => rw [revSlicesFromEnd_short s h]
  | step a b h ih => rw [revSlicesFromEnd_append a b h]; simp [ih]; omega

theorem revSlicesFromEnd_revSlices (s : Bits) : revSlicesFromEnd (revSlices s) = s := by
  induction s using front_cases with
  | short s h => rw [revSlices_short s h, revSlicesFromEnd_short s h]
  | step a b h ih => rw [revSlices_append a b h, revSlicesFromEnd_append _ _ h, ih]

theorem revSlices_revSlicesFromEnd (s : Bits) : revSlices (revSlicesFromEnd s) = s := by
  induction s using back_cases with
  | short s h => rw [revSlicesFromEnd_short s h, revSlices_short s h]
  | step a b h ih => rw [revSlicesFromEnd_append a b h, revSlices_append _ _ h, ih]

theorem beFromLeBits_eq (s : Bits) (n : Nat) (h : n ≤ s.length) :
    beFromLeBits s n = .ok (revSlices (s.take n)) := by
  unfold beFromLeBits revSlices
  rw [if_neg (by omega)]
  by_cases h2 : s.length > n
  · simp [h2]
  · have : s.take n = s := List.take_of_length_le (by omega)
    simp [h2, this]

theorem leFromBeBits_eq (s : Bits) (n : Nat) (h : n ≤ s.length) :
    leFromBeBits s n = .ok (revSlicesFromEnd (s.drop (s.length - n))) := by
  unfold leFromBeBits revSlicesFromEnd
  rw [if_neg (by omega)]
  by_cases h2 : s.length > n
  · simp [h2]
  · simp [h2, show s.length - n = 0 by omega]

theorem beFromLeBits_short (s : Bits) (n : Nat) (h : s.length < n) :
    beFromLeBits s n = .error .valueError := by simp [beFromLeBits, h]

theorem leFromBeBits_short (s : Bits) (n : Nat) (h : s.length < n) :
    leFromBeBits s n = .error .valueError := by simp [leFromBeBits, h]

/-! ## bit lengths -/

theorem ceilLog2_spec (n : Nat) : n ≤ 2 ^ ceilLog2 n := by
  unfold ceilLog2
  split
  · rename_i h; simp; omega
  · have := @Nat.lt_log2_self (n - 1); omega

theorem ceilLog2_min (n k : Nat) (h : n ≤ 2 ^ k) : ceilLog2 n ≤ k := by
  unfold ceilLog2
  split
  · omega
  · have := (Nat.log2_lt (n := n - 1) (k := k) (by omega)).2 (by omega); omega

theorem arrayLenBits_eq_bitLength (n : Nat) : arrayLenBits n = bitLength n := by
  unfold arrayLenBits ceilLog2 bitLength
  by_cases h : n = 0
  · simp [h]
  · simp [h, show ¬ n + 1 ≤ 1 by omega]

theorem unionTagBits_eq_bitLength (n : Nat) (h : 2 ≤ n) : unionTagBits n = bitLength (max (n - 1) 1) := by
  unfold unionTagBits ceilLog2 bitLength
  rw [if_neg (by omega), Nat.max_eq_left (by omega), if_neg (by omega)]

theorem arrayLenBits_pos (n : Nat) (h : 0 < n) : 0 < arrayLenBits n := by
  rw [arrayLenBits_eq_bitLength, bitLength, if_neg (by omega)]; omega

theorem unionTagBits_pos (n : Nat) (h : 2 ≤ n) : 0 < unionTagBits n := by
  unfold unionTagBits ceilLog2; rw [if_neg (by omega)]; omega

theorem lt_two_pow_arrayLenBits (n : Nat) : n < 2 ^ arrayLenBits n := by
  have := ceilLog2_spec (n + 1); unfold arrayLenBits; omega

end Dronecan
