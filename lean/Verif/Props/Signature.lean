import Verif.Model.Signature

/-!
# Signatures (C55)
-/

namespace Dronecan
namespace Signature

/-! ## The register as a 64-bit word -/

def bitV (x : BitVec 64) : BitVec 64 := if x.getLsbD 63 then (x <<< 1) ^^^ 0x42F0E1EBA9EA3693#64 else x <<< 1

def bitsV : Nat → BitVec 64 → BitVec 64
  | 0, x => x
  | n + 1, x => bitsV n (bitV x)

def byteV (x : BitVec 64) (b : BitVec 8) : BitVec 64 := bitsV 8 (x ^^^ (b.setWidth 64 <<< 56))

theorem mask_eq (x : Nat) : x &&& mask64 = x % 2 ^ 64 := Nat.and_two_pow_sub_one_eq_mod x 64

theorem bit_toNat (x : BitVec 64) : bit x.toNat = (bitV x).toNat := by
  have hx := x.isLt
  have htop : (x.toNat &&& (1 <<< 63) ≠ 0) ↔ x.getLsbD 63 = true := by
    show _ ↔ x.toNat.testBit 63 = true
    have h63 : x.toNat &&& (1 <<< 63) = if x.toNat.testBit 63 = true then 1 <<< 63 else 0 := by
      apply Nat.eq_of_testBit_eq
      intro i
      have h1 : Nat.testBit (1 <<< 63) i = decide (63 = i) := by
        rw [Nat.shiftLeft_eq, Nat.one_mul, Nat.testBit_two_pow]
      rw [Nat.testBit_and, h1]
      by_cases hi : 63 = i
      · subst hi
        cases x.toNat.testBit 63
        · simp
        · rw [if_pos rfl, h1, Bool.true_and]
      · cases x.toNat.testBit 63
        · simp [hi]
        · rw [if_pos rfl, h1]; simp [hi]
    rw [h63]
    cases x.toNat.testBit 63 <;> simp
  unfold bit bitV
  by_cases h : x.getLsbD 63 = true
  · rw [if_pos (htop.2 h), if_pos h, mask_eq, BitVec.toNat_xor, BitVec.toNat_shiftLeft]
    rfl
  · rw [if_neg (fun h' => h (htop.1 h')), if_neg h, BitVec.toNat_shiftLeft]
    have : x.toNat < 2 ^ 63 := by
      have hb : x.toNat.testBit 63 = false := by simpa [BitVec.getLsbD] using h
      rw [Nat.testBit_eq_decide_div_mod_eq] at hb
      simp only [decide_eq_false_iff_not] at hb
      omega
    rw [Nat.shiftLeft_eq, Nat.mod_eq_of_lt (by omega)]

theorem bits_toNat (n : Nat) (x : BitVec 64) : bits n x.toNat = (bitsV n x).toNat := by
  induction n generalizing x with
  | zero => rfl
  | succ n ih => simp only [bits, bitsV, bit_toNat, ih]

theorem byte_toNat (x : BitVec 64) (b : Nat) : byte x.toNat b = (byteV x (BitVec.ofNat 8 b)).toNat := by
  unfold byte byteV
  have h : (b <<< 56) % 2 ^ 64 = ((BitVec.ofNat 8 b).setWidth 64 <<< 56).toNat := by
    rw [BitVec.toNat_shiftLeft, BitVec.toNat_setWidth, BitVec.toNat_ofNat, Nat.shiftLeft_eq, Nat.shiftLeft_eq]
    omega
  rw [mask_eq, h, ← BitVec.toNat_xor, bits_toNat]

theorem add_toNat (x : BitVec 64) (data : List Nat) :
    add x.toNat data = ((data.map (BitVec.ofNat 8)).foldl byteV x).toNat := by
  unfold add
  induction data generalizing x with
  | nil => rfl
  | cons b data ih => simp only [List.foldl_cons, List.map_cons, byte_toNat, ih]

/-! ## Linearity -/

theorem shl_xor (n : Nat) (x y : BitVec 64) : (x ^^^ y) <<< n = (x <<< n) ^^^ (y <<< n) := by
  apply BitVec.eq_of_getLsbD_eq
  intro i hi
  simp only [BitVec.getLsbD_shiftLeft, BitVec.getLsbD_xor]
  by_cases h : i < n <;> simp [h, hi]

theorem bitV_xor (x y : BitVec 64) : bitV (x ^^^ y) = bitV x ^^^ bitV y := by
  simp only [bitV]
  rw [BitVec.getLsbD_xor, shl_xor]
  generalize x <<< 1 = a
  generalize y <<< 1 = b
  generalize 0x42F0E1EBA9EA3693#64 = c
  have hcc : ∀ u : BitVec 64, u ^^^ u = 0#64 := fun u => BitVec.xor_self
  cases x.getLsbD 63 <;> cases y.getLsbD 63 <;> simp
  · rw [BitVec.xor_assoc]
  · rw [BitVec.xor_assoc, BitVec.xor_assoc, BitVec.xor_comm b c]
  · rw [BitVec.xor_assoc a c, BitVec.xor_comm b c, ← BitVec.xor_assoc c c, hcc, BitVec.zero_xor]

theorem bitV_zero : bitV 0#64 = 0#64 := by decide

theorem bitV_eq_zero (x : BitVec 64) (h : bitV x = 0#64) : x = 0#64 := by
  unfold bitV at h
  cases hx : x.getLsbD 63 with
  | true =>
    rw [hx, if_pos rfl] at h
    have := congrArg (fun y => y.getLsbD 0) h
    simp at this
  | false =>
    rw [hx] at h
    simp only [Bool.false_eq_true, if_false] at h
    apply BitVec.eq_of_getLsbD_eq
    intro i hi
    rw [BitVec.getLsbD_zero]
    by_cases h63 : i = 63
    · subst h63; exact hx
    · have := congrArg (fun y => y.getLsbD (i + 1)) h
      simp only [BitVec.getLsbD_shiftLeft, BitVec.getLsbD_zero] at this
      simpa [show i + 1 < 64 by omega] using this

theorem xor_eq_zero {w : Nat} {x y : BitVec w} (h : x ^^^ y = 0#w) : x = y := by
  have := congrArg (fun u => u ^^^ y) h
  simpa [BitVec.xor_assoc] using this

theorem bitV_inj {x y : BitVec 64} (h : bitV x = bitV y) : x = y := by
  apply xor_eq_zero
  apply bitV_eq_zero
  rw [bitV_xor, h, BitVec.xor_self]

theorem bitsV_xor (n : Nat) (x y : BitVec 64) : bitsV n (x ^^^ y) = bitsV n x ^^^ bitsV n y := by
  induction n generalizing x y with
  | zero => rfl
  | succ n ih => simp only [bitsV, bitV_xor, ih]

theorem bitsV_inj (n : Nat) {x y : BitVec 64} (h : bitsV n x = bitsV n y) : x = y := by
  induction n generalizing x y with
  | zero => exact h
  | succ n ih => exact bitV_inj (ih h)

theorem bitsV_add (m n : Nat) (x : BitVec 64) : bitsV (m + n) x = bitsV n (bitsV m x) := by
  induction m generalizing x with
  | zero => simp [bitsV]
  | succ m ih => rw [Nat.succ_add]; simp only [bitsV]; exact ih _

/-- As long as no bit reaches the top, the register is only shifted. -/
theorem bitsV_shift (n : Nat) (hn : n ≤ 64) (x : BitVec 64) (h : ∀ i, 64 - n ≤ i → x.getLsbD i = false) : bitsV n x = x <<< n := by
  induction n generalizing x with
  | zero => simp [bitsV]
  | succ n ih =>
    have htop : x.getLsbD 63 = false := h 63 (by omega)
    simp only [bitsV, bitV, htop, Bool.false_eq_true, if_false]
    rw [ih (by omega) (x <<< 1)]
    · rw [← BitVec.shiftLeft_add, Nat.add_comm]
    · intro i hi
      rw [BitVec.getLsbD_shiftLeft]
      by_cases h1 : i < 64
      · rw [h (i - 1) (by omega)]
        simp
      · simp [h1]

/-! ## Up to 8 bytes -/

/-- Bytes left-justified in the register. -/
def packed : List (BitVec 8) → BitVec 64
  | [] => 0#64
  | b :: bs => (b.setWidth 64 <<< 56) ^^^ (packed bs >>> 8)

theorem packed_low (bs : List (BitVec 8)) (i : Nat) (h : i + 8 * bs.length < 64) : (packed bs).getLsbD i = false := by
  induction bs generalizing i with
  | nil => simp [packed]
  | cons b bs ih =>
    simp only [List.length_cons] at h
    simp only [packed, BitVec.getLsbD_xor, BitVec.getLsbD_ushiftRight, BitVec.getLsbD_shiftLeft]
    rw [ih (8 + i) (by omega)]
    simp [show i < 56 by omega]

theorem foldl_packed (bs : List (BitVec 8)) (hl : bs.length ≤ 8) (c : BitVec 64) :
    bs.foldl byteV c = bitsV (8 * bs.length) (c ^^^ packed bs) := by
  induction bs generalizing c with
  | nil => simp [bitsV, packed]
  | cons b bs ih =>
    simp only [List.length_cons] at hl
    rw [List.foldl_cons, ih (by omega), List.length_cons, show 8 * (bs.length + 1) = 8 + 8 * bs.length by omega, bitsV_add]
    congr 1
    simp only [byteV, packed]
    rw [← BitVec.xor_assoc, bitsV_xor 8 _ (packed bs >>> 8)]
    congr 1
    rw [bitsV_shift 8 (by omega)]
    · apply BitVec.eq_of_getLsbD_eq
      intro i hi
      rw [BitVec.getLsbD_shiftLeft, BitVec.getLsbD_ushiftRight]
      by_cases h : i < 8
      · rw [packed_low bs i (by omega)]
        simp [h]
      · simp [h, hi, show 8 + (i - 8) = i by omega]
    · intro i hi
      rw [BitVec.getLsbD_ushiftRight]
      exact BitVec.getLsbD_of_ge _ _ (by omega)

theorem packed_inj (a b : List (BitVec 8)) (hl : a.length = b.length) (h8 : a.length ≤ 8) (h : packed a = packed b) : a = b := by
  induction a generalizing b with
  | nil =>
    cases b with
    | nil => rfl
    | cons _ _ => simp at hl
  | cons x a ih =>
    cases b with
    | nil => simp at hl
    | cons y b =>
      simp only [List.length_cons] at hl h8
      have hbit : ∀ i, (packed (x :: a)).getLsbD i = (packed (y :: b)).getLsbD i := by rw [h]; intro; rfl
      simp only [packed, BitVec.getLsbD_xor, BitVec.getLsbD_ushiftRight, BitVec.getLsbD_shiftLeft] at hbit
      have hx : x = y := by
        apply BitVec.eq_of_getLsbD_eq
        intro i hi
        have := hbit (56 + i)
        rw [BitVec.getLsbD_of_ge (packed a) _ (by omega), BitVec.getLsbD_of_ge (packed b) _ (by omega)] at this
        simpa [show 56 + i < 64 by omega, show i < 64 by omega, show ¬ 56 + i < 56 by omega] using this
      subst hx
      have hp : packed a = packed b := by
        apply BitVec.eq_of_getLsbD_eq
        intro i hi
        by_cases h8' : i < 8
        · rw [packed_low a i (by omega), packed_low b i (by omega)]
        · have := hbit (i - 8)
          rw [show 8 + (i - 8) = i by omega] at this
          simpa using this
      rw [ih b (by omega) (by omega) hp]

theorem foldl_inj (bs : List (BitVec 8)) (x y : BitVec 64) (h : bs.foldl byteV x = bs.foldl byteV y) : x = y := by
  induction bs generalizing x y with
  | nil => exact h
  | cons b bs ih =>
    have := bitsV_inj 8 (ih _ _ h)
    apply xor_eq_zero
    have h2 := congrArg (fun u => u ^^^ (b.setWidth 64 <<< 56)) this
    simp only [BitVec.xor_assoc, BitVec.xor_self, BitVec.xor_zero] at h2
    rw [h2, BitVec.xor_self]

/-! ## C55 -/

/-- A state that can occur: a new object, and what was fed to it. -/
def Reachable (crc : Nat) : Prop := ∃ e data, crc = add (init e) data

theorem init_lt (e : Option Int) : init e < 2 ^ 64 := by
  cases e with
  | none => decide
  | some e =>
    have h1 : (e % 2 ^ 64).toNat < 2 ^ 64 := by omega
    exact Nat.xor_lt_two_pow h1 (by decide)

theorem reachable_toNat (crc : Nat) (h : Reachable crc) : ∃ x : BitVec 64, crc = x.toNat := by
  obtain ⟨e, data, rfl⟩ := h
  have : init e = (BitVec.ofNat 64 (init e)).toNat := by rw [BitVec.toNat_ofNat, Nat.mod_eq_of_lt (init_lt e)]
  rw [this, add_toNat]
  exact ⟨_, rfl⟩

/-- Feeding data in any number of pieces is the same as feeding it at once. -/
theorem C55_pieces (crc : Nat) (pieces : List (List Nat)) : value (pieces.foldl add crc) = value (add crc pieces.flatten) := by
  congr 1
  induction pieces generalizing crc with
  | nil => rfl
  | cons p ps ih => simp only [List.foldl_cons, List.flatten_cons, ih, add, List.foldl_append]

/-- The value always fits 64 bits. -/
theorem C55_range (crc : Nat) (h : Reachable crc) : value crc < 2 ^ 64 ∧ crc < 2 ^ 64 := by
  obtain ⟨x, rfl⟩ := reachable_toNat crc h
  refine ⟨?_, x.isLt⟩
  unfold value
  rw [mask_eq]
  exact Nat.xor_lt_two_pow (Nat.mod_lt _ (by decide)) (by decide)

/-- Resuming from a value returned before gives the same as going on. -/
theorem C55_resume (crc : Nat) (h : Reachable crc) (data : List Nat) :
    value (add (init (some (value crc))) data) = value (add crc data) := by
  obtain ⟨h1, h2⟩ := C55_range crc h
  have : init (some (value crc : Int)) = crc := by
    unfold init
    have e : ((value crc : Int) % 2 ^ 64).toNat = value crc := by omega
    simp only [e]
    unfold value
    rw [mask_eq, Nat.mod_eq_of_lt h2, Nat.xor_assoc, Nat.xor_self, Nat.xor_zero]
  rw [this]

/-- Altering up to 8 consecutive bytes changes the value. -/
theorem C55_altered (crc : Nat) (h : Reachable crc) (before w w' after : List Nat) (hl : w.length = w'.length) (h8 : w.length ≤ 8)
    (hb : ∀ b ∈ w, b < 256) (hb' : ∀ b ∈ w', b < 256) (hne : w ≠ w') :
    value (add crc (before ++ w ++ after)) ≠ value (add crc (before ++ w' ++ after)) := by
  intro hv
  obtain ⟨x, rfl⟩ := reachable_toNat crc h
  rw [add_toNat, add_toNat] at hv
  have hinj : ∀ a b : BitVec 64, value a.toNat = value b.toNat → a = b := by
    intro a b hab
    unfold value at hab
    rw [mask_eq, mask_eq, Nat.mod_eq_of_lt a.isLt, Nat.mod_eq_of_lt b.isLt] at hab
    have := congrArg (· ^^^ mask64) hab
    simp only [Nat.xor_assoc, Nat.xor_self, Nat.xor_zero] at this
    exact BitVec.eq_of_toNat_eq this
  have h1 := hinj _ _ hv
  simp only [List.map_append, List.foldl_append] at h1
  have h2 := foldl_inj _ _ _ h1
  rw [foldl_packed (w.map _) (by simp [h8]), foldl_packed (w'.map _) (by simp [← hl, h8]), List.length_map, List.length_map, ← hl] at h2
  have h3 := bitsV_inj _ h2
  have h4 : packed (w.map (BitVec.ofNat 8)) = packed (w'.map (BitVec.ofNat 8)) := by
    have := congrArg (fun u => ((before.map (BitVec.ofNat 8)).foldl byteV x) ^^^ u) h3
    simpa only [← BitVec.xor_assoc, BitVec.xor_self, BitVec.zero_xor] using this
  have h5 := packed_inj _ _ (by simp [hl]) (by simp [h8]) h4
  apply hne
  have back : ∀ l : List Nat, (∀ b ∈ l, b < 256) → (l.map (BitVec.ofNat 8)).map BitVec.toNat = l := by
    intro l hl
    rw [List.map_map]
    conv => rhs; rw [← List.map_id l]
    apply List.map_congr_left
    intro b hb
    simp only [Function.comp, BitVec.toNat_ofNat, id_eq]
    exact Nat.mod_eq_of_lt (hl b hb)
  rw [← back w hb, ← back w' hb', h5]

/-- The check value in the source (signature.py:72-76), in two pieces; and resuming after the first. -/
example : value ([[49, 50, 51], [52, 53, 54, 55, 56, 57]].foldl add (init none)) = 0x62EC59E3F1A4F00A ∧
    value (add (init (some (compute [49, 50, 51]))) [52, 53, 54, 55, 56, 57]) = 0x62EC59E3F1A4F00A := by decide +kernel

example : Reachable (add (init (some (-1))) [1, 2]) := ⟨_, _, rfl⟩

end Signature
end Dronecan
