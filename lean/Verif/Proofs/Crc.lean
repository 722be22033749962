import Verif.Model.Crc
import Verif.Proofs.Bits

/-! Helper lemmas about the transfer CRC: linearity, bit-serial form, injectivity, parity. -/

namespace Dronecan

theorem and_msb (x : BitVec 16) : (x &&& 0x8000#16 ≠ 0#16) ↔ x.getLsbD 15 = true := by
  constructor
  · intro h
    cases hx : x.getLsbD 15 with
    | true => rfl
    | false =>
      exfalso; apply h
      apply BitVec.eq_of_getLsbD_eq
      intro i hi
      have : (0x8000#16).getLsbD i = decide (i = 15) := by
        revert i; decide
      rw [BitVec.getLsbD_and, this]
      by_cases h15 : i = 15
      · subst h15; rw [hx]; rfl
      · simp [h15]
  · intro h h0
    have := congrArg (fun y => y.getLsbD 15) h0
    simp only [BitVec.getLsbD_and, h] at this
    exact absurd this (by decide)

theorem crcBit_eq (x : BitVec 16) :
    crcBit x = if x.getLsbD 15 then (x <<< 1) ^^^ 0x1021#16 else x <<< 1 := by
  unfold crcBit
  by_cases h : x.getLsbD 15 = true
  · rw [if_pos ((and_msb x).2 h), if_pos h]
  · rw [if_neg (fun hh => h ((and_msb x).1 hh)), if_neg h]

theorem shl_xor (x y : BitVec 16) : (x ^^^ y) <<< 1 = (x <<< 1) ^^^ (y <<< 1) := by
  apply BitVec.eq_of_getLsbD_eq
  intro i hi
  simp only [BitVec.getLsbD_shiftLeft, BitVec.getLsbD_xor]
  by_cases h : i < 1 <;> simp [h, hi]

/-- Linearity of one CRC step. -/
theorem crcBit_xor (x y : BitVec 16) : crcBit (x ^^^ y) = crcBit x ^^^ crcBit y := by
  rw [crcBit_eq, crcBit_eq, crcBit_eq, BitVec.getLsbD_xor, shl_xor]
  generalize x <<< 1 = a
  generalize y <<< 1 = b
  generalize 0x1021#16 = c
  have hcc : ∀ u : BitVec 16, u ^^^ u = 0#16 := fun u => BitVec.xor_self
  cases x.getLsbD 15 <;> cases y.getLsbD 15 <;> simp
  · rw [BitVec.xor_assoc]
  · rw [BitVec.xor_assoc, BitVec.xor_assoc, BitVec.xor_comm b c]
  · rw [BitVec.xor_assoc a c, BitVec.xor_comm b c, ← BitVec.xor_assoc c c, hcc, BitVec.zero_xor]

@[simp] theorem crcBit_zero : crcBit 0#16 = 0#16 := by decide

theorem crcBit_eq_zero (x : BitVec 16) (h : crcBit x = 0#16) : x = 0#16 := by
  rw [crcBit_eq] at h
  cases hx : x.getLsbD 15 with
  | true =>
    rw [hx, if_pos rfl] at h
    have := congrArg (fun y => y.getLsbD 0) h
    simp at this
  | false =>
    rw [hx] at h
    simp only [Bool.false_eq_true, if_false] at h
    apply BitVec.eq_of_getLsbD_eq
    intro i hi
    rw [BitVec.getLsbD_zero]
    by_cases h15 : i = 15
    · subst h15; exact hx
    · have := congrArg (fun y => y.getLsbD (i + 1)) h
      simp only [BitVec.getLsbD_shiftLeft, BitVec.getLsbD_zero] at this
      simpa [show i + 1 < 16 by omega] using this

theorem xor_eq_zero {x y : BitVec 16} (h : x ^^^ y = 0#16) : x = y := by
  have := congrArg (fun u => u ^^^ y) h
  simpa [BitVec.xor_assoc] using this

theorem crcBit_inj {x y : BitVec 16} (h : crcBit x = crcBit y) : x = y := by
  apply xor_eq_zero
  apply crcBit_eq_zero
  rw [crcBit_xor, h, BitVec.xor_self]

theorem crcBits_xor (n : Nat) (x y : BitVec 16) : crcBits n (x ^^^ y) = crcBits n x ^^^ crcBits n y := by
  induction n generalizing x y with
  | zero => rfl
  | succ n ih => simp only [crcBits, crcBit_xor, ih]

@[simp] theorem crcBits_zero (n : Nat) : crcBits n 0#16 = 0#16 := by
  induction n with
  | zero => rfl
  | succ n ih => simp only [crcBits, crcBit_zero, ih]

theorem crcBits_inj (n : Nat) {x y : BitVec 16} (h : crcBits n x = crcBits n y) : x = y := by
  induction n generalizing x y with
  | zero => exact h
  | succ n ih => exact crcBit_inj (ih h)

theorem crcBits_add (m n : Nat) (x : BitVec 16) : crcBits (m + n) x = crcBits n (crcBits m x) := by
  induction m generalizing x with
  | zero => simp [crcBits]
  | succ m ih => rw [Nat.succ_add]; simp only [crcBits]; exact ih _

/-- A single bit placed at the top of the CRC register. -/
def topBit (b : Bool) : BitVec 16 := if b then 0x8000#16 else 0#16

/-- The textbook bit-serial CRC step: feed one message bit. -/
def crcSerial (crc : BitVec 16) (b : Bool) : BitVec 16 := crcBit (crc ^^^ topBit b)

/-- Bits left-justified in a 16-bit word. -/
def topWord : Bits → BitVec 16
  | [] => 0#16
  | b :: bs => topBit b ^^^ (topWord bs >>> 1)

theorem topWord_lsb (bs : Bits) (i : Nat) (h : i + bs.length < 16) : (topWord bs).getLsbD i = false := by
  induction bs generalizing i with
  | nil => simp [topWord]
  | cons b bs ih =>
    simp only [List.length_cons] at h
    simp only [topWord, BitVec.getLsbD_xor, BitVec.getLsbD_ushiftRight]
    rw [ih (1 + i) (by omega)]
    cases b
    · simp [topBit]
    · have : ∀ i : Fin 15, (0x8000#16).getLsbD i = false := by decide
      simpa [topBit] using this ⟨i, by omega⟩

theorem crcBit_shr (x : BitVec 16) (h : x.getLsbD 0 = false) : crcBit (x >>> 1) = x := by
  rw [crcBit_eq]
  have h15 : (x >>> 1).getLsbD 15 = false := by simp
  rw [h15]
  simp only [Bool.false_eq_true, if_false]
  apply BitVec.eq_of_getLsbD_eq
  intro i hi
  simp only [BitVec.getLsbD_shiftLeft, BitVec.getLsbD_ushiftRight]
  by_cases h0 : i = 0
  · subst h0; rw [h]; rfl
  · simp [hi, show ¬ i < 1 by omega, show 1 + (i - 1) = i by omega]

/-- Feeding up to 16 bits at once equals feeding them one by one. -/
theorem crcBits_topWord (bs : Bits) (c : BitVec 16) (h : bs.length ≤ 16) :
    crcBits bs.length (c ^^^ topWord bs) = bs.foldl crcSerial c := by
  induction bs generalizing c with
  | nil => simp [crcBits, topWord]
  | cons b bs ih =>
    simp only [List.length_cons] at h
    simp only [List.length_cons, crcBits, topWord, List.foldl_cons]
    rw [← ih _ (by omega), ← BitVec.xor_assoc, crcBit_xor,
      crcBit_shr _ (topWord_lsb bs 0 (by omega))]
    rfl

theorem topWord_byte (b : Byte) : topWord (bitsBE 8 b.toNat) = b.setWidth 16 <<< 8 := by
  apply BitVec.eq_of_getLsbD_eq
  intro i hi
  have key : ∀ b : Byte, topWord (bitsBE 8 b.toNat) = b.setWidth 16 <<< 8 := by
    intro b
    obtain ⟨⟨n, hn⟩⟩ := b
    have : ∀ k : Fin 256, topWord (bitsBE 8 (BitVec.ofFin k : Byte).toNat) = (BitVec.ofFin k : Byte).setWidth 16 <<< 8 := by
      decide +kernel
    exact this ⟨n, hn⟩
  rw [key]

/-- The byte-wise CRC equals the bit-serial CRC over the bits of the bytes, most significant first. -/
theorem crc16_serial (init : BitVec 16) (bytes : List Byte) :
    crc16 init bytes = (bitsFromBytes bytes).foldl crcSerial init := by
  unfold crc16
  induction bytes generalizing init with
  | nil => rfl
  | cons b bs ih =>
    rw [List.foldl_cons, bitsFromBytes_cons, List.foldl_append, ih]
    congr 1
    rw [← crcBits_topWord _ _ (by simp), topWord_byte]
    simp [crcByte]

theorem serial_zero (c : BitVec 16) (k : Nat) : (List.replicate k false).foldl crcSerial c = crcBits k c := by
  induction k generalizing c with
  | zero => rfl
  | succ k ih =>
    rw [List.replicate_succ, List.foldl_cons, ih]
    simp [crcBits, crcSerial, topBit]

theorem topBit_xor (a b : Bool) : topBit (a ^^ b) = topBit a ^^^ topBit b := by
  cases a <;> cases b <;> decide

/-- Linearity of the bit-serial CRC. -/
theorem serial_xor (s t : Bits) (h : s.length = t.length) (c d : BitVec 16) :
    (List.zipWith (· ^^ ·) s t).foldl crcSerial (c ^^^ d)
      = s.foldl crcSerial c ^^^ t.foldl crcSerial d := by
  induction s generalizing t c d with
  | nil => cases t <;> simp_all
  | cons a s ih =>
    cases t with
    | nil => simp at h
    | cons b t =>
      simp only [List.zipWith_cons_cons, List.foldl_cons]
      have : crcSerial (c ^^^ d) (a ^^ b) = crcSerial c a ^^^ crcSerial d b := by
        unfold crcSerial
        rw [← crcBit_xor, topBit_xor]
        congr 1
        simp only [BitVec.xor_assoc]
        congr 1
        rw [← BitVec.xor_assoc, BitVec.xor_comm d, BitVec.xor_assoc]
      rw [this]
      exact ih t (by simpa using h) _ _

theorem topWord_ne_zero (bs : Bits) (hl : bs.length ≤ 16) (h : true ∈ bs) : topWord bs ≠ 0#16 := by
  induction bs with
  | nil => simp at h
  | cons b bs ih =>
    simp only [List.length_cons] at hl
    intro h0
    cases b with
    | true =>
      have := congrArg (fun y => y.getLsbD 15) h0
      simp [topWord, topBit] at this
    | false =>
      have hm : true ∈ bs := by simpa using h
      apply ih (by omega) hm
      simp only [topWord, topBit, Bool.false_eq_true, if_false, BitVec.zero_xor] at h0
      rw [← crcBit_shr (topWord bs) (topWord_lsb bs 0 (by omega)), h0]
      decide

/-- Parity of a 16-bit word. -/
def parity (x : BitVec 16) : Bool := (List.range 16).foldl (fun a i => a ^^ x.getLsbD i) false

theorem parity_xor (x y : BitVec 16) : parity (x ^^^ y) = (parity x ^^ parity y) := by
  have : ∀ (l : List Nat) (a b : Bool),
      l.foldl (fun a i => a ^^ (x ^^^ y).getLsbD i) (a ^^ b)
        = (l.foldl (fun a i => a ^^ x.getLsbD i) a ^^ l.foldl (fun a i => a ^^ y.getLsbD i) b) := by
    intro l
    induction l with
    | nil => intro a b; rfl
    | cons i l ih =>
      intro a b
      simp only [List.foldl_cons, BitVec.getLsbD_xor]
      rw [← ih]
      have e : (a ^^ b ^^ (x.getLsbD i ^^ y.getLsbD i)) = (a ^^ x.getLsbD i ^^ (b ^^ y.getLsbD i)) := by
        cases a <;> cases b <;> cases x.getLsbD i <;> cases y.getLsbD i <;> rfl
      rw [e]; simp only [BitVec.getLsbD_xor]
  exact this _ false false

theorem parity_shl (x : BitVec 16) : parity (x <<< 1) = (parity x ^^ x.getLsbD 15) := by
  simp only [parity, List.range, List.range.loop, List.foldl_cons, List.foldl_nil, BitVec.getLsbD_shiftLeft]
  simp

theorem parity_crcBit (x : BitVec 16) : parity (crcBit x) = parity x := by
  rw [crcBit_eq]
  have hp : parity 0x1021#16 = true := by decide
  cases h : x.getLsbD 15
  · rw [if_neg (by simp), parity_shl, h, Bool.xor_false]
  · rw [if_pos rfl, parity_xor, parity_shl, h, hp]; simp

theorem parity_topBit (b : Bool) : parity (topBit b) = b := by cases b <;> decide

theorem parity_serial (s : Bits) (c : BitVec 16) :
    parity (s.foldl crcSerial c) = (parity c ^^ decide (s.count true % 2 = 1)) := by
  induction s generalizing c with
  | nil => simp
  | cons b s ih =>
    rw [List.foldl_cons, ih, crcSerial, parity_crcBit, parity_xor, parity_topBit, Bool.xor_assoc]
    congr 1
    cases b
    · simp
    · simp only [List.count_cons_self, Bool.true_xor]
      by_cases h : s.count true % 2 = 1
      · simp [h, show ¬ (s.count true + 1) % 2 = 1 by omega]
      · simp [h, show (s.count true + 1) % 2 = 1 by omega]

end Dronecan
