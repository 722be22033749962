import Verif.Spec.Display
import Verif.Props.Float16
import Verif.Proofs.Bits

/-!
# Primitive values and lists in the representations
-/

namespace Dronecan
namespace Display

open Text Float16 YamlSpec

theorem bitsNat_eq (bits : Bits) : bitsNat bits = natOfBits bits := by
  induction bits with
  | nil => rfl
  | cons b bs ih => rw [natOfBits_cons, bitsNat, ih]

theorem bitsNat_lt (bits : Bits) : bitsNat bits < 2 ^ bits.length := bitsNat_eq bits ▸ natOfBits_lt bits

theorem bitsInt_eq (bits : Bits) (h : bits ≠ []) : bitsInt bits =
    if bitsNat bits ≥ 2 ^ (bits.length - 1) then -(2 ^ bits.length - (bitsNat bits : Int)) else bitsNat bits := by
  cases bits with
  | nil => exact absurd rfl h
  | cons b bs =>
    have := bitsNat_lt bs
    simp only [bitsInt, bitsNat, List.length_cons, Nat.add_sub_cancel]
    cases b
    · simp; omega
    · simp
      rw [Int.pow_succ]
      omega

theorem bitsNat_any (bits : Bits) : bits.any id = decide (bitsNat bits ≠ 0) := by
  induction bits with
  | nil => rfl
  | cons b bs ih =>
    simp only [List.any_cons, bitsNat, ih, id]
    cases b
    · simp
    · have := Nat.two_pow_pos bs.length
      simp

theorem ieee16 (u : Nat) (h : u < 2 ^ 16) : ieee 5 10 u = half u := by
  unfold ieee half halfMag
  simp only [show (2 : Nat) ^ (5 + 10) = 32768 by decide, show (2 : Nat) ^ 10 = 1024 by decide, show (2 : Nat) ^ 5 - 1 = 31 by decide,
    show u % 32768 % 1024 = u % 1024 by omega]
  by_cases h1 : u % 32768 / 1024 = 31
  · rw [if_pos h1, if_neg (show ¬ u % 32768 < 31744 by omega)]
    by_cases h2 : u % 1024 = 0
    · rw [if_pos h2, if_pos (by omega)]
    · rw [if_neg h2, if_neg (by omega)]
  · rw [if_neg h1, if_pos (show u % 32768 < 31744 by omega)]
    by_cases h3 : u % 32768 / 1024 = 0
    · rw [if_pos h3, if_pos h3]; rfl
    · rw [if_neg h3, if_neg h3]
      congr 3
      omega

theorem ieee32 (u : Nat) (h : u < 2 ^ 32) : ieee 8 23 u = unpack32 u := by
  have hneg : u.testBit 31 = decide (2 ^ (8 + 23) ≤ u) := by
    rw [Nat.testBit_eq_decide_div_mod_eq]
    congr 1
    apply propext
    omega
  unfold ieee unpack32 value32
  rw [hneg]
  simp only [show (2 : Nat) ^ (8 + 23) = 2147483648 by decide, show (2 : Nat) ^ 31 = 2147483648 by decide, show (2 : Nat) ^ 23 = 8388608 by decide, show (2 : Nat) ^ 8 - 1 = 255 by decide,
    show 255 <<< 23 = 2139095040 by decide, show u % 2147483648 % 8388608 = u % 8388608 by omega]
  by_cases h1 : u % 2147483648 / 8388608 = 255
  · rw [if_pos h1, if_neg (show ¬ u % 2147483648 < 2139095040 by omega)]
    by_cases h2 : u % 8388608 = 0
    · rw [if_pos h2, if_pos (by omega)]
    · rw [if_neg h2, if_neg (by omega)]
  · rw [if_neg h1, if_pos (show u % 2147483648 < 2139095040 by omega)]
    by_cases h3 : u % 2147483648 / 8388608 = 0
    · rw [if_pos h3, if_pos h3]; rfl
    · rw [if_neg h3, if_neg h3]
      congr 3
      omega

theorem ieee64 (u : Nat) (h : u < 2 ^ 64) : ieee 11 52 u = unpack64 u := by
  have hneg : u.testBit 63 = decide (2 ^ (11 + 52) ≤ u) := by
    rw [Nat.testBit_eq_decide_div_mod_eq]
    congr 1
    apply propext
    omega
  unfold ieee unpack64 value64
  rw [hneg]
  simp only [show (2 : Nat) ^ (11 + 52) = 9223372036854775808 by decide, show (2 : Nat) ^ 63 = 9223372036854775808 by decide, show (2 : Nat) ^ 52 = 4503599627370496 by decide,
    show (2 : Nat) ^ 11 - 1 = 2047 by decide,
    show 2047 <<< 52 = 9218868437227405312 by decide, show u % 9223372036854775808 % 4503599627370496 = u % 4503599627370496 by omega]
  by_cases h1 : u % 9223372036854775808 / 4503599627370496 = 2047
  · rw [if_pos h1, if_neg (show ¬ u % 9223372036854775808 < 9218868437227405312 by omega)]
    by_cases h2 : u % 4503599627370496 = 0
    · rw [if_pos h2, if_pos (by omega)]
    · rw [if_neg h2, if_neg (by omega)]
  · rw [if_neg h1, if_pos (show u % 9223372036854775808 < 9218868437227405312 by omega)]
    by_cases h3 : u % 9223372036854775808 / 4503599627370496 = 0
    · rw [if_pos h3, if_pos h3]; rfl
    · rw [if_neg h3, if_neg h3]
      congr 3
      omega

/-- The Python value says what the bits are. -/
def PyMeans (p : PrimTy) (bits : Bits) (x : Py) : Prop :=
  match p.kind with
  | .boolean => x = .bool (bits.any id)
  | .unsigned => x = .int (bitsNat bits)
  | .signed => x = .int (bitsInt bits)
  | .float => ∃ f, floatOf bits = some f ∧ x = .flt f

theorem primValue_means (p : PrimTy) (bits : Bits) (hw : WfN (.prim p) = true) (hb : bits.length = p.bitlen) :
    ∃ x, primValue p bits = .ok x ∧ PyMeans p bits x := by
  simp only [WfN, Bool.and_eq_true, decide_eq_true_eq] at hw
  obtain ⟨h0, hk⟩ := hw
  have hne : bits ≠ [] := by rintro rfl; simp at hb; omega
  unfold primValue PyMeans
  rw [if_neg hne]
  have hlt := natOfBits_lt bits
  have hlt' := hb ▸ hlt
  cases hkind : p.kind <;> rw [hkind] at hk <;> simp only [hkind]
  · exact ⟨_, rfl, by rw [bitsNat_any, bitsNat_eq]⟩
  · exact ⟨_, rfl, by rw [bitsNat_eq]⟩
  · exact ⟨_, rfl, by rw [bitsInt_eq _ hne, bitsNat_eq, hb]⟩
  · simp only [Bool.or_eq_true, beq_iff_eq] at hk
    rcases hk with (hk | hk) | hk
    · rw [if_pos hk, C59_decode _ (by rw [hk] at hlt'; exact hlt')]
      exact ⟨_, rfl, _, by rw [floatOf, if_pos (by omega), bitsNat_eq, ieee16 _ (by rw [hk] at hlt'; exact hlt')], rfl⟩
    · rw [if_neg (by omega), if_pos hk]
      exact ⟨_, rfl, _, by rw [floatOf, if_neg (by omega), if_pos (by omega), bitsNat_eq, ieee32 _ (by rw [hk] at hlt'; exact hlt')], rfl⟩
    · rw [if_neg (by omega), if_neg (by omega), if_pos hk]
      exact ⟨_, rfl, _, by rw [floatOf, if_neg (by omega), if_neg (by omega), if_pos (by omega), bitsNat_eq, ieee64 _ (by rw [hk] at hlt'; exact hlt')], rfl⟩

theorem itemValue_means (p : PrimTy) (bits : Bits) (hw : WfN (.prim p) = true) (hb : bits.length = p.bitlen) :
    ∃ x, itemValue p (.prim bits) = .ok x ∧ PyMeans p bits x := by
  have hne : bits ≠ [] := by
    rintro rfl
    simp only [WfN, Bool.and_eq_true, decide_eq_true_eq] at hw
    simp at hb
    omega
  simp only [itemValue, if_neg hne]
  exact primValue_means p bits hw hb

/-- An item of an array of primitives. -/
theorem prim_item (p : PrimTy) (v : Val) (h : hasTy (NTy.prim p).ty v = true) : ∃ bits, v = .prim bits ∧ bits.length = p.bitlen := by
  cases v <;> simp [NTy.ty, hasTy] at h
  exact ⟨_, rfl, h⟩

/-- A function on every element of a list: it succeeds on the good ones, it raises `e` on the others. -/
theorem mapM_each {α β : Type} (f : α → Except Err β) (R : α → β → Prop) (good : α → Bool) (e : Err) (l : List α)
    (h : ∀ a ∈ l, cond (good a) (∃ b, f a = .ok b ∧ R a b) (f a = .error e)) :
    cond (l.all good) (∃ bs, l.mapM f = .ok bs ∧ Each R l bs) (l.mapM f = .error e) := by
  induction l with
  | nil => exact ⟨[], rfl, .nil⟩
  | cons a l ih =>
    have ha := h a (by simp)
    have ih := ih fun x hx => h x (by simp [hx])
    rw [List.mapM_cons, List.all_cons]
    cases hg : good a
    · rw [hg] at ha
      have ha : f a = .error e := ha
      rw [ha]
      rfl
    · rw [hg] at ha
      obtain ⟨b, hb, hr⟩ := ha
      rw [hb]
      cases hl : l.all good
      · rw [hl] at ih
        have ih : l.mapM f = .error e := ih
        rw [ih]
        rfl
      · rw [hl] at ih
        obtain ⟨bs, hbs, hrs⟩ := ih
        rw [hbs]
        exact ⟨b :: bs, rfl, .cons hr hrs⟩

theorem Each.imp {α β : Type} {R S : α → β → Prop} {l : List α} {m : List β} (h : Each R l m) (hi : ∀ a ∈ l, ∀ b, R a b → S a b) : Each S l m := by
  induction h with
  | nil => exact .nil
  | cons hr _ ih => exact .cons (hi _ (by simp) _ hr) (ih fun a ha b hb => hi a (by simp [ha]) b hb)

end Display
end Dronecan
