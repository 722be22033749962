import Verif.Model.ConstExpr
import Verif.Props.Meaning
import Verif.Proofs.FlMono
import Verif.Proofs.Float16
import Verif.Proofs.FloatFormat

/-!
# Literal constants (C143)
-/

namespace Dronecan
namespace Parser

open Text Float16 FloatField

/-! ## Specification -/

/-- Digits that may be missing. -/
inductive Part : Str → Nat → Prop where
  | missing : Part [] 0
  | digits (s : Str) (n : Nat) : Digits 10 s n → Part s n

/-- The number of digits, not counting underscores. -/
inductive HowMany : Str → Nat → Prop where
  | nil : HowMany [] 0
  | underscore (s : Str) (k : Nat) : HowMany s k → HowMany ('_' :: s) k
  | digit (c : Char) (s : Str) (k : Nat) : c ≠ '_' → HowMany s k → HowMany (c :: s) (k + 1)

/-- Digits with a decimal point somewhere, and their value. -/
inductive Pointed : Str → Rat → Prop where
  | mk (a b : Str) (n m k : Nat) : Part a n → Part b m → a ≠ [] ∨ b ≠ [] → HowMany b k → Pointed (a ++ '.' :: b) (n + m / 10 ^ k)

/-- An exponent. -/
inductive Exponent : Str → Int → Prop where
  | plain (s : Str) (n : Nat) : Digits 10 s n → Exponent s n
  | plus (s : Str) (n : Nat) : Digits 10 s n → Exponent ('+' :: s) n
  | minus (s : Str) (n : Nat) : Digits 10 s n → Exponent ('-' :: s) (-(n : Int))

/-- Decimal numbers with a point or an exponent or both. -/
inductive Decimal : Str → Rat → Prop where
  | point (s : Str) (q : Rat) : Pointed s q → Decimal s q
  | pointExp (s : Str) (q : Rat) (e : Char) (t : Str) (x : Int) : Pointed s q → e = 'e' ∨ e = 'E' → Exponent t x →
      Decimal (s ++ e :: t) (q * (10 : Rat) ^ x)
  | exp (s : Str) (n : Nat) (e : Char) (t : Str) (x : Int) : Digits 10 s n → e = 'e' ∨ e = 'E' → Exponent t x →
      Decimal (s ++ e :: t) (n * (10 : Rat) ^ x)

/-- With an optional sign. -/
inductive FloatLiteral : Str → Rat → Prop where
  | plain (s : Str) (q : Rat) : Decimal s q → FloatLiteral s q
  | plus (s : Str) (q : Rat) : Decimal s q → FloatLiteral ('+' :: s) q
  | minus (s : Str) (q : Rat) : Decimal s q → FloatLiteral ('-' :: s) (-q)

/-- The escape sequences. -/
inductive Escape : Char → Nat → Prop where
  | n : Escape 'n' 10
  | t : Escape 't' 9
  | r : Escape 'r' 13
  | zero : Escape '0' 0
  | a : Escape 'a' 7
  | b : Escape 'b' 8
  | f : Escape 'f' 12
  | v : Escape 'v' 11
  | backslash : Escape '\\' 92
  | single : Escape '\'' 39
  | double : Escape '"' 34

/-- A character in quotation marks, and its code. -/
inductive CharLiteral : Str → Nat → Prop where
  | plain (q c : Char) : q = '\'' ∨ q = '"' → c ≠ q → c ≠ '\\' → c.toNat ≠ 0 → CharLiteral [q, c, q] c.toNat
  | escape (q e : Char) (n : Nat) : q = '\'' ∨ q = '"' → Escape e n → CharLiteral [q, '\\', e, q] n

/-- The texts that mean an integer. -/
inductive Whole : Str → Int → Prop where
  | yes : Whole (lit "true") 1
  | no : Whole (lit "false") 0
  | int (s : Str) (n : Int) : IntLiteral s n → Whole s n
  | char (s : Str) (n : Nat) : CharLiteral s n → Whole s n

/-- What a literal says. -/
inductive Written : Str → Rat → Prop where
  | whole (s : Str) (n : Int) : Whole s n → Written s n
  | decimal (s : Str) (q : Rat) : FloatLiteral s q → Written s q

/-- The number that a constant is. -/
def ConstVal.num : ConstVal → Rat
  | .int n => n
  | .flt q => q

/-- The literal in a type: the number itself in integer types, the nearest double in floating point types. -/
def represented (k : Kind) (q : Rat) : Rat := if k = .float then fl q else q

/-! ## The readers of literals -/

theorem digits_chars {base : Nat} {s : Str} {n : Nat} (h : Digits base s n) : ∀ c ∈ s, c = '_' ∨ ∃ d, digitVal c = some d ∧ d < base := by
  induction h with
  | one c d h1 h2 =>
    intro x hx
    simp only [List.mem_singleton] at hx
    subst hx
    exact .inr ⟨d, h1, h2⟩
  | more s n c d _ h1 h2 ih =>
    intro x hx
    rcases List.mem_append.1 hx with hx | hx
    · exact ih x hx
    · simp only [List.mem_singleton] at hx
      subst hx
      exact .inr ⟨d, h1, h2⟩
  | underscore s n c d _ h1 h2 ih =>
    intro x hx
    rcases List.mem_append.1 hx with hx | hx
    · exact ih x hx
    · simp only [List.mem_cons, List.not_mem_nil, or_false] at hx
      rcases hx with rfl | rfl
      · exact .inl rfl
      · exact .inr ⟨d, h1, h2⟩

theorem digits_ne {base : Nat} {n : Nat} (h : Digits base [] n) : False := by
  obtain ⟨_, _, _, he, _⟩ := digits_head _ _ _ h
  cases he

/-- A character that is no digit and no underscore. -/
def NoDigit (x : Char) : Prop := x ≠ '_' ∧ ∀ d, digitVal x = some d → ¬ d < 10

theorem not_digit {s : Str} {n : Nat} (h : Digits 10 s n) (x : Char) (hx : NoDigit x) : x ∉ s := by
  intro hm
  rcases digits_chars h x hm with rfl | ⟨d, h1, h2⟩
  · exact hx.1 rfl
  · exact hx.2 d h1 h2

theorem noDigit_of (x : Char) (h1 : x ≠ '_') (h2 : digit 10 x = none) : NoDigit x := by
  refine ⟨h1, fun d hd hlt => ?_⟩
  rw [(digit_some 10 x d).2 ⟨hd, hlt⟩] at h2
  cases h2

theorem cut_none (p : Char → Bool) (s a : Str) : cut p s = (a, none) ↔ s = a ∧ ∀ c ∈ a, p c = false := by
  induction s generalizing a with
  | nil =>
    simp only [cut, Prod.mk.injEq, and_true]
    constructor
    · rintro rfl; exact ⟨rfl, by simp⟩
    · exact fun h => h.1
  | cons c cs ih =>
    simp only [cut]
    by_cases hc : p c = true
    · rw [if_pos hc]
      constructor
      · intro h; cases h
      · rintro ⟨rfl, h⟩
        have := h c (by simp)
        rw [hc] at this
        cases this
    · rw [if_neg hc]
      constructor
      · intro h
        injection h with h1 h2
        obtain ⟨h3, h4⟩ := (ih (cut p cs).1).1 (Prod.ext rfl h2)
        refine ⟨by rw [← h1, ← h3], ?_⟩
        intro x hx
        rw [← h1] at hx
        rcases List.mem_cons.1 hx with rfl | hx
        · simpa using hc
        · exact h4 x hx
      · rintro ⟨rfl, h⟩
        have := (ih cs).2 ⟨rfl, fun x hx => h x (List.mem_cons_of_mem _ hx)⟩
        rw [this]

theorem cut_some (p : Char → Bool) (s a b : Str) : cut p s = (a, some b) ↔ ∃ c, p c = true ∧ s = a ++ c :: b ∧ ∀ x ∈ a, p x = false := by
  induction s generalizing a with
  | nil =>
    simp only [cut, Prod.mk.injEq]
    constructor
    · rintro ⟨_, h⟩; cases h
    · rintro ⟨c, _, h, _⟩
      cases a <;> cases h
  | cons c cs ih =>
    simp only [cut]
    by_cases hc : p c = true
    · rw [if_pos hc]
      constructor
      · intro h
        injection h with h1 h2
        injection h2 with h2
        subst h1 h2
        exact ⟨c, hc, rfl, by simp⟩
      · rintro ⟨x, hx, he, ha⟩
        cases a with
        | nil => injection he with h1 h2; rw [h2]
        | cons y ys =>
          injection he with h1 h2
          subst h1
          have := ha c (by simp)
          rw [hc] at this
          cases this
    · rw [if_neg hc]
      constructor
      · intro h
        injection h with h1 h2
        obtain ⟨x, hx, he, ha⟩ := (ih (cut p cs).1).1 (Prod.ext rfl h2)
        refine ⟨x, hx, ?_, ?_⟩
        · rw [← h1, List.cons_append, ← he]
        · intro y hy
          rw [← h1] at hy
          rcases List.mem_cons.1 hy with rfl | hy
          · simpa using hc
          · exact ha y hy
      · rintro ⟨x, hx, he, ha⟩
        cases a with
        | nil => injection he with h1 h2; subst h1; exact absurd hx hc
        | cons y ys =>
          injection he with h1 h2
          subst h1
          have := (ih ys).2 ⟨x, hx, h2, fun z hz => ha z (List.mem_cons_of_mem _ hz)⟩
          rw [this]

theorem part_iff (s : Str) (n : Nat) : part s = some n ↔ Part s n := by
  unfold part
  constructor
  · intro h
    split at h
    · rename_i hs; subst hs; injection h with h; subst h; exact .missing
    · exact .digits _ _ ((digits_iff _ _ _).1 h)
  · intro h
    cases h with
    | missing => rfl
    | digits _ _ h =>
      rw [if_neg]
      · exact (digits_iff _ _ _).2 h
      · rintro rfl; exact digits_ne h

theorem part_not {s : Str} {n : Nat} (h : Part s n) (x : Char) (hx : NoDigit x) : x ∉ s := by
  cases h with
  | missing => simp
  | digits _ _ h => exact not_digit h x hx

theorem howMany (s : Str) : HowMany s (digitCount s) := by
  induction s with
  | nil => exact .nil
  | cons c cs ih =>
    by_cases hc : c = '_'
    · subst hc
      have : digitCount ('_' :: cs) = digitCount cs := by simp [digitCount]
      rw [this]
      exact .underscore _ _ ih
    · have : digitCount (c :: cs) = digitCount cs + 1 := by simp [digitCount, hc]
      rw [this]
      exact .digit _ _ _ hc ih

theorem howMany_eq {s : Str} {k : Nat} (h : HowMany s k) : k = digitCount s := by
  induction h with
  | nil => rfl
  | underscore s k _ ih => simp [digitCount, ih]
  | digit c s k hc _ ih => simp [digitCount, hc, ih]

theorem noDigit_point : NoDigit '.' := noDigit_of _ (by decide) (by decide)
theorem noDigit_e : NoDigit 'e' := noDigit_of _ (by decide) (by decide)
theorem noDigit_E : NoDigit 'E' := noDigit_of _ (by decide) (by decide)

theorem ten_pow_ne (k : Nat) : (10 : Rat) ^ k ≠ 0 := by
  have : (0 : Rat) < (10 : Rat) ^ k := Rat.pow_pos (by decide)
  exact Rat.ne_of_gt this

theorem mantissa_value (n m k : Nat) : (((n * 10 ^ k + m : Nat) : Rat)) / 10 ^ k = (n : Rat) + (m : Rat) / 10 ^ k := by
  have h := ten_pow_ne k
  have h1 : (((n * 10 ^ k + m : Nat) : Rat)) = (n : Rat) * 10 ^ k + (m : Rat) := by push_cast; rfl
  rw [h1, Rat.div_def, Rat.div_def, Rat.add_mul, Rat.mul_assoc, Rat.mul_inv_cancel _ h, Rat.mul_one]

/-- The digits before an exponent. -/
theorem mantissa_iff (s : Str) (v : Rat) : (∃ p, mantissa s = some p ∧ v = (p.1 : Rat) / 10 ^ p.2) ↔ Pointed s v ∨ ∃ n : Nat, Digits 10 s n ∧ v = n := by
  unfold mantissa
  constructor
  · rintro ⟨p, h, rfl⟩
    cases hc : cut (· == '.') s with
    | mk a o =>
      rw [hc] at h
      cases o with
      | none =>
        dsimp only at h
        obtain ⟨he, _⟩ := (cut_none _ _ _).1 hc
        subst he
        cases hd : digits 10 s with
        | none => rw [hd] at h; cases h
        | some n =>
          rw [hd] at h
          simp only [Option.map_some, Option.some.injEq] at h
          subst h
          refine .inr ⟨n, (digits_iff _ _ _).1 hd, ?_⟩
          simp only [Rat.pow_zero, Rat.div_def]
          rw [show (1 : Rat)⁻¹ = 1 by decide +kernel, Rat.mul_one]
      | some b =>
        dsimp only at h
        obtain ⟨c, hcp, he, _⟩ := (cut_some _ _ _ _).1 hc
        have hc' : c = '.' := by simpa using hcp
        subst hc' he
        split at h
        · cases h
        · rename_i hne
          cases ha : part a with
          | none => rw [ha] at h; cases h
          | some n =>
            cases hb : part b with
            | none => rw [ha, hb] at h; cases h
            | some m =>
              rw [ha, hb] at h
              injection h with h
              subst h
              left
              have := Pointed.mk a b n m _ ((part_iff _ _).1 ha) ((part_iff _ _).1 hb)
                (by by_cases h1 : a = [] <;> by_cases h2 : b = [] <;> simp_all) (howMany b)
              rwa [← mantissa_value] at this
  · rintro (h | ⟨n, h, rfl⟩)
    · cases h with
      | mk a b n m k ha hb hne hk =>
        have hcut : cut (· == '.') (a ++ '.' :: b) = (a, some b) := by
          refine (cut_some _ _ _ _).2 ⟨'.', by decide, rfl, fun x hx => ?_⟩
          have := part_not ha '.' noDigit_point
          by_cases hxp : x = '.'
          · subst hxp; exact absurd hx this
          · simpa using hxp
        rw [hcut]
        dsimp only
        rw [if_neg (by rintro ⟨h1, h2⟩; rcases hne with h | h; exact h h1; exact h h2), (part_iff _ _).2 ha, (part_iff _ _).2 hb]
        refine ⟨_, rfl, ?_⟩
        rw [howMany_eq hk]
        exact (mantissa_value _ _ _).symm
    · have hcut : cut (· == '.') s = (s, none) := by
        refine (cut_none _ _ _).2 ⟨rfl, fun x hx => ?_⟩
        have := not_digit h '.' noDigit_point
        by_cases hxp : x = '.'
        · subst hxp; exact absurd hx this
        · simpa using hxp
      rw [hcut]
      dsimp only
      rw [(digits_iff _ _ _).2 h]
      refine ⟨_, rfl, ?_⟩
      simp only [Rat.pow_zero, Rat.div_def]
      rw [show (1 : Rat)⁻¹ = 1 by decide +kernel, Rat.mul_one]

theorem exponent_iff (s : Str) (x : Int) : signed (digits 10) s = some x ↔ Exponent s x := by
  have hsign : ∀ (c : Char) (cs : Str) (n : Nat), NoDigit c → ¬ Digits 10 (c :: cs) n := fun c cs n hc h =>
    not_digit h c hc (by simp)
  have hm : NoDigit '-' := noDigit_of _ (by decide) (by decide)
  have hp : NoDigit '+' := noDigit_of _ (by decide) (by decide)
  unfold signed
  split
  · next cs =>
    constructor
    · intro h
      cases hu : digits 10 cs with
      | none => simp [hu] at h
      | some n =>
        simp only [hu, Option.map_some, Option.some.injEq] at h
        subst h
        exact .minus _ _ ((digits_iff _ _ _).1 hu)
    · intro h
      generalize hw : '-' :: cs = w at h
      cases h with
      | plain _ n h => subst hw; exact absurd h (hsign _ _ _ hm)
      | plus _ n h => simp at hw
      | minus _ n h => cases hw; rw [(digits_iff _ _ _).2 h]; rfl
  · next cs =>
    constructor
    · intro h
      cases hu : digits 10 cs with
      | none => simp [hu] at h
      | some n =>
        simp only [hu, Option.map_some, Option.some.injEq] at h
        subst h
        exact .plus _ _ ((digits_iff _ _ _).1 hu)
    · intro h
      generalize hw : '+' :: cs = w at h
      cases h with
      | plain _ n h => subst hw; exact absurd h (hsign _ _ _ hp)
      | plus _ n h => cases hw; rw [(digits_iff _ _ _).2 h]; rfl
      | minus _ n h => simp at hw
  · next h1 h2 =>
    constructor
    · intro h
      cases hu : digits 10 s with
      | none => simp [hu] at h
      | some n =>
        simp only [hu, Option.map_some, Option.some.injEq] at h
        subst h
        exact .plain _ _ ((digits_iff _ _ _).1 hu)
    · intro h
      cases h with
      | plain _ n h => rw [(digits_iff _ _ _).2 h]; rfl
      | plus cs n h => exact absurd rfl (h2 cs)
      | minus cs n h => exact absurd rfl (h1 cs)

theorem pointed_not {s : Str} {v : Rat} (h : Pointed s v) (x : Char) (hx : NoDigit x) (hp : x ≠ '.') : x ∉ s := by
  cases h with
  | mk a b n m k ha hb _ _ =>
    intro hm
    rcases List.mem_append.1 hm with hm | hm
    · exact part_not ha x hx hm
    · rcases List.mem_cons.1 hm with rfl | hm
      · exact hp rfl
      · exact part_not hb x hx hm

theorem pointed_point {s : Str} {v : Rat} (h : Pointed s v) : '.' ∈ s := by
  cases h with
  | mk a b n m k ha hb _ _ => simp

theorem no_exp {a : Str} (h1 : 'e' ∉ a) (h2 : 'E' ∉ a) : ∀ c ∈ a, (c == 'e' || c == 'E') = false := by
  intro c hc
  by_cases he : c = 'e'
  · subst he; exact absurd hc h1
  · by_cases hE : c = 'E'
    · subst hE; exact absurd hc h2
    · simp [he, hE]

theorem decimalLit_iff (s : Str) (q : Rat) : decimalLit s = some q ↔ Decimal s q := by
  unfold decimalLit
  constructor
  · intro h
    cases hc : cut (fun c => c == 'e' || c == 'E') s with
    | mk a o =>
      rw [hc] at h
      cases o with
      | none =>
        dsimp only at h
        obtain ⟨he, _⟩ := (cut_none _ _ _).1 hc
        subst he
        split at h
        · rename_i hp
          cases hm : mantissa s with
          | none => rw [hm] at h; cases h
          | some p =>
            rw [hm] at h
            simp only [Option.map_some, Option.some.injEq] at h
            subst h
            rcases (mantissa_iff s _).1 ⟨p, hm, rfl⟩ with h | ⟨n, h, _⟩
            · exact .point _ _ h
            · exact absurd hp (not_digit h '.' noDigit_point)
        · cases h
      | some t =>
        dsimp only at h
        obtain ⟨e, hep, he, _⟩ := (cut_some _ _ _ _).1 hc
        have he' : e = 'e' ∨ e = 'E' := by simpa using hep
        subst he
        cases hm : mantissa a with
        | none => rw [hm] at h; cases h
        | some p =>
          cases hx : signed (digits 10) t with
          | none => rw [hm, hx] at h; cases h
          | some x =>
            rw [hm, hx] at h
            injection h with h
            subst h
            rcases (mantissa_iff a _).1 ⟨p, hm, rfl⟩ with h | ⟨n, h, hv⟩
            · exact .pointExp _ _ _ _ _ h he' ((exponent_iff _ _).1 hx)
            · rw [hv]
              exact .exp _ _ _ _ _ h he' ((exponent_iff _ _).1 hx)
  · intro h
    cases h with
    | point _ _ h =>
      rw [(cut_none _ _ _).2 ⟨rfl, no_exp (pointed_not h _ noDigit_e (by decide)) (pointed_not h _ noDigit_E (by decide))⟩]
      dsimp only
      rw [if_pos (pointed_point h)]
      obtain ⟨p, hp, hv⟩ := (mantissa_iff s q).2 (.inl h)
      rw [hp, hv]
      rfl
    | pointExp a v e t x h he hx =>
      rw [(cut_some _ _ _ _).2 ⟨e, by simpa using he, rfl, no_exp (pointed_not h _ noDigit_e (by decide)) (pointed_not h _ noDigit_E (by decide))⟩]
      dsimp only
      obtain ⟨p, hp, hv⟩ := (mantissa_iff a v).2 (.inl h)
      rw [hp, (exponent_iff _ _).2 hx, hv]
    | exp a n e t x h he hx =>
      rw [(cut_some _ _ _ _).2 ⟨e, by simpa using he, rfl, no_exp (not_digit h _ noDigit_e) (not_digit h _ noDigit_E)⟩]
      dsimp only
      obtain ⟨p, hp, hv⟩ := (mantissa_iff a n).2 (.inr ⟨n, h, rfl⟩)
      rw [hp, (exponent_iff _ _).2 hx, hv]

/-- The characters that a decimal number can begin with. -/
theorem decimalLit_head {s : Str} {q : Rat} (h : Decimal s q) : ∃ c cs, s = c :: cs ∧ (c = '.' ∨ ¬ NoDigit c) := by
  have hd : ∀ {a : Str} {n : Nat} (r : Str), Digits 10 a n → ∃ c cs, a ++ r = c :: cs ∧ (c = '.' ∨ ¬ NoDigit c) := by
    intro a n r ha
    obtain ⟨c, cs, d, he, h1, h2⟩ := digits_head _ _ _ ha
    subst he
    exact ⟨c, cs ++ r, rfl, .inr fun hn => hn.2 d h1 h2⟩
  have hp : ∀ {a : Str} {v : Rat} (r : Str), Pointed a v → ∃ c cs, a ++ r = c :: cs ∧ (c = '.' ∨ ¬ NoDigit c) := by
    intro a v r ha
    cases ha with
    | mk a b n m k ha hb _ _ =>
      cases ha with
      | missing => exact ⟨'.', b ++ r, rfl, .inl rfl⟩
      | digits _ _ ha => rw [List.append_assoc]; exact hd _ ha
  cases h with
  | point _ _ h => simpa using hp [] h
  | pointExp a v e t x h _ _ => exact hp _ h
  | exp a n e t x h _ _ => exact hd _ h

theorem floatLit_iff (s : Str) (q : Rat) : floatLit s = some q ↔ FloatLiteral s q := by
  have hm : NoDigit '-' := noDigit_of _ (by decide) (by decide)
  have hp : NoDigit '+' := noDigit_of _ (by decide) (by decide)
  have hsign : ∀ (c : Char) (cs : Str) (v : Rat), NoDigit c → c ≠ '.' → ¬ Decimal (c :: cs) v := by
    intro c cs v h1 h2 h
    obtain ⟨x, xs, he, hx⟩ := decimalLit_head h
    injection he with h3 _
    subst h3
    rcases hx with hx | hx
    · exact h2 hx
    · exact hx h1
  unfold floatLit
  split
  · next cs =>
    constructor
    · intro h
      cases hu : decimalLit cs with
      | none => simp [hu] at h
      | some v =>
        simp only [hu, Option.map_some, Option.some.injEq] at h
        subst h
        exact .minus _ _ ((decimalLit_iff _ _).1 hu)
    · intro h
      generalize hw : '-' :: cs = w at h
      cases h with
      | plain _ n h => subst hw; exact absurd h (hsign _ _ _ hm (by decide))
      | plus _ n h => simp at hw
      | minus _ n h => cases hw; rw [(decimalLit_iff _ _).2 h]; rfl
  · next cs =>
    constructor
    · intro h
      exact .plus _ _ ((decimalLit_iff _ _).1 h)
    · intro h
      generalize hw : '+' :: cs = w at h
      cases h with
      | plain _ n h => subst hw; exact absurd h (hsign _ _ _ hp (by decide))
      | plus _ n h => cases hw; exact (decimalLit_iff _ _).2 h
      | minus _ n h => simp at hw
  · next h1 h2 =>
    constructor
    · intro h
      exact .plain _ _ ((decimalLit_iff _ _).1 h)
    · intro h
      cases h with
      | plain _ n h => exact (decimalLit_iff _ _).2 h
      | plus cs n h => exact absurd rfl (h2 cs)
      | minus cs n h => exact absurd rfl (h1 cs)

/-! ## Kinds of literals exclude each other -/

theorem int_chars {s : Str} {n : Int} (h : IntLiteral s n) (x : Char) (hx : x ≠ '_') (hd : digitVal x = none) (h1 : x ≠ '+') (h2 : x ≠ '-') : x ∉ s := by
  have hdig : ∀ {base : Nat} {s : Str} {n : Nat}, Digits base s n → x ∉ s := by
    intro base s n h hm
    rcases digits_chars h x hm with rfl | ⟨d, h1, _⟩
    · exact hx rfl
    · rw [hd] at h1; cases h1
  have hlit : ∀ {s : Str} {n : Nat}, Literal s n → x ∉ s := by
    intro s n h
    have h0 : x ≠ '0' := by rintro rfl; exact absurd hd (by decide)
    have hc : ∀ (y : Char), digitVal y ≠ none → x ≠ y := by rintro y hy rfl; exact hy hd
    have hp : ∀ (y : Char) (a b : Char), y = a ∨ y = b → digitVal a ≠ none → digitVal b ≠ none → x ≠ y := by
      rintro y a b (rfl | rfl) ha hb
      · exact hc _ ha
      · exact hc _ hb
    cases h with
    | decimal _ _ h _ => exact hdig h
    | zero _ h => exact hdig h
    | hex y t _ hy h => simp only [List.mem_cons, not_or]; exact ⟨h0, hp _ _ _ hy (by decide) (by decide), hdig h⟩
    | hexU y t _ hy h => simp only [List.mem_cons, not_or]; exact ⟨h0, hp _ _ _ hy (by decide) (by decide), hx, hdig h⟩
    | oct y t _ hy h => simp only [List.mem_cons, not_or]; exact ⟨h0, hp _ _ _ hy (by decide) (by decide), hdig h⟩
    | octU y t _ hy h => simp only [List.mem_cons, not_or]; exact ⟨h0, hp _ _ _ hy (by decide) (by decide), hx, hdig h⟩
    | bin y t _ hy h => simp only [List.mem_cons, not_or]; exact ⟨h0, hp _ _ _ hy (by decide) (by decide), hdig h⟩
    | binU y t _ hy h => simp only [List.mem_cons, not_or]; exact ⟨h0, hp _ _ _ hy (by decide) (by decide), hx, hdig h⟩
  cases h with
  | plain _ _ h => exact hlit h
  | plus _ _ h => simp only [List.mem_cons, not_or]; exact ⟨h1, hlit h⟩
  | minus _ _ h => simp only [List.mem_cons, not_or]; exact ⟨h2, hlit h⟩

theorem literal_not_decimal {s : Str} {n : Nat} {q : Rat} (h : Literal s n) (hf : Decimal s q) : False := by
  have hpoint : '.' ∉ s := int_chars (.plain _ _ h) '.' (by decide) (by decide) (by decide) (by decide)
  cases hf with
  | point _ _ hp => exact hpoint (pointed_point hp)
  | pointExp a v e t x hp _ _ => exact hpoint (List.mem_append_left _ (pointed_point hp))
  | exp a m e t x ha he _ =>
    have hx : ∀ {b : Str} {k : Nat}, Digits 10 b k → e ∉ b := by
      intro b k hb
      rcases he with rfl | rfl
      · exact not_digit hb _ noDigit_e
      · exact not_digit hb _ noDigit_E
    have hpre : ∀ (y : Char) (r : Str), NoDigit y → y ≠ e → a ++ e :: t = '0' :: y :: r → False := by
      intro y r hy hne heq
      cases a with
      | nil => exact digits_ne ha
      | cons c cs =>
        cases cs with
        | nil =>
          injection heq with _ h2
          injection h2 with h2 _
          exact hne h2.symm
        | cons c2 cs =>
          injection heq with _ h2
          injection h2 with h2 _
          subst h2
          exact not_digit ha _ hy (by simp)
    have hno : ∀ (y a b : Char), y = a ∨ y = b → a ≠ '_' → digit 10 a = none → b ≠ '_' → digit 10 b = none → NoDigit y := by
      rintro y a b (rfl | rfl) h1 h2 h3 h4
      · exact noDigit_of _ h1 h2
      · exact noDigit_of _ h3 h4
    have hne : ∀ (y a b : Char), y = a ∨ y = b → a ≠ 'e' → a ≠ 'E' → b ≠ 'e' → b ≠ 'E' → y ≠ e := by
      rintro y a b (rfl | rfl) h1 h2 h3 h4 rfl <;> rcases he with rfl | rfl <;> first | exact h1 rfl | exact h2 rfl | exact h3 rfl | exact h4 rfl
    generalize hw : a ++ e :: t = w at h
    cases h with
    | decimal _ _ h _ => subst hw; exact hx h (by simp)
    | zero _ h => subst hw; exact hx h (by simp)
    | hex y r _ hy h => exact hpre y _ (hno y _ _ hy (by decide) (by decide) (by decide) (by decide)) (hne y _ _ hy (by decide) (by decide) (by decide) (by decide)) hw
    | hexU y r _ hy h => exact hpre y _ (hno y _ _ hy (by decide) (by decide) (by decide) (by decide)) (hne y _ _ hy (by decide) (by decide) (by decide) (by decide)) hw
    | oct y r _ hy h => exact hpre y _ (hno y _ _ hy (by decide) (by decide) (by decide) (by decide)) (hne y _ _ hy (by decide) (by decide) (by decide) (by decide)) hw
    | octU y r _ hy h => exact hpre y _ (hno y _ _ hy (by decide) (by decide) (by decide) (by decide)) (hne y _ _ hy (by decide) (by decide) (by decide) (by decide)) hw
    | bin y r _ hy h => exact hpre y _ (hno y _ _ hy (by decide) (by decide) (by decide) (by decide)) (hne y _ _ hy (by decide) (by decide) (by decide) (by decide)) hw
    | binU y r _ hy h => exact hpre y _ (hno y _ _ hy (by decide) (by decide) (by decide) (by decide)) (hne y _ _ hy (by decide) (by decide) (by decide) (by decide)) hw

theorem int_not_float {s : Str} {n : Int} {q : Rat} (h : IntLiteral s n) (hf : FloatLiteral s q) : False := by
  have hm : NoDigit '-' := noDigit_of _ (by decide) (by decide)
  have hp : NoDigit '+' := noDigit_of _ (by decide) (by decide)
  have hdec : ∀ (c : Char) (cs : Str) (v : Rat), NoDigit c → c ≠ '.' → ¬ Decimal (c :: cs) v := by
    intro c cs v h1 h2 h
    obtain ⟨x, xs, he, hx⟩ := decimalLit_head h
    injection he with h3 _
    subst h3
    rcases hx with hx | hx
    · exact h2 hx
    · exact hx h1
  have hlit : ∀ (c : Char) (cs : Str) (n : Nat), digitVal c = none → ¬ Literal (c :: cs) n := by
    intro c cs n hc h
    obtain ⟨c', cs', d, he, hd⟩ := literal_head _ _ h
    cases he
    rw [hc] at hd
    cases hd
  cases hf with
  | plain _ _ hf =>
    cases h with
    | plain _ _ h => exact literal_not_decimal h hf
    | plus _ _ h => exact hdec _ _ _ hp (by decide) hf
    | minus _ _ h => exact hdec _ _ _ hm (by decide) hf
  | plus cs _ hf =>
    generalize hw : '+' :: cs = w at h
    cases h with
    | plain _ _ h => subst hw; exact hlit _ _ _ (by decide) h
    | plus _ _ h => cases hw; exact literal_not_decimal h hf
    | minus _ _ h => cases hw
  | minus cs _ hf =>
    generalize hw : '-' :: cs = w at h
    cases h with
    | plain _ _ h => subst hw; exact hlit _ _ _ (by decide) h
    | plus _ _ h => cases hw
    | minus _ _ h => cases hw; exact literal_not_decimal h hf

theorem float_head {s : Str} {q : Rat} (h : FloatLiteral s q) : ∃ c cs, s = c :: cs ∧ c ≠ '\'' ∧ c ≠ '"' ∧ c ≠ 't' ∧ c ≠ 'f' := by
  have hd : ∀ (c : Char), (c = '.' ∨ ¬ NoDigit c) → c ≠ '\'' ∧ c ≠ '"' ∧ c ≠ 't' ∧ c ≠ 'f' := by
    intro c hc
    refine ⟨?_, ?_, ?_, ?_⟩ <;> rintro rfl <;> rcases hc with hc | hc <;>
      first | exact absurd hc (by decide) | exact hc (noDigit_of _ (by decide) (by decide))
  cases h with
  | plain _ _ h =>
    obtain ⟨c, cs, he, hc⟩ := decimalLit_head h
    exact ⟨c, cs, he, hd c hc⟩
  | plus _ _ h => exact ⟨_, _, rfl, by decide⟩
  | minus _ _ h => exact ⟨_, _, rfl, by decide⟩

theorem int_head {s : Str} {n : Int} (h : IntLiteral s n) : ∃ c cs, s = c :: cs ∧ c ≠ '\'' ∧ c ≠ '"' := by
  have hd : ∀ (s : Str) (n : Nat), Literal s n → ∃ c cs, s = c :: cs ∧ c ≠ '\'' ∧ c ≠ '"' := by
    intro s n h
    obtain ⟨c, cs, d, he, hd⟩ := literal_head _ _ h
    refine ⟨c, cs, he, ?_, ?_⟩ <;> rintro rfl <;> exact absurd hd (by rw [show digitVal _ = none by decide]; simp)
  cases h with
  | plain _ _ h => exact hd _ _ h
  | plus _ _ h => exact ⟨_, _, rfl, by decide⟩
  | minus _ _ h => exact ⟨_, _, rfl, by decide⟩

/-! ## Evaluation -/

theorem not_true_of_int {s : Str} {n : Int} (hs : int0 s = some n) : s ≠ lit "true" ∧ s ≠ lit "false" := by
  constructor
  · rintro rfl; exact absurd hs (by rw [show int0 (lit "true") = none by decide +kernel]; simp)
  · rintro rfl; exact absurd hs (by rw [show int0 (lit "false") = none by decide +kernel]; simp)

theorem int0_none_of {s : Str} (hs : ∀ c ∈ s, isSpace c = false) (h : ∀ n, ¬ IntLiteral s n) : int0 s = none := by
  cases hi : int0 s with
  | none => rfl
  | some n =>
    have := (int0_iff s n).1 hi
    rw [strip_of_no_space s hs] at this
    exact absurd this (h n)

theorem escape_of {e : Char} {n : Nat} (h : Escape e n) : ∃ c : Char, escape e = some c ∧ c.toNat = n := by
  cases h <;> exact ⟨_, rfl, rfl⟩

theorem strLit_of {s : Str} {n : Nat} (h : CharLiteral s n) : ∃ c : Char, strLit s = some (some [c]) ∧ c.toNat = n := by
  cases h with
  | plain q c hq h1 h2 h3 => exact ⟨c, if_pos ⟨hq, rfl, h1, h2, h3⟩, rfl⟩
  | escape q e n hq he =>
    obtain ⟨c, h1, h2⟩ := escape_of he
    refine ⟨c, ?_, h2⟩
    refine (if_pos ⟨hq, rfl, rfl⟩).trans ?_
    rw [h1]

theorem evalLit_quote (other : Str → Option PyVal) (q : Char) (cs : Str) (hq : q = '\'' ∨ q = '"') (hs : ∀ c ∈ q :: cs, isSpace c = false) :
    evalLit other (q :: cs) = match strLit (q :: cs) with
      | some (some c) => some (.str c)
      | some none => none
      | none => other (q :: cs) := by
  have h1 : q :: cs ≠ lit "true" := by
    intro h; injection h with h _; rcases hq with rfl | rfl <;> exact absurd h (by decide)
  have h2 : q :: cs ≠ lit "false" := by
    intro h; injection h with h _; rcases hq with rfl | rfl <;> exact absurd h (by decide)
  have h3 : int0 (q :: cs) = none := int0_none_of hs fun n h => by
    obtain ⟨c, cs', he, ha, hb⟩ := int_head h
    injection he with he _
    subst he
    rcases hq with h | h
    · exact ha h
    · exact hb h
  have h4 : floatLit (q :: cs) = none := by
    cases hf : floatLit (q :: cs) with
    | none => rfl
    | some v =>
      obtain ⟨c, cs', he, ha, hb, _⟩ := float_head ((floatLit_iff _ _).1 hf)
      injection he with he _
      subst he
      rcases hq with h | h
      · exact absurd h ha
      · exact absurd h hb
  simp only [evalLit]
  rw [if_neg h1, if_neg h2, h3, h4]
  rfl

theorem evalLit_whole (other : Str → Option PyVal) {s : Str} {n : Int} (hs : ∀ c ∈ s, isSpace c = false) (h : Whole s n) :
    evalLit other s = some (.int n) ∨ ∃ c : Char, evalLit other s = some (.str [c]) ∧ n = (c.toNat : Int) := by
  cases h with
  | yes => exact .inl rfl
  | no => exact .inl rfl
  | int _ _ h =>
    have hi : int0 s = some n := (int0_iff s n).2 (by rw [strip_of_no_space s hs]; exact h)
    obtain ⟨h1, h2⟩ := not_true_of_int hi
    left
    simp only [evalLit]
    rw [if_neg h1, if_neg h2, hi]
  | char _ m h =>
    right
    obtain ⟨c, h1, h2⟩ := strLit_of h
    refine ⟨c, ?_, by rw [h2]⟩
    have hq : ∃ q cs, s = q :: cs ∧ (q = '\'' ∨ q = '"') := by
      cases h with
      | plain q c hq _ _ _ => exact ⟨q, _, rfl, hq⟩
      | escape q e n hq _ => exact ⟨q, _, rfl, hq⟩
    obtain ⟨q, cs, he, hq⟩ := hq
    subst he
    rw [evalLit_quote other q cs hq hs, h1]

theorem evalLit_float (other : Str → Option PyVal) {s : Str} {q : Rat} (hs : ∀ c ∈ s, isSpace c = false) (h : FloatLiteral s q) :
    evalLit other s = evalFloat (other s) q := by
  obtain ⟨c, cs, he, _, _, ht, hf⟩ := float_head h
  have h1 : s ≠ lit "true" := by
    intro h; rw [he] at h; injection h with h _; exact ht h
  have h2 : s ≠ lit "false" := by
    intro h; rw [he] at h; injection h with h _; exact hf h
  have h3 : int0 s = none := int0_none_of hs fun n hn => int_not_float hn h
  simp only [evalLit]
  rw [if_neg h1, if_neg h2, h3, (floatLit_iff _ _).2 h]

/-! ## Rounding -/

theorem roundHalfEven_neg (m : Rat) : roundHalfEven (-m) = -roundHalfEven m := by
  have hfl : ∀ (q : Rat) (n : Int), (n : Rat) ≤ q → q < (n : Rat) + 1 → q.floor = n := by
    intro q n h1 h2
    have h3 := Rat.le_floor_iff.2 h1
    have h4 : q.floor < n + 1 := Rat.floor_lt_iff.2 (by push_cast; exact h2)
    omega
  have h1 : (m.floor : Rat) ≤ m := Rat.floor_le m
  have h2 : m < (m.floor : Rat) + 1 := by have := Rat.lt_floor_add_one m; push_cast at this; exact this
  generalize hf : m.floor = f at *
  unfold roundHalfEven
  dsimp only
  by_cases he : m = (f : Rat)
  · have h3 : (-m).floor = -f := hfl _ _ (by push_cast; rw [he]; exact Rat.le_refl) (by push_cast; grind)
    have h4 : -m - ((-f : Int) : Rat) = 0 := by push_cast; grind
    have h5 : m - (f : Rat) = 0 := by grind
    rw [h3, hf, h4, h5, if_pos (by decide +kernel), if_pos (by decide +kernel)]
  · have h3 : (-m).floor = -f - 1 := hfl _ _ (by push_cast; grind) (by push_cast; grind)
    have h4 : -m - ((-f - 1 : Int) : Rat) = 1 - (m - (f : Rat)) := by push_cast; grind
    rw [h3, hf, h4]
    generalize hr : m - (f : Rat) = r at *
    by_cases ha : r < 1 / 2
    · rw [if_neg (by grind), if_pos (by grind), if_pos ha]; omega
    · by_cases hb : 1 / 2 < r
      · rw [if_pos (by grind), if_neg ha, if_pos hb]; omega
      · rw [if_neg (by grind), if_neg (by grind), if_neg ha, if_neg hb]
        by_cases hp : f % 2 = 0
        · rw [if_neg (by omega), if_pos hp]; omega
        · rw [if_pos (by omega), if_neg hp]; omega

theorem binExp_neg (q : Rat) : binExp (-q) = binExp q := by
  unfold binExp
  rw [Rat.neg_num, Rat.neg_den, Int.natAbs_neg, Rat.abs_neg]

theorem fl_neg (q : Rat) : fl (-q) = -fl q := by
  unfold fl
  by_cases h : q = 0
  · subst h; decide +kernel
  · rw [if_neg (by intro h2; apply h; grind), if_neg h, binExp_neg, Rat.div_def, Rat.neg_mul, roundHalfEven_neg, ← Rat.div_def]
    push_cast
    rw [Rat.neg_mul]

theorem fl_nat (n : Nat) (h : n < 2 ^ 53) : fl (n : Rat) = n := by
  by_cases h0 : n = 0
  · subst h0; decide +kernel
  · have hpos : (0 : Rat) < (n : Rat) := by exact_mod_cast Nat.pos_of_ne_zero h0
    have h1 := binExp_le (n : Rat) hpos
    have h2 : (n : Rat) < (2 : Rat) ^ (53 : Int) := by
      have : (n : Rat) < ((2 ^ 53 : Nat) : Rat) := by exact_mod_cast h
      rwa [cast_pow] at this
    have h3 := lt_of_zlt (lelt h1 h2)
    obtain ⟨k, hk⟩ : ∃ k : Nat, binExp (n : Rat) - 52 = -(k : Int) := ⟨(52 - binExp (n : Rat)).toNat, by omega⟩
    have h4 : (n : Rat) / (2 : Rat) ^ (-(k : Int)) = (((n * 2 ^ k : Nat) : Int) : Rat) := by
      rw [div_z, Int.neg_neg, ← cast_pow]
      push_cast
      rfl
    unfold fl
    rw [if_neg (Rat.ne_of_gt hpos), hk, h4, roundHalfEven_int]
    have h5 : ((2 ^ k : Nat) : Rat) * (2 : Rat) ^ (-(k : Int)) = 1 := by
      rw [cast_pow, mulz, show (k : Int) + -(k : Int) = 0 by omega, Rat.zpow_zero]
    rw [show (((n * 2 ^ k : Nat) : Int) : Rat) = (n : Rat) * ((2 ^ k : Nat) : Rat) by push_cast; rfl, Rat.mul_assoc, h5, Rat.mul_one]

/-- Integers below `2 ^ 53` are doubles. -/
theorem fl_int (n : Int) (h : n.natAbs < 2 ^ 53) : fl (n : Rat) = n := by
  rcases Int.natAbs_eq n with hn | hn
  · rw [hn]
    exact fl_nat _ h
  · rw [hn]
    push_cast
    rw [fl_neg, fl_nat _ h]

/-! ## Lines -/

/-- The number without its fraction. -/
def Truncates (r : Rat) (n : Int) : Prop := (0 ≤ n ∧ (n : Rat) ≤ r ∧ r < (n : Rat) + 1) ∨ (n ≤ 0 ∧ r ≤ (n : Rat) ∧ (n : Rat) - 1 < r)

/-- Zero, or a number that is not too close to it. -/
def Normal (q : Rat) : Prop := q = 0 ∨ (2 : Rat) ^ (-1022 : Int) ≤ q.abs

/-- A constant is declared: the type, a name, `=` and an expression in one or more words. -/
structure Declares (nested : Str → Except Err PTy) (begin : List Str) (p : PrimTy) (name : Str) (expr : List Str) : Prop where
  refs : RefNames nested
  type : ∃ m s, Begins begin m s ∧ (∀ c ∈ s, isSpace c = false) ∧ Spells nested m s (.prim p)
  name : AttributeName name
  nonempty : expr ≠ []
  words : ∀ w ∈ expr, IsToken w

theorem declared_eq {nested : Str → Except Err PTy} {begin : List Str} {p : PrimTy} {name : Str} {expr : List Str}
    (h : Declares nested begin p name expr) (eval : Str → Option PyVal) :
    parseLine nested eval (begin ++ name :: lit "=" :: expr) = match eval expr.flatten with
      | none => fail
      | some v => match convertConst p.kind v with
        | .error e => .error e
        | .ok x => if inRange p x = true then .ok (.const ⟨p, name, expr.flatten, x⟩) else fail := by
  obtain ⟨m, s, hb, hsp, hsl⟩ := h.type
  have ht := (parseType_spells nested h.refs s hsp m _).2 hsl
  have hc := (castMode_begins (begin ++ name :: lit "=" :: expr) m s (name :: lit "=" :: expr)).2 ⟨begin, hb, rfl⟩
  have hex : (split (joinWith (lit " ") expr)).flatten = expr.flatten := by
    rw [joinWith_writeLine, split_writeLine expr h.words]
  have he : expr.isEmpty = false := by
    have := h.nonempty
    cases hx : expr with
    | nil => exact absurd hx this
    | cons a b => rfl
  simp only [parseLine, hc, (attributeNameOk_iff name).2 h.name, ht, he, bind, Except.bind, enforce, makeConstant, hex]
  cases eval expr.flatten with
  | none => rfl
  | some v =>
    dsimp only
    cases convertConst p.kind v with
    | error e => rfl
    | ok x =>
      dsimp only
      by_cases hr : inRange p x = true
      · rw [hr]; rfl
      · rw [if_neg hr, Bool.eq_false_iff.2 hr]; rfl

theorem good_of {nested : Str → Except Err PTy} {begin : List Str} {p : PrimTy} {name : Str} {expr : List Str}
    (h : Declares nested begin p name expr) : GoodPrim p := by
  obtain ⟨m, s, _, _, hsl⟩ := h.type
  exact spells_prim h.refs hsl

theorem no_space {expr : List Str} (h : ∀ w ∈ expr, IsToken w) : ∀ c ∈ expr.flatten, isSpace c = false := by
  intro c hc
  obtain ⟨w, hw, hcw⟩ := List.mem_flatten.1 hc
  exact ((h w hw).2 c hcw).1

theorem declared_value {nested : Str → Except Err PTy} {begin : List Str} {p : PrimTy} {name : Str} {expr : List Str}
    (h : Declares nested begin p name expr) (eval : Str → Option PyVal) (v : PyVal) (x : ConstVal) (hv : eval expr.flatten = some v)
    (hx : ValueOf p.kind v x) :
    (AllowedNumber p x.num → parseLine nested eval (begin ++ name :: lit "=" :: expr) = .ok (.const ⟨p, name, expr.flatten, x⟩)) ∧
    (¬ AllowedNumber p x.num → ∃ e, parseLine nested eval (begin ++ name :: lit "=" :: expr) = .error e) := by
  have hiff : inRange p x = true ↔ AllowedNumber p x.num := by
    rw [inRange_iff p x (good_of h)]
    cases x <;> rfl
  rw [declared_eq h eval, hv]
  dsimp only
  rw [(convertConst_iff _ _ _).2 hx]
  dsimp only
  constructor
  · intro ha
    rw [if_pos (hiff.2 ha)]
  · intro ha
    rw [if_neg (fun hr => ha (hiff.1 hr))]
    exact ⟨_, rfl⟩

theorem code_small (c : Char) : (c.toNat : Int).natAbs < 2 ^ 53 := by
  have h : c.toNat < 0x110000 := by
    have := c.valid
    rcases this with h | ⟨_, h⟩
    · exact Nat.lt_trans h (by decide)
    · exact h
  simp only [Int.natAbs_natCast]
  exact Nat.lt_trans h (by decide)

/-- An integer, a character, `true` or `false` in any type: the constant has this value (in a floating point type the nearest double), if the type
can have it, and is refused otherwise. -/
theorem C143_whole (other : Str → Option PyVal) {nested : Str → Except Err PTy} {begin : List Str} {p : PrimTy} {name : Str} {expr : List Str}
    (h : Declares nested begin p name expr) (n : Int) (hn : Whole expr.flatten n) :
    (AllowedNumber p (represented p.kind n) → ∃ x, parseLine nested (evalLit other) (begin ++ name :: lit "=" :: expr) =
      .ok (.const ⟨p, name, expr.flatten, x⟩) ∧ x.num = represented p.kind n) ∧
    (¬ AllowedNumber p (represented p.kind n) → ∃ e, parseLine nested (evalLit other) (begin ++ name :: lit "=" :: expr) = .error e) := by
  have hval : ∃ v x, evalLit other expr.flatten = some v ∧ ValueOf p.kind v x ∧ x.num = represented p.kind n := by
    rcases evalLit_whole other (no_space h.words) hn with he | ⟨c, he, hc⟩
    · by_cases hk : p.kind = .float
      · exact ⟨_, .flt (fl n), he, by rw [hk]; exact .nearest n, by simp [represented, hk, ConstVal.num]⟩
      · exact ⟨_, .int n, he, .int _ n hk, by simp [represented, hk, ConstVal.num]⟩
    · refine ⟨_, .int c.toNat, he, .char _ c, ?_⟩
      rw [hc]
      unfold represented
      split
      · exact (fl_int _ (code_small c)).symm
      · rfl
  obtain ⟨v, x, h1, h2, h3⟩ := hval
  have := declared_value h (evalLit other) v x h1 h2
  rw [h3] at this
  exact ⟨fun ha => ⟨x, this.1 ha, h3⟩, this.2⟩

theorem evalFloat_normal {q : Rat} (hq : Normal q) (o : Option PyVal) :
    (floatMax 64 < (fl q).abs ∧ evalFloat o q = some .nonFinite) ∨ ((fl q).abs ≤ floatMax 64 ∧ evalFloat o q = some (.flt (fl q))) := by
  have h0 : ¬ (q ≠ 0 ∧ q.abs < (2 : Rat) ^ (-1022 : Int)) := by
    rintro ⟨h1, h2⟩
    rcases hq with hq | hq
    · exact h1 hq
    · grind
  unfold evalFloat
  rw [if_neg h0]
  by_cases h : floatMax 64 < (fl q).abs
  · exact .inl ⟨h, if_pos h⟩
  · exact .inr ⟨Rat.not_lt.1 h, if_neg h⟩

theorem le_floatMax {b : Nat} (hb : b = 16 ∨ b = 32 ∨ b = 64) : floatMax b ≤ floatMax 64 := by
  rcases hb with rfl | rfl | rfl <;> decide +kernel

theorem nonFinite_error {nested : Str → Except Err PTy} {begin : List Str} {p : PrimTy} {name : Str} {expr : List Str}
    (h : Declares nested begin p name expr) (eval : Str → Option PyVal) (hv : eval expr.flatten = some .nonFinite) :
    ∃ e, parseLine nested eval (begin ++ name :: lit "=" :: expr) = .error e := by
  rw [declared_eq h eval, hv]
  exact ⟨_, rfl⟩

theorem allowed_float {p : PrimTy} (hp : GoodPrim p) (hk : p.kind = .float) (r : Rat) (h : AllowedNumber p r) : r.abs ≤ floatMax 64 := by
  have hr : inRange p (.flt r) = true := (inRange_iff p (.flt r) hp).2 h
  unfold inRange at hr
  simp only [hk, Bool.and_eq_true, decide_eq_true_eq] at hr
  have hb : p.bitlen = 16 ∨ p.bitlen = 32 ∨ p.bitlen = 64 := by unfold GoodPrim at hp; rw [hk] at hp; exact hp
  have := le_floatMax hb
  unfold Rat.abs
  split <;> grind

/-- A decimal number in a floating point type: the nearest double, if the type can have it. -/
theorem C143_float (other : Str → Option PyVal) {nested : Str → Except Err PTy} {begin : List Str} {p : PrimTy} {name : Str} {expr : List Str}
    (h : Declares nested begin p name expr) (hk : p.kind = .float) (q : Rat) (hq : FloatLiteral expr.flatten q) (hn : Normal q) :
    (AllowedNumber p (fl q) → parseLine nested (evalLit other) (begin ++ name :: lit "=" :: expr) =
      .ok (.const ⟨p, name, expr.flatten, .flt (fl q)⟩)) ∧
    (¬ AllowedNumber p (fl q) → ∃ e, parseLine nested (evalLit other) (begin ++ name :: lit "=" :: expr) = .error e) := by
  have he := evalLit_float other (no_space h.words) hq
  rcases evalFloat_normal hn (other expr.flatten) with ⟨h1, h2⟩ | ⟨h1, h2⟩
  · refine ⟨fun ha => ?_, fun _ => nonFinite_error h _ (he.trans h2)⟩
    have := allowed_float (good_of h) hk _ ha
    grind
  · exact declared_value h (evalLit other) _ (.flt (fl q)) (he.trans h2) (by rw [hk]; exact .float _)

theorem allowed_int {p : PrimTy} (hp : GoodPrim p) (hk : p.kind ≠ .float) (n : Int) (h : AllowedNumber p n) : (n : Rat).abs ≤ 2 ^ 64 + 1 := by
  have hpow : ∀ b : Nat, b ≤ 64 → (2 : Rat) ^ b ≤ 2 ^ 64 := by
    intro b hb
    have : ((2 ^ b : Nat) : Rat) ≤ ((2 ^ 64 : Nat) : Rat) := by exact_mod_cast Nat.pow_le_pow_right (by decide) hb
    rwa [cast_pow, cast_pow, Rat.zpow_natCast, Rat.zpow_natCast] at this
  have hpos : ∀ b : Nat, (0 : Rat) < (2 : Rat) ^ b := fun b => Rat.pow_pos (by decide)
  obtain ⟨k, b, tr⟩ := p
  unfold AllowedNumber at h
  unfold GoodPrim at hp
  dsimp only at h hp hk
  have habs : (n : Rat) ≤ 2 ^ 64 + 1 → -(2 ^ 64 + 1) ≤ (n : Rat) → (n : Rat).abs ≤ 2 ^ 64 + 1 := by
    intro h1 h2
    unfold Rat.abs
    split <;> grind
  cases k with
  | boolean => exact habs (by grind) (by grind)
  | unsigned =>
    have := hpow b hp.2
    exact habs (by grind) (by grind)
  | signed =>
    have h1 := hpow (b - 1) (by omega)
    have h2 := hpos (b - 1)
    dsimp only at h
    split at h
    · exact habs (by grind) (by grind)
    · exact habs (by grind) (by grind)
  | float => exact absurd rfl hk

/-- A decimal number in an integer type: the nearest double without its fraction, if the type can have it. -/
theorem C143_truncated (other : Str → Option PyVal) {nested : Str → Except Err PTy} {begin : List Str} {p : PrimTy} {name : Str} {expr : List Str}
    (h : Declares nested begin p name expr) (hk : p.kind ≠ .float) (q : Rat) (hq : FloatLiteral expr.flatten q) (hn : Normal q) (n : Int)
    (ht : Truncates (fl q) n) :
    (AllowedNumber p n → parseLine nested (evalLit other) (begin ++ name :: lit "=" :: expr) =
      .ok (.const ⟨p, name, expr.flatten, .int n⟩)) ∧
    (¬ AllowedNumber p n → ∃ e, parseLine nested (evalLit other) (begin ++ name :: lit "=" :: expr) = .error e) := by
  have he := evalLit_float other (no_space h.words) hq
  rcases evalFloat_normal hn (other expr.flatten) with ⟨h1, h2⟩ | ⟨h1, h2⟩
  · refine ⟨fun ha => ?_, fun _ => nonFinite_error h _ (he.trans h2)⟩
    have h3 := allowed_int (good_of h) hk _ ha
    have h4 : (fl q).abs ≤ (n : Rat).abs + 1 := by
      unfold Truncates at ht
      unfold Rat.abs
      split <;> split <;> grind
    have h5 : (2 : Rat) ^ 64 + 1 + 1 ≤ floatMax 64 := by decide +kernel
    grind
  · refine declared_value h (evalLit other) _ (.int n) (he.trans h2) ?_
    rcases ht with ⟨a, b, c⟩ | ⟨a, b, c⟩
    · exact .down _ _ _ hk a b c
    · exact .up _ _ _ hk a b c

/-- The full claim: a constant that is accepted has the value that is written. -/
def C143_statement : Prop :=
  ∀ (other : Str → Option PyVal) (nested : Str → Except Err PTy) (begin : List Str) (p : PrimTy) (name : Str) (expr : List Str) (q : Rat) (c : Const),
    Declares nested begin p name expr → Written expr.flatten q → Normal q →
    parseLine nested (evalLit other) (begin ++ name :: lit "=" :: expr) = .ok (.const c) → c.value.num = represented p.kind q

/-- The claim holds unless a number with a fraction, or one that is no double, is written for an integer type. -/
theorem C143_partial (other : Str → Option PyVal) (nested : Str → Except Err PTy) (begin : List Str) (p : PrimTy) (name : Str) (expr : List Str)
    (q : Rat) (c : Const) (h : Declares nested begin p name expr) (hq : Written expr.flatten q) (hn : Normal q)
    (hint : p.kind ≠ .float → FloatLiteral expr.flatten q → ∃ n : Int, q = n ∧ n.natAbs < 2 ^ 53)
    (hok : parseLine nested (evalLit other) (begin ++ name :: lit "=" :: expr) = .ok (.const c)) : c.value.num = represented p.kind q := by
  cases hq with
  | whole n hw =>
    obtain ⟨h1, h2⟩ := C143_whole other h n hw
    by_cases ha : AllowedNumber p (represented p.kind n)
    · obtain ⟨x, hx, hnum⟩ := h1 ha
      rw [hx] at hok
      injection hok with hok
      injection hok with hok
      subst hok
      exact hnum
    · obtain ⟨e, he⟩ := h2 ha
      rw [he] at hok
      cases hok
  | decimal _ hf =>
    by_cases hk : p.kind = .float
    · obtain ⟨h1, h2⟩ := C143_float other h hk q hf hn
      by_cases ha : AllowedNumber p (fl q)
      · rw [h1 ha] at hok
        injection hok with hok
        injection hok with hok
        subst hok
        simp [represented, hk, ConstVal.num]
      · obtain ⟨e, he⟩ := h2 ha
        rw [he] at hok
        cases hok
    · obtain ⟨n, rfl, hlt⟩ := hint hk hf
      have ht : Truncates (fl (n : Rat)) n := by
        rw [fl_int n hlt]
        unfold Truncates
        rcases Int.le_total 0 n with h0 | h0
        · exact .inl ⟨h0, Rat.le_refl, by grind⟩
        · exact .inr ⟨h0, Rat.le_refl, by grind⟩
      obtain ⟨h1, h2⟩ := C143_truncated other h hk _ hf hn n ht
      by_cases ha : AllowedNumber p n
      · rw [h1 ha] at hok
        injection hok with hok
        injection hok with hok
        subst hok
        simp [represented, hk, ConstVal.num]
      · obtain ⟨e, he⟩ := h2 ha
        rw [he] at hok
        cases hok

/-! ## Characters that cannot be written -/

theorem quotes_error (other : Str → Option PyVal) {nested : Str → Except Err PTy} {begin : List Str} {p : PrimTy} {name : Str} {expr : List Str}
    (h : Declares nested begin p name expr) (q : Char) (hq : q = '\'' ∨ q = '"') (he : expr.flatten = [q, q] ∨ expr.flatten = [q]) :
    ∃ e, parseLine nested (evalLit other) (begin ++ name :: lit "=" :: expr) = .error e := by
  rw [declared_eq h]
  have hs := no_space h.words
  rcases he with he | he
  · rw [he] at hs ⊢
    rw [evalLit_quote other q [q] hq hs, show strLit [q, q] = some (some []) from if_pos ⟨hq, rfl⟩]
    exact ⟨_, rfl⟩
  · rw [he] at hs ⊢
    rw [evalLit_quote other q [] hq hs, show strLit [q] = some none from if_pos hq]
    exact ⟨_, rfl⟩

/-- A blank in quotation marks: the words of the line are the quotation marks, and the line is refused. -/
theorem C143_blank (other : Str → Option PyVal) {nested : Str → Except Err PTy} {begin : List Str} {p : PrimTy} {name : Str} (q : Char)
    (hq : q = '\'' ∨ q = '"') (h : Declares nested begin p name [[q], [q]]) (hb : ∀ w ∈ begin, IsToken w) (hname : IsToken name) :
    (tokenize (writeLine (begin ++ [name, lit "="]) ++ [' ', q, ' ', q, '\n'])).map Prod.snd = [begin ++ name :: lit "=" :: [[q], [q]]] ∧
    ∃ e, parseLine nested (evalLit other) (begin ++ name :: lit "=" :: [[q], [q]]) = .error e := by
  refine ⟨?_, quotes_error other h q hq (.inl rfl)⟩
  have hw : ∀ l : List Str, l ≠ [] → writeLine l ++ [' ', q, ' ', q, '\n'] = writeText [l ++ [[q], [q]]] := by
    intro l hl
    simp only [writeText]
    induction l with
    | nil => exact absurd rfl hl
    | cons w ws ih =>
      cases ws with
      | nil => simp [writeLine]
      | cons w2 ws =>
        have := ih (by simp)
        simp only [writeLine, List.cons_append, List.append_assoc] at this ⊢
        rw [this]
  rw [hw _ (by simp), C57_tokens _ ?_]
  · simp [numbered]
  · intro l hl w hwl
    simp only [List.mem_singleton] at hl
    subst hl
    simp only [List.mem_append, List.mem_cons, List.not_mem_nil, or_false] at hwl
    rcases hwl with (hwl | rfl | rfl) | (rfl | rfl)
    · exact hb w hwl
    · exact hname
    · exact ⟨by decide, by decide⟩
    · exact h.words _ (by simp)
    · exact h.words _ (by simp)

/-- A number sign in quotation marks: it begins a comment, only the first quotation mark is left, and the line is refused. -/
theorem C143_hash (other : Str → Option PyVal) {nested : Str → Except Err PTy} {begin : List Str} {p : PrimTy} {name : Str} (q : Char)
    (hq : q = '\'' ∨ q = '"') (h : Declares nested begin p name [[q]]) (hb : ∀ w ∈ begin, IsToken w) (hname : IsToken name) :
    (tokenize (writeLine (begin ++ [name, lit "="]) ++ [' ', q, '#', q, '\n'])).map Prod.snd = [begin ++ name :: lit "=" :: [[q]]] ∧
    ∃ e, parseLine nested (evalLit other) (begin ++ name :: lit "=" :: [[q]]) = .error e := by
  refine ⟨?_, quotes_error other h q hq (.inr rfl)⟩
  have hw : ∀ l : List Str, l ≠ [] → writeLine l ++ [' ', q, '\n'] = writeText [l ++ [[q]]] := by
    intro l hl
    simp only [writeText]
    induction l with
    | nil => exact absurd rfl hl
    | cons w ws ih =>
      cases ws with
      | nil => simp [writeLine]
      | cons w2 ws =>
        have := ih (by simp)
        simp only [writeLine, List.cons_append, List.append_assoc] at this ⊢
        rw [this]
  have hadd : Adds (writeLine (begin ++ [name, lit "="]) ++ [' ', q, '\n']) (writeLine (begin ++ [name, lit "="]) ++ [' ', q, '#', q, '\n']) := by
    have := Adds.comment (writeLine (begin ++ [name, lit "="]) ++ [' ', q]) [q] ['\n'] (by
      intro c hc
      simp only [List.mem_singleton] at hc
      subst hc
      rcases hq with rfl | rfl <;> decide) (.inr ⟨_, _, rfl, by decide⟩)
    simpa using this
  rw [← C57_layout _ _ (.add (.refl _) hadd), hw _ (by simp), C57_tokens _ ?_]
  · simp [numbered]
  · intro l hl w hwl
    simp only [List.mem_singleton] at hl
    subst hl
    simp only [List.mem_append, List.mem_cons, List.not_mem_nil, or_false] at hwl
    rcases hwl with (hwl | rfl | rfl) | rfl
    · exact hb w hwl
    · exact hname
    · exact ⟨by decide, by decide⟩
    · exact h.words _ (by simp)

/-! ## Cases -/

def noNested : Str → Except Err PTy := fun _ => fail

theorem declares_uint8 (name : Str) (expr : List Str) (h1 : AttributeName name) (h2 : expr ≠ []) (h3 : ∀ w ∈ expr, IsToken w) :
    Declares noNested [lit "uint8"] ⟨.unsigned, 8, false⟩ name expr where
  refs := fun s t h => by cases h
  type := ⟨none, lit "uint8", .none _ (by decide) (by decide), by decide,
    .uint none false (lit "8") 8 .missing (.one '8' (by unfold Digit; decide)) (by decide) (by decide)⟩
  name := h1
  nonempty := h2
  words := h3

theorem declares_float32 (name : Str) (expr : List Str) (h1 : AttributeName name) (h2 : expr ≠ []) (h3 : ∀ w ∈ expr, IsToken w) :
    Declares noNested [lit "float32"] ⟨.float, 32, false⟩ name expr where
  refs := fun s t h => by cases h
  type := ⟨none, lit "float32", .none _ (by decide) (by decide), by decide,
    .float none false (lit "32") 32 .missing (.two '3' '2' (by unfold Digit; decide) (by unfold Digit; decide)) (by decide)⟩
  name := h1
  nonempty := h2
  words := h3

theorem name_A : AttributeName (lit "A") := ⟨'A', [], rfl, by unfold Lower Upper; decide, by simp⟩

theorem lit_2_5 : FloatLiteral (lit "2.5") (5 / 2) := by
  have h := (floatLit_iff (lit "2.5") (5 / 2)).1 (by decide +kernel)
  exact h

/-- `uint8 A = 2.5` is accepted and is 2. -/
theorem C143_counterexample : ¬ C143_statement := by
  intro h
  have hd := declares_uint8 (lit "A") [lit "2.5"] name_A (by decide) (by unfold IsToken; decide)
  have hn : Normal (5 / 2) := by unfold Normal; decide +kernel
  have hok := (C143_truncated (fun _ => none) hd (by decide) (5 / 2) lit_2_5 hn 2 (by unfold Truncates; decide +kernel)).1
    (by unfold AllowedNumber; decide +kernel)
  have := h _ _ _ _ _ _ (5 / 2) _ hd (.decimal _ _ lit_2_5) hn hok
  exact absurd this (by decide +kernel)

/-- `uint8 A = 1 2` is accepted and is 12; so is `true`, as 1, and `'A'`, as 65; 256 and -1 are refused; so is `' '`. -/
example : (parseLine noNested (evalLit fun _ => none) [lit "uint8", lit "A", lit "=", lit "1", lit "2"]).toOption.map
      (fun | .const c => some c.value | _ => none) = some (some (.int 12)) ∧
    (parseLine noNested (evalLit fun _ => none) [lit "uint8", lit "A", lit "=", lit "true"]).toOption.map
      (fun | .const c => some c.value | _ => none) = some (some (.int 1)) ∧
    (parseLine noNested (evalLit fun _ => none) [lit "uint8", lit "A", lit "=", lit "'A'"]).toOption.map
      (fun | .const c => some c.value | _ => none) = some (some (.int 65)) ∧
    (parseLine noNested (evalLit fun _ => none) [lit "uint8", lit "A", lit "=", lit "256"]).toOption.isNone ∧
    (parseLine noNested (evalLit fun _ => none) [lit "uint8", lit "A", lit "=", lit "-1"]).toOption.isNone ∧
    (parseLine noNested (evalLit fun _ => none) [lit "float32", lit "A", lit "=", lit "-12.5e-1"]).toOption.map
      (fun | .const c => some c.value | _ => none) = some (some (.flt (-5 / 4))) := by decide +kernel

/-- `C143_whole`: `uint8 A = 0xFF` -/
example : ∃ x, parseLine noNested (evalLit fun _ => none) [lit "uint8", lit "A", lit "=", lit "0xFF"] =
    .ok (.const ⟨⟨.unsigned, 8, false⟩, lit "A", lit "0xFF", x⟩) ∧ x.num = 255 :=
  (C143_whole (fun _ => none) (declares_uint8 (lit "A") [lit "0xFF"] name_A (by decide) (by unfold IsToken; decide)) 255
    (.int _ _ ((int0_iff (lit "0xFF") 255).1 (by decide +kernel)))).1 (by unfold AllowedNumber represented; decide +kernel)

/-- `C143_partial`: `uint8 A = 1e2` -/
example : (.int 100 : ConstVal).num = represented .unsigned 100 :=
  C143_partial (fun _ => none) noNested [lit "uint8"] ⟨.unsigned, 8, false⟩ (lit "A") [lit "1e2"] 100 ⟨⟨.unsigned, 8, false⟩, lit "A", lit "1e2", .int 100⟩
    (declares_uint8 _ _ name_A (by decide) (by unfold IsToken; decide)) (.decimal _ _ ((floatLit_iff (lit "1e2") 100).1 (by decide +kernel)))
    (by unfold Normal; decide +kernel) (fun _ _ => ⟨100, by decide +kernel, by decide⟩)
    ((C143_truncated (fun _ => none) (declares_uint8 (lit "A") [lit "1e2"] name_A (by decide) (by unfold IsToken; decide)) (by decide) 100
      ((floatLit_iff (lit "1e2") 100).1 (by decide +kernel)) (by unfold Normal; decide +kernel) 100 (by unfold Truncates; decide +kernel)).1
      (by unfold AllowedNumber; decide +kernel))

/-- `C143_float`: `float32 A = .1` is not a tenth but the nearest double. -/
example : parseLine noNested (evalLit fun _ => none) [lit "float32", lit "A", lit "=", lit ".1"] =
    .ok (.const ⟨⟨.float, 32, false⟩, lit "A", lit ".1", .flt (3602879701896397 / 36028797018963968)⟩) := by
  have := (C143_float (fun _ => none) (declares_float32 (lit "A") [lit ".1"] name_A (by decide) (by unfold IsToken; decide)) rfl (1 / 10)
    ((floatLit_iff (lit ".1") (1 / 10)).1 (by decide +kernel)) (by unfold Normal; decide +kernel)).1 (by unfold AllowedNumber; decide +kernel)
  rw [show fl (1 / 10) = 3602879701896397 / 36028797018963968 by decide +kernel] at this
  exact this

/-- `C143_blank` and `C143_hash` apply to `uint8 A = ' '` and `uint8 A = '#'`. -/
example : ∃ e, parseLine noNested (evalLit fun _ => none) [lit "uint8", lit "A", lit "=", lit "'", lit "'"] = .error e :=
  (C143_blank (fun _ => none) '\'' (.inl rfl) (declares_uint8 (lit "A") [lit "'", lit "'"] name_A (by decide) (by unfold IsToken; decide))
    (by unfold IsToken; decide) (by unfold IsToken; decide)).2

end Parser
end Dronecan
