import Verif.Model.Parser
import Verif.Props.Tokens

/-!
# Array sizes (C58)
-/

namespace Dronecan
namespace Parser

open Text

/-! ## Integer literals, as a grammar -/

/-- `digit (["_"] digit)*` in a base, with its value. -/
inductive Digits (base : Nat) : Str → Nat → Prop where
  | one (c : Char) (d : Nat) : digitVal c = some d → d < base → Digits base [c] d
  | more (s : Str) (n : Nat) (c : Char) (d : Nat) : Digits base s n → digitVal c = some d → d < base → Digits base (s ++ [c]) (n * base + d)
  | underscore (s : Str) (n : Nat) (c : Char) (d : Nat) : Digits base s n → digitVal c = some d → d < base →
      Digits base (s ++ ['_', c]) (n * base + d)

/-- The integer literals of Python: decimal ones without leading zeros, zero, and those with a prefix. -/
inductive Literal : Str → Nat → Prop where
  | decimal (s : Str) (n : Nat) : Digits 10 s n → s.head? ≠ some '0' → Literal s n
  | zero (s : Str) : Digits 10 s 0 → Literal s 0
  | hex (x : Char) (s : Str) (n : Nat) : (x = 'x' ∨ x = 'X') → Digits 16 s n → Literal ('0' :: x :: s) n
  | hexU (x : Char) (s : Str) (n : Nat) : (x = 'x' ∨ x = 'X') → Digits 16 s n → Literal ('0' :: x :: '_' :: s) n
  | oct (x : Char) (s : Str) (n : Nat) : (x = 'o' ∨ x = 'O') → Digits 8 s n → Literal ('0' :: x :: s) n
  | octU (x : Char) (s : Str) (n : Nat) : (x = 'o' ∨ x = 'O') → Digits 8 s n → Literal ('0' :: x :: '_' :: s) n
  | bin (x : Char) (s : Str) (n : Nat) : (x = 'b' ∨ x = 'B') → Digits 2 s n → Literal ('0' :: x :: s) n
  | binU (x : Char) (s : Str) (n : Nat) : (x = 'b' ∨ x = 'B') → Digits 2 s n → Literal ('0' :: x :: '_' :: s) n

/-- With an optional sign, and white space around. -/
inductive IntLiteral : Str → Int → Prop where
  | plain (s : Str) (n : Nat) : Literal s n → IntLiteral s n
  | plus (s : Str) (n : Nat) : Literal s n → IntLiteral ('+' :: s) n
  | minus (s : Str) (n : Nat) : Literal s n → IntLiteral ('-' :: s) (-(n : Int))

theorem digit_some (base : Nat) (c : Char) (d : Nat) : digit base c = some d ↔ digitVal c = some d ∧ d < base := by
  unfold digit
  cases h : digitVal c with
  | none => simp
  | some e =>
    by_cases he : e < base
    · simp only [if_pos he, Option.some.injEq]
      constructor
      · rintro rfl; exact ⟨rfl, he⟩
      · exact fun h => h.1
    · simp only [if_neg he, Option.some.injEq]
      constructor
      · intro h; simp at h
      · rintro ⟨rfl, h2⟩; exact absurd h2 he

theorem digitVal_underscore : digitVal '_' = none := by decide

theorem digitsTail_sound (base : Nat) (acc : Nat) (s : Str) (n : Nat) (pre : Str) (hp : Digits base pre acc)
    (h : digitsTail base acc s = some n) : Digits base (pre ++ s) n := by
  fun_induction digitsTail base acc s generalizing pre with
  | case1 acc =>
    cases h
    simpa using hp
  | case2 acc c cs d hd ih =>
    obtain ⟨h1, h2⟩ := (digit_some _ _ _).1 hd
    have := ih (pre ++ ['_', c]) (.underscore _ _ _ _ hp h1 h2) h
    simpa using this
  | case3 => simp at h
  | case4 acc c cs _ d hd ih =>
    obtain ⟨h1, h2⟩ := (digit_some _ _ _).1 hd
    have := ih (pre ++ [c]) (.more _ _ _ _ hp h1 h2) h
    simpa using this
  | case5 => simp at h

theorem digits_sound (base : Nat) (s : Str) (n : Nat) (h : digits base s = some n) : Digits base s n := by
  cases s with
  | nil => simp [digits] at h
  | cons c cs =>
    simp only [digits] at h
    cases hd : digit base c with
    | none => simp [hd] at h
    | some d =>
      simp only [hd] at h
      obtain ⟨h1, h2⟩ := (digit_some _ _ _).1 hd
      exact digitsTail_sound base d cs n [c] (.one _ _ h1 h2) h

theorem digitsTail_append (base : Nat) (acc : Nat) (s t : Str) (n : Nat) (h : digitsTail base acc s = some n) :
    digitsTail base acc (s ++ t) = digitsTail base n t := by
  fun_induction digitsTail base acc s with
  | case1 acc => cases h; rfl
  | case2 acc c cs d hd ih =>
    rw [List.cons_append, List.cons_append]
    simp only [digitsTail, hd]
    exact ih h
  | case3 => simp at h
  | case4 acc c cs hc d hd ih =>
    have hu : c ≠ '_' := by
      rintro rfl
      obtain ⟨h1, _⟩ := (digit_some _ _ _).1 hd
      rw [digitVal_underscore] at h1
      simp at h1
    rw [List.cons_append, digitsTail]
    · simp only [hd]
      exact ih h
    · intro c' cs' h1 _; exact hu h1
  | case5 => simp at h

theorem digitsTail_one (base acc : Nat) (c : Char) (d : Nat) (hd : digit base c = some d) : digitsTail base acc [c] = some (acc * base + d) := by
  rw [digitsTail]
  · simp [hd, digitsTail]
  · simp

theorem digits_complete (base : Nat) (s : Str) (n : Nat) (h : Digits base s n) : digits base s = some n := by
  induction h with
  | one c d h1 h2 =>
    simp [digits, (digit_some _ _ _).2 ⟨h1, h2⟩, digitsTail]
  | more s n c d _ h1 h2 ih =>
    cases s with
    | nil => simp [digits] at ih
    | cons x xs =>
      simp only [digits, List.cons_append] at ih ⊢
      cases hx : digit base x with
      | none => simp [hx] at ih
      | some y =>
        simp only [hx] at ih ⊢
        rw [digitsTail_append _ _ _ _ _ ih]
        exact digitsTail_one _ _ _ _ ((digit_some _ _ _).2 ⟨h1, h2⟩)
  | underscore s n c d _ h1 h2 ih =>
    cases s with
    | nil => simp [digits] at ih
    | cons x xs =>
      simp only [digits, List.cons_append] at ih ⊢
      cases hx : digit base x with
      | none => simp [hx] at ih
      | some y =>
        simp only [hx] at ih ⊢
        rw [digitsTail_append _ _ _ _ _ ih]
        simp [digitsTail, (digit_some _ _ _).2 ⟨h1, h2⟩]

theorem digits_iff (base : Nat) (s : Str) (n : Nat) : digits base s = some n ↔ Digits base s n :=
  ⟨digits_sound _ _ _, digits_complete _ _ _⟩

/-- Digits begin with a digit. -/
theorem digits_head (base : Nat) (s : Str) (n : Nat) (h : Digits base s n) : ∃ c cs d, s = c :: cs ∧ digitVal c = some d ∧ d < base := by
  have := digits_complete _ _ _ h
  cases s with
  | nil => simp [digits] at this
  | cons c cs =>
    simp only [digits] at this
    cases hd : digit base c with
    | none => simp [hd] at this
    | some d => exact ⟨c, cs, d, rfl, (digit_some _ _ _).1 hd⟩

theorem digits_tail_head (base : Nat) (c x : Char) (cs : Str) (n : Nat) (h : Digits base (c :: x :: cs) n) :
    x = '_' ∨ ∃ d, digitVal x = some d ∧ d < base := by
  have := digits_complete _ _ _ h
  simp only [digits] at this
  cases hd : digit base c with
  | none => simp [hd] at this
  | some d =>
    simp only [hd] at this
    by_cases hx : x = '_'
    · exact .inl hx
    · rw [digitsTail] at this
      · cases hd2 : digit base x with
        | none => simp [hd2] at this
        | some e => exact .inr ⟨e, (digit_some _ _ _).1 hd2⟩
      · intro c' cs' h1 _; exact hx h1

theorem skipUnderscore_cases (base : Nat) (s : Str) (n : Nat) :
    digits base (skipUnderscore s) = some n ↔ Digits base s n ∨ ∃ t, s = '_' :: t ∧ Digits base t n := by
  have hno : ∀ t, ¬ Digits base ('_' :: t) n := by
    intro t h
    obtain ⟨c, cs, d, he, hd, _⟩ := digits_head _ _ _ h
    cases he
    rw [digitVal_underscore] at hd
    simp at hd
  by_cases hs : ∃ t, s = '_' :: t
  · obtain ⟨t, rfl⟩ := hs
    simp only [skipUnderscore, digits_iff]
    constructor
    · intro h; exact .inr ⟨t, rfl, h⟩
    · rintro (h | ⟨t', he, h⟩)
      · exact absurd h (hno t)
      · cases he; exact h
  · have : skipUnderscore s = s := by
      unfold skipUnderscore
      split
      · exact absurd ⟨_, rfl⟩ hs
      · rfl
    rw [this, digits_iff]
    constructor
    · exact .inl
    · rintro (h | ⟨t, he, _⟩)
      · exact h
      · exact absurd ⟨t, he⟩ hs

theorem unsigned0_iff (s : Str) (n : Nat) : unsigned0 s = some n ↔ Literal s n := by
  by_cases hs : ∃ x cs, s = '0' :: x :: cs
  · obtain ⟨x, cs, rfl⟩ := hs
    simp only [unsigned0]
    by_cases hx : x = 'x' ∨ x = 'X'
    · rw [if_pos hx, skipUnderscore_cases]
      constructor
      · rintro (h | ⟨t, rfl, h⟩)
        · exact .hex x cs n hx h
        · exact .hexU x t n hx h
      · intro h
        have hnd : ¬ (x = '_' ∨ ∃ d, digitVal x = some d ∧ d < 10) := by rcases hx with rfl | rfl <;> decide
        generalize hw : '0' :: x :: cs = w at h
        cases h with
        | decimal _ _ h _ => subst hw; exact absurd (digits_tail_head _ _ _ _ _ h) hnd
        | zero _ h => subst hw; exact absurd (digits_tail_head _ _ _ _ _ h) hnd
        | hex y t _ _ h => cases hw; exact .inl h
        | hexU y t _ _ h => cases hw; exact .inr ⟨t, rfl, h⟩
        | oct y t _ hy h => cases hw; rcases hx with rfl | rfl <;> simp at hy
        | octU y t _ hy h => cases hw; rcases hx with rfl | rfl <;> simp at hy
        | bin y t _ hy h => cases hw; rcases hx with rfl | rfl <;> simp at hy
        | binU y t _ hy h => cases hw; rcases hx with rfl | rfl <;> simp at hy
    · rw [if_neg hx]
      by_cases ho : x = 'o' ∨ x = 'O'
      · rw [if_pos ho, skipUnderscore_cases]
        constructor
        · rintro (h | ⟨t, rfl, h⟩)
          · exact .oct x cs n ho h
          · exact .octU x t n ho h
        · intro h
          have hnd : ¬ (x = '_' ∨ ∃ d, digitVal x = some d ∧ d < 10) := by rcases ho with rfl | rfl <;> decide
          generalize hw : '0' :: x :: cs = w at h
          cases h with
          | decimal _ _ h _ => subst hw; exact absurd (digits_tail_head _ _ _ _ _ h) hnd
          | zero _ h => subst hw; exact absurd (digits_tail_head _ _ _ _ _ h) hnd
          | hex y t _ hy h => cases hw; exact absurd hy hx
          | hexU y t _ hy h => cases hw; exact absurd hy hx
          | oct y t _ hy h => cases hw; exact .inl h
          | octU y t _ hy h => cases hw; exact .inr ⟨t, rfl, h⟩
          | bin y t _ hy h => cases hw; rcases ho with rfl | rfl <;> simp at hy
          | binU y t _ hy h => cases hw; rcases ho with rfl | rfl <;> simp at hy
      · rw [if_neg ho]
        by_cases hb : x = 'b' ∨ x = 'B'
        · rw [if_pos hb, skipUnderscore_cases]
          constructor
          · rintro (h | ⟨t, rfl, h⟩)
            · exact .bin x cs n hb h
            · exact .binU x t n hb h
          · intro h
            have hnd : ¬ (x = '_' ∨ ∃ d, digitVal x = some d ∧ d < 10) := by rcases hb with rfl | rfl <;> decide
            generalize hw : '0' :: x :: cs = w at h
            cases h with
            | decimal _ _ h _ => subst hw; exact absurd (digits_tail_head _ _ _ _ _ h) hnd
            | zero _ h => subst hw; exact absurd (digits_tail_head _ _ _ _ _ h) hnd
            | hex y t _ hy h => cases hw; exact absurd hy hx
            | hexU y t _ hy h => cases hw; exact absurd hy hx
            | oct y t _ hy h => cases hw; exact absurd hy ho
            | octU y t _ hy h => cases hw; exact absurd hy ho
            | bin y t _ hy h => cases hw; exact .inl h
            | binU y t _ hy h => cases hw; exact .inr ⟨t, rfl, h⟩
        · rw [if_neg hb]
          constructor
          · intro h
            cases hd : digits 10 ('0' :: x :: cs) with
            | none => simp [hd] at h
            | some m =>
              simp only [hd] at h
              split at h
              · next hm =>
                subst hm
                cases h
                exact .zero _ ((digits_iff _ _ _).1 hd)
              · simp at h
          · intro h
            generalize hw : '0' :: x :: cs = w at h
            cases h with
            | decimal _ _ h h0 => subst hw; simp at h0
            | zero _ h => rw [(digits_iff _ _ _).2 h]; rfl
            | hex y t _ hy h => cases hw; exact absurd hy hx
            | hexU y t _ hy h => cases hw; exact absurd hy hx
            | oct y t _ hy h => cases hw; exact absurd hy ho
            | octU y t _ hy h => cases hw; exact absurd hy ho
            | bin y t _ hy h => cases hw; exact absurd hy hb
            | binU y t _ hy h => cases hw; exact absurd hy hb
  · have hu : unsigned0 s = digits 10 s := by
      unfold unsigned0
      split
      · next x cs => exact absurd ⟨x, cs, rfl⟩ hs
      · rfl
    rw [hu, digits_iff]
    constructor
    · intro h
      by_cases h0 : s.head? = some '0'
      · have : s = ['0'] := by
          cases s with
          | nil => simp at h0
          | cons c cs =>
            simp only [List.head?_cons, Option.some.injEq] at h0
            subst h0
            cases cs with
            | nil => rfl
            | cons x cs => exact absurd ⟨x, cs, rfl⟩ hs
        subst this
        have h2 := digits_complete _ _ _ h
        have h3 : digits 10 ['0'] = some 0 := by decide
        rw [h3] at h2
        cases h2
        exact .zero _ h
      · exact .decimal _ _ h h0
    · intro h
      cases h with
      | decimal _ _ h _ => exact h
      | zero _ h => exact h
      | hex y t _ hy h => exact absurd ⟨_, _, rfl⟩ hs
      | hexU y t _ hy h => exact absurd ⟨_, _, rfl⟩ hs
      | oct y t _ hy h => exact absurd ⟨_, _, rfl⟩ hs
      | octU y t _ hy h => exact absurd ⟨_, _, rfl⟩ hs
      | bin y t _ hy h => exact absurd ⟨_, _, rfl⟩ hs
      | binU y t _ hy h => exact absurd ⟨_, _, rfl⟩ hs

theorem literal_head (s : Str) (n : Nat) (h : Literal s n) : ∃ c cs d, s = c :: cs ∧ digitVal c = some d := by
  cases h with
  | decimal _ _ h _ => obtain ⟨c, cs, d, h1, h2, _⟩ := digits_head _ _ _ h; exact ⟨c, cs, d, h1, h2⟩
  | zero _ h => obtain ⟨c, cs, d, h1, h2, _⟩ := digits_head _ _ _ h; exact ⟨c, cs, d, h1, h2⟩
  | _ => exact ⟨'0', _, 0, rfl, by decide⟩

/-- `int(s, 0)` accepts exactly the integer literals. -/
theorem int0_iff (s : Str) (i : Int) : int0 s = some i ↔ IntLiteral (strip s) i := by
  unfold int0
  generalize strip s = s
  have hsign : ∀ (c : Char) (cs : Str) (n : Nat), digitVal c = none → ¬ Literal (c :: cs) n := by
    intro c cs n hc h
    obtain ⟨c', cs', d, he, hd⟩ := literal_head _ _ h
    cases he
    rw [hc] at hd
    simp at hd
  unfold signed
  split
  · next cs =>
    constructor
    · intro h
      cases hu : unsigned0 cs with
      | none => simp [hu] at h
      | some n =>
        simp only [hu, Option.map_some, Option.some.injEq] at h
        subst h
        exact .minus _ _ ((unsigned0_iff _ _).1 hu)
    · intro h
      generalize hw : '-' :: cs = w at h
      cases h with
      | plain _ n h => subst hw; exact absurd h (hsign _ _ _ (by decide))
      | plus _ n h => simp at hw
      | minus _ n h => cases hw; rw [(unsigned0_iff _ _).2 h]; rfl
  · next cs =>
    constructor
    · intro h
      cases hu : unsigned0 cs with
      | none => simp [hu] at h
      | some n =>
        simp only [hu, Option.map_some, Option.some.injEq] at h
        subst h
        exact .plus _ _ ((unsigned0_iff _ _).1 hu)
    · intro h
      generalize hw : '+' :: cs = w at h
      cases h with
      | plain _ n h => subst hw; exact absurd h (hsign _ _ _ (by decide))
      | plus _ n h => cases hw; rw [(unsigned0_iff _ _).2 h]; rfl
      | minus _ n h => simp at hw
  · next hm hp =>
    constructor
    · intro h
      cases hu : unsigned0 s with
      | none => simp [hu] at h
      | some n =>
        simp only [hu, Option.map_some, Option.some.injEq] at h
        subst h
        exact .plain _ _ ((unsigned0_iff _ _).1 hu)
    · intro h
      cases h with
      | plain _ n h => rw [(unsigned0_iff _ _).2 h]; rfl
      | plus t n h => exact absurd rfl (hp t)
      | minus t n h => exact absurd rfl (hm t)

/-! ## C58 -/

/-- `[<=N]` is a dynamic array of up to `N`. -/
theorem C58_at_most (s : Str) (r : Bool × Nat) :
    parseSize ('<' :: '=' :: s) = .ok r ↔ ∃ n : Nat, 0 < n ∧ IntLiteral (strip s) n ∧ r = (true, n) := by
  have hp : (lit "<=").isPrefixOf ('<' :: '=' :: s) = true := by simp [lit]
  simp only [parseSize, hp, if_true, List.drop_succ_cons, List.drop_zero]
  cases h : int0 s with
  | none =>
    simp only [Option.map_none, fail, reduceCtorEq, false_iff, not_exists]
    rintro n ⟨_, h2, _⟩
    rw [(int0_iff _ _).2 h2] at h
    simp at h
  | some i =>
    have hi := (int0_iff _ _).1 h
    simp only [Option.map_some]
    constructor
    · intro hr
      split at hr
      · next h0 =>
        cases hr
        exact ⟨i.toNat, by omega, by rwa [Int.toNat_of_nonneg (by omega)], rfl⟩
      · simp [fail] at hr
    · rintro ⟨n, hn, h2, rfl⟩
      rw [(int0_iff _ _).2 h2] at h
      cases h
      rw [if_pos (by omega)]
      rfl

/-- `[<N]` is a dynamic array of up to `N-1`. -/
theorem C58_less_than (s : Str) (hs : s.head? ≠ some '=') (r : Bool × Nat) :
    parseSize ('<' :: s) = .ok r ↔ ∃ n : Nat, 1 < n ∧ IntLiteral (strip s) n ∧ r = (true, n - 1) := by
  have hp : (lit "<=").isPrefixOf ('<' :: s) = false := by
    cases s with
    | nil => simp [lit]
    | cons c cs =>
      simp only [List.head?_cons, ne_eq, Option.some.injEq] at hs
      simp [lit, List.isPrefixOf, Ne.symm hs]
  have hp2 : (lit "<").isPrefixOf ('<' :: s) = true := by simp [lit]
  simp only [parseSize, hp, hp2, Bool.false_eq_true, if_true, if_false, List.drop_succ_cons, List.drop_zero]
  cases h : int0 s with
  | none =>
    simp only [Option.map_none, fail, reduceCtorEq, false_iff, not_exists]
    rintro n ⟨_, h2, _⟩
    rw [(int0_iff _ _).2 h2] at h
    simp at h
  | some i =>
    have hi := (int0_iff _ _).1 h
    simp only [Option.map_some]
    constructor
    · intro hr
      split at hr
      · next h0 =>
        cases hr
        exact ⟨i.toNat, by omega, by rwa [Int.toNat_of_nonneg (by omega)], by congr 1; omega⟩
      · simp [fail] at hr
    · rintro ⟨n, hn, h2, rfl⟩
      rw [(int0_iff _ _).2 h2] at h
      cases h
      rw [if_pos (by omega)]
      congr 2
      omega

/-- `[N]` is a static array of `N`. -/
theorem C58_exactly (s : Str) (hs : s.head? ≠ some '<') (r : Bool × Nat) :
    parseSize s = .ok r ↔ ∃ n : Nat, 0 < n ∧ IntLiteral (strip s) n ∧ r = (false, n) := by
  have hp : ∀ t, (lit "<" ++ t).isPrefixOf s = false := by
    intro t
    cases s with
    | nil => simp [lit]
    | cons c cs =>
      simp only [List.head?_cons, ne_eq, Option.some.injEq] at hs
      simp [lit, List.isPrefixOf, Ne.symm hs]
  have h1 : (lit "<=").isPrefixOf s = false := hp (lit "=")
  have h2 : (lit "<").isPrefixOf s = false := hp []
  simp only [parseSize, h1, h2, Bool.false_eq_true, if_false]
  cases h : int0 s with
  | none =>
    simp only [Option.map_none, fail, reduceCtorEq, false_iff, not_exists]
    rintro n ⟨_, h2, _⟩
    rw [(int0_iff _ _).2 h2] at h
    simp at h
  | some i =>
    have hi := (int0_iff _ _).1 h
    simp only [Option.map_some]
    constructor
    · intro hr
      split at hr
      · next h0 =>
        cases hr
        exact ⟨i.toNat, by omega, by rwa [Int.toNat_of_nonneg (by omega)], rfl⟩
      · simp [fail] at hr
    · rintro ⟨n, hn, h2, rfl⟩
      rw [(int0_iff _ _).2 h2] at h
      cases h
      rw [if_pos (by omega)]
      rfl

/-- Every other specifier is refused with a `DsdlException`, in particular non-positive sizes. -/
theorem C58_refused (s : Str) (h : ∀ r, parseSize s ≠ .ok r) : parseSize s = .error .dsdlException := by
  cases hp : parseSize s with
  | ok r => exact absurd hp (h r)
  | error e =>
    unfold parseSize at hp
    simp only [fail] at hp
    split at hp
    · cases hp; rfl
    · split at hp
      · simp at hp
      · cases hp; rfl

/-! ### Numbers written in decimal -/

theorem digitVal_digitChar (d : Nat) (h : d < 10) : digitVal d.digitChar = some d := by
  have : ∀ d : Fin 10, digitVal (Nat.digitChar d) = some d.1 := by decide
  exact this ⟨d, h⟩

theorem digits_decimal (n : Nat) : Digits 10 (decimal n) n := by
  unfold decimal
  induction n using Nat.strongRecOn with
  | ind n ih =>
    by_cases h : n < 10
    · rw [Nat.toDigits_of_lt_base h]
      exact .one _ _ (digitVal_digitChar n h) h
    · rw [Nat.toDigits_of_base_le (by omega) (by omega)]
      have := Digits.more _ _ _ _ (ih (n / 10) (by omega)) (digitVal_digitChar (n % 10) (by omega)) (Nat.mod_lt _ (by omega))
      rwa [show n / 10 * 10 + n % 10 = n by omega] at this

theorem decimal_head (n : Nat) (h : 0 < n) : (decimal n).head? ≠ some '0' := by
  unfold decimal
  induction n using Nat.strongRecOn with
  | ind n ih =>
    by_cases h10 : n < 10
    · rw [Nat.toDigits_of_lt_base h10]
      have : ∀ d : Fin 10, 0 < d.1 → Nat.digitChar d ≠ '0' := by decide
      simpa using this ⟨n, h10⟩ h
    · rw [Nat.toDigits_of_base_le (by omega) (by omega)]
      have h2 := ih (n / 10) (by omega) (by omega)
      have hne : Nat.toDigits 10 (n / 10) ≠ [] := Nat.toDigits_ne_nil
      cases ht : Nat.toDigits 10 (n / 10) with
      | nil => exact absurd ht hne
      | cons c cs => rw [ht] at h2; simpa using h2

theorem decimal_digit (n : Nat) : ∀ c ∈ decimal n, c.isDigit = true := fun c hc => Nat.isDigit_of_mem_toDigits (by omega) (by omega) hc

theorem isDigit_isSpace (c : Char) (h : c.isDigit = true) : isSpace c = false ∧ c ≠ '<' ∧ c ≠ '=' ∧ c ≠ ']' ∧ c ≠ '[' := by
  simp only [Char.isDigit, Bool.and_eq_true, decide_eq_true_eq] at h
  have h1 : 48 ≤ c.toNat := by have := h.1; exact this
  have h2 : c.toNat ≤ 57 := by have := h.2; exact this
  refine ⟨?_, ?_, ?_, ?_, ?_⟩
  · simp only [isSpace, Bool.or_eq_false_iff, Bool.and_eq_false_iff, decide_eq_false_iff_not, beq_eq_false_iff_ne]
    omega
  all_goals
    rintro rfl
    revert h1 h2
    decide

theorem strip_of_no_space (s : Str) (h : ∀ c ∈ s, isSpace c = false) : strip s = s := by
  have hd : ∀ t : Str, (∀ c ∈ t, isSpace c = false) → t.dropWhile isSpace = t := by
    intro t ht
    cases t with
    | nil => rfl
    | cons c cs => simp [List.dropWhile_cons, ht c (by simp)]
  unfold strip
  rw [hd s h, hd s.reverse (by simpa using h), List.reverse_reverse]

theorem literal_decimal (n : Nat) : IntLiteral (strip (decimal n)) n := by
  rw [strip_of_no_space _ (fun c hc => (isDigit_isSpace c (decimal_digit n c hc)).1)]
  apply IntLiteral.plain
  by_cases h : n = 0
  · subst h
    exact .zero _ (digits_decimal 0)
  · exact .decimal _ _ (digits_decimal n) (decimal_head n (by omega))

theorem decimal_head_digit (n : Nat) : ∃ c cs, decimal n = c :: cs ∧ c.isDigit = true := by
  cases h : decimal n with
  | nil => exact absurd h Nat.toDigits_ne_nil
  | cons c cs => exact ⟨c, cs, rfl, decimal_digit n c (by simp [h])⟩

/-- The three forms for a number written in decimal; sizes below one are refused. -/
theorem C58_decimal (n : Nat) :
    parseSize (lit "<=" ++ decimal n) = (if 0 < n then .ok (true, n) else .error .dsdlException) ∧
    parseSize (lit "<" ++ decimal n) = (if 1 < n then .ok (true, n - 1) else .error .dsdlException) ∧
    parseSize (decimal n) = (if 0 < n then .ok (false, n) else .error .dsdlException) := by
  obtain ⟨c, cs, hd, hc⟩ := decimal_head_digit n
  obtain ⟨_, h1, h2, _, _⟩ := isDigit_isSpace c hc
  have hv : int0 (decimal n) = some (n : Int) := (int0_iff _ _).2 (literal_decimal n)
  refine ⟨?_, ?_, ?_⟩
  · by_cases h : 0 < n
    · rw [if_pos h]
      exact (C58_at_most _ _).2 ⟨n, h, literal_decimal n, rfl⟩
    · rw [if_neg h]
      apply C58_refused
      intro r hr
      obtain ⟨m, hm, h3, _⟩ := (C58_at_most (decimal n) _).1 hr
      rw [(int0_iff _ _).2 h3] at hv
      cases hv; omega
  · have hh : (decimal n).head? ≠ some '=' := by rw [hd]; simpa using h2
    by_cases h : 1 < n
    · rw [if_pos h]
      exact (C58_less_than _ hh _).2 ⟨n, h, literal_decimal n, rfl⟩
    · rw [if_neg h]
      apply C58_refused
      intro r hr
      obtain ⟨m, hm, h3, _⟩ := (C58_less_than (decimal n) hh _).1 hr
      rw [(int0_iff _ _).2 h3] at hv
      cases hv; omega
  · have hh : (decimal n).head? ≠ some '<' := by rw [hd]; simpa using h1
    by_cases h : 0 < n
    · rw [if_pos h]
      exact (C58_exactly _ hh _).2 ⟨n, h, literal_decimal n, rfl⟩
    · rw [if_neg h]
      apply C58_refused
      intro r hr
      obtain ⟨m, hm, h3, _⟩ := (C58_exactly _ hh _).1 hr
      rw [(int0_iff _ _).2 h3] at hv
      cases hv; omega

/-! ### The type of an array -/

theorem arrayMatchAux_append (pre v spec : Str) (hv : ∀ c ∈ v, c ≠ '[') (hne : pre ++ v ≠ []) (hs : ∀ c ∈ spec, c ≠ ']') :
    arrayMatchAux pre (v ++ '[' :: spec ++ [']']) = some (pre.reverse ++ v, spec) := by
  induction v generalizing pre with
  | nil =>
    have hp : pre ≠ [] := by simpa using hne
    rw [List.nil_append, List.cons_append]
    have h1 : (spec ++ [']']).getLast? = some ']' := by simp
    have h2 : (spec ++ [']']).dropLast = spec := by simp
    have h3 : spec.contains ']' = false := by
      rw [Bool.eq_false_iff]
      intro h
      rw [List.contains_iff_mem] at h
      exact hs _ h rfl
    simp only [arrayMatchAux, h1, h2, h3]
    simp [hp]
  | cons c v ih =>
    have hc := hv c (by simp)
    rw [List.cons_append, List.cons_append]
    simp only [arrayMatchAux, hc, decide_false, Bool.false_and, Bool.false_eq_true, if_false]
    rw [ih (c :: pre) (fun x hx => hv x (List.mem_cons_of_mem _ hx)) (by simp)]
    simp

theorem arrayMatchAux_none (pre v : Str) (hv : ∀ c ∈ v, c ≠ '[') : arrayMatchAux pre v = none := by
  induction v generalizing pre with
  | nil => rfl
  | cons c v ih =>
    have hc := hv c (by simp)
    simp only [arrayMatchAux, hc, decide_false, Bool.false_and, Bool.false_eq_true, if_false]
    exact ih _ (fun x hx => hv x (List.mem_cons_of_mem _ hx))

/-- Without brackets the bound on nesting does not matter. -/
theorem parseTypeAux_fuel (nested : Str → Except Err PTy) (v : Str) (hv : ∀ c ∈ strip v, c ≠ '[') (castMode : Option Str) (m n : Nat) :
    parseTypeAux nested (m + 1) v castMode = parseTypeAux nested (n + 1) v castMode := by
  have : arrayMatch (strip v) = none := arrayMatchAux_none [] _ hv
  simp only [parseTypeAux, this]

theorem voidMatch_array (v spec : Str) : voidMatch (v ++ '[' :: spec ++ [']']) = none := by
  unfold voidMatch
  split
  · next h =>
    have hlast : (v ++ '[' :: spec ++ [']']).getLast? = some ']' := List.getLast?_concat
    generalize v ++ '[' :: spec ++ [']'] = w at h hlast
    have hd := List.getLast?_drop (l := w) (i := 4)
    simp only
    by_cases hl : w.length ≤ 4
    · have : w.drop 4 = [] := List.drop_eq_nil_of_le hl
      simp [this]
    · rw [if_neg hl, hlast] at hd
      have hm : ']' ∈ w.drop 4 := List.mem_of_getLast? hd
      have : (w.drop 4).all isDigit = false := by
        rw [Bool.eq_false_iff]
        intro ha
        have := List.all_eq_true.1 ha _ hm
        revert this
        decide
      simp [this]
  · rfl

/-- The type of an array is the type before the bracket with the size inside, provided that it is not itself an array. -/
theorem C58_array_type (nested : Str → Except Err PTy) (v spec : Str) (castMode : Option Str) (hv : v ≠ [])
    (hvc : ∀ c ∈ v, c ≠ '[' ∧ isSpace c = false) (hsc : ∀ c ∈ spec, c ≠ ']' ∧ isSpace c = false) :
    parseType nested (v ++ '[' :: spec ++ [']']) castMode =
      (do
        let t ← parseType nested v castMode
        if t.isArray then .error .dsdlException
        let (dynamic, m) ← parseSize spec
        .ok (.array t dynamic m)) := by
  have hsp : ∀ c ∈ v ++ '[' :: spec ++ [']'], isSpace c = false := by
    intro c hc
    simp only [List.append_assoc, List.cons_append, List.mem_append, List.mem_cons, List.not_mem_nil, or_false] at hc
    rcases hc with hc | rfl | hc | rfl
    · exact (hvc c hc).2
    · decide
    · exact (hsc c hc).2
    · decide
  have hst := strip_of_no_space _ hsp
  have hsv := strip_of_no_space v (fun c hc => (hvc c hc).2)
  have hss := strip_of_no_space spec (fun c hc => (hsc c hc).2)
  have ham : arrayMatch (v ++ '[' :: spec ++ [']']) = some (v, spec) := by
    have := arrayMatchAux_append [] v spec (fun c hc => (hvc c hc).1) (by simpa using hv) (fun c hc => (hsc c hc).1)
    simpa [arrayMatch] using this
  unfold parseType
  rw [parseTypeAux, hst, voidMatch_array]
  simp only [ham, hsv, hss]
  have hlen : ∃ k, (v ++ '[' :: spec ++ [']']).length = k + 1 := ⟨v.length + spec.length + 1, by simp; omega⟩
  obtain ⟨k, hk⟩ := hlen
  rw [hk, parseTypeAux_fuel nested v (by rw [hsv]; exact fun c hc => (hvc c hc).1) castMode k v.length]
  cases parseTypeAux nested (v.length + 1) v castMode with
  | error e => rfl
  | ok t =>
    simp only [bind, Except.bind, enforce, fail]
    cases t.isArray <;> simp [pure, Except.pure] <;> rfl

/-- Sizes in several notations, and array types. -/
example : parseSize (lit "<=0x10") = .ok (true, 16) ∧ parseSize (lit "<1_00") = .ok (true, 99) ∧ parseSize (lit "7") = .ok (false, 7) ∧
    parseSize (lit "<1") = .error .dsdlException ∧ parseSize (lit "007") = .error .dsdlException ∧ parseSize (lit "<=-3") = .error .dsdlException := by
  decide +kernel

example : (parseType (fun _ => fail) (lit "uint7[<9]") (some (lit "truncated"))).map PTy.norm = .ok (lit "truncated uint7[<=8]") := by
  decide +kernel

example : (parseType (fun _ => fail) (lit "uint7[3][9]") none).map PTy.norm = .error .dsdlException := by decide +kernel

/-- The digits, and their capital forms; the place of a digit is its value. -/
def smallDigits : Str := lit "0123456789abcdefghijklmnopqrstuvwxyz"
def capitalDigits : Str := lit "0123456789ABCDEFGHIJKLMNOPQRSTUVWXYZ"

/-- A character has a value as a digit just if it is one of these, and it is its place in the list. -/
theorem C58_digits (c : Char) (d : Nat) : digitVal c = some d ↔ smallDigits[d]? = some c ∨ capitalDigits[d]? = some c := by
  constructor
  · intro h
    have hc : c.toNat < 128 := by
      unfold digitVal at h
      have e : ∀ x : Char, x.toNat < 127 → c ≤ x → c.toNat < 128 := by
        intro x hx h; have : c.toNat ≤ x.toNat := h; omega
      repeat' split at h
      · exact e '9' (by decide) (by simp_all)
      · exact e 'z' (by decide) (by simp_all)
      · exact e 'Z' (by decide) (by simp_all)
      · cases h
    have all : ∀ n < 128, ∀ d ∈ digitVal (Char.ofNat n), smallDigits[d]? = some (Char.ofNat n) ∨ capitalDigits[d]? = some (Char.ofNat n) := by
      decide +kernel
    have := all c.toNat hc d
    rw [Char.ofNat_toNat] at this
    exact this h
  · have small : ∀ d < 36, smallDigits[d]?.bind digitVal = some d := by decide +kernel
    have capital : ∀ d < 36, capitalDigits[d]?.bind digitVal = some d := by decide +kernel
    rintro (h | h)
    · have hd : d < 36 := by obtain ⟨hd, _⟩ := List.getElem?_eq_some_iff.mp h; exact hd
      have := small d hd
      rwa [h] at this
    · have hd : d < 36 := by obtain ⟨hd, _⟩ := List.getElem?_eq_some_iff.mp h; exact hd
      have := capital d hd
      rwa [h] at this

example : digitVal 'a' = some 10 ∧ digitVal 'Z' = some 35 ∧ digitVal '`' = none := by decide +kernel

end Parser
end Dronecan
