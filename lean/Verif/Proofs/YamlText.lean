import Verif.Proofs.Display

/-!
# Reading scalars
-/

namespace Dronecan
namespace YamlSpec

open Text Parser Display

/-! ## Characters of numbers and words -/

/-- A character of a number or of `true` and `false`. -/
def LeafChar (c : Char) : Prop := c.isAlphanum = true ∨ c = '-' ∨ c = '.'

/-- A text that is a number or a word. -/
def Leaf (s : Str) : Prop := s ≠ [] ∧ ∀ c ∈ s, LeafChar c

theorem alphanum_ne (c d : Char) (h : c.isAlphanum = true) (hd : d.isAlphanum = false) : c ≠ d := by rintro rfl; rw [h] at hd; cases hd

theorem LeafChar.ne {c : Char} (h : LeafChar c) (d : Char) (hd : d.isAlphanum = false) (h1 : d ≠ '-') (h2 : d ≠ '.') : c ≠ d := by
  rcases h with h | rfl | rfl
  · exact alphanum_ne c d h hd
  · exact fun e => h1 e.symm
  · exact fun e => h2 e.symm

theorem LeafChar.not_indicator {c : Char} (h : LeafChar c) : indicator c = false := by
  have : ∀ d ∈ "[]{}#&*!|>'\"%@`,?:".toList, d.isAlphanum = false ∧ d ≠ '-' ∧ d ≠ '.' := by decide +kernel
  unfold indicator
  rw [decide_eq_false_iff_not]
  intro hc
  obtain ⟨h1, h2, h3⟩ := this c hc
  exact h.ne c h1 h2 h3 rfl

theorem LeafChar.ne_space {c : Char} (h : LeafChar c) : c ≠ ' ' := h.ne _ (by decide) (by decide) (by decide)
theorem LeafChar.ne_hash {c : Char} (h : LeafChar c) : c ≠ '#' := h.ne _ (by decide) (by decide) (by decide)
theorem LeafChar.ne_newline {c : Char} (h : LeafChar c) : c ≠ '\n' := h.ne _ (by decide) (by decide) (by decide)
theorem LeafChar.ne_comma {c : Char} (h : LeafChar c) : c ≠ ',' := h.ne _ (by decide) (by decide) (by decide)
theorem LeafChar.ne_bracket {c : Char} (h : LeafChar c) : c ≠ ']' := h.ne _ (by decide) (by decide) (by decide)

theorem isDigit_leaf (c : Char) (h : c.isDigit = true) : LeafChar c := .inl (by simp [Char.isAlphanum, h])

/-! ## Blanks and comments -/

theorem dropSpaces_cons (c : Char) (cs : Str) (h : c ≠ ' ') : dropSpaces (c :: cs) = c :: cs := by simp [dropSpaces, h]

theorem dropSpaces_leaf (s : Str) (h : Leaf s) : dropSpaces s = s := by
  cases s with
  | nil => rfl
  | cons c cs => exact dropSpaces_cons c cs (h.2 c (by simp)).ne_space

theorem trimEnd_of_last (s : Str) (c : Char) (h : c ≠ ' ') : trimEnd (s ++ [c]) = s ++ [c] := by
  simp [trimEnd, dropSpaces, h]

theorem trimEnd_leaf (s : Str) (h : ∀ c ∈ s, LeafChar c) : trimEnd s = s := by
  rcases List.eq_nil_or_concat s with rfl | ⟨t, c, rfl⟩
  · rfl
  · rw [List.concat_eq_append]
    exact trimEnd_of_last t c (h c (by simp)).ne_space

/-- Nothing, or a comment after a blank. -/
def Note (s : Str) : Prop := s = [] ∨ ∃ x, s = ' ' :: '#' :: x

theorem beforeComment_cons (c : Char) (cs : Str) (h : c ≠ ' ') : beforeComment (c :: cs) = c :: beforeComment cs := by
  rw [beforeComment]
  intro _ h1
  exact absurd h1 h

theorem beforeComment_note (s note : Str) (hs : ∀ c ∈ s, c ≠ ' ') (hn : Note note) : beforeComment (s ++ note) = s := by
  induction s with
  | nil => rcases hn with rfl | ⟨x, rfl⟩ <;> rfl
  | cons c cs ih => rw [List.cons_append, beforeComment_cons _ _ (hs c (by simp)), ih fun d hd => hs d (by simp [hd])]

theorem onlyComment_note (s : Str) (h : Note s) : onlyComment s = true := by
  have := beforeComment_note [] s (by simp) h
  simp only [List.nil_append] at this
  simp [onlyComment, this, trimEnd, dropSpaces]

/-! ## Plain scalars -/

theorem inline_plain (c : Char) (cs : Str) (h : LeafChar c) :
    inline (c :: cs) = let t := trimEnd (beforeComment (c :: cs)); if t = [] ∨ t.any indicator = true then none else some (resolve t) := by
  have h1 : c ≠ '\'' := h.ne _ (by decide) (by decide) (by decide)
  have h2 : c ≠ '"' := h.ne _ (by decide) (by decide) (by decide)
  have h3 : c ≠ '[' := h.ne _ (by decide) (by decide) (by decide)
  have h4 : c ≠ '{' := h.ne _ (by decide) (by decide) (by decide)
  unfold inline
  split <;> rename_i heq <;> simp_all

theorem inline_leaf (s note : Str) (hs : Leaf s) (hn : Note note) : inline (s ++ note) = some (resolve s) := by
  have hb := beforeComment_note s note (fun c hc => (hs.2 c hc).ne_space) hn
  cases s with
  | nil => exact absurd rfl hs.1
  | cons c cs =>
    rw [List.cons_append, inline_plain _ _ (hs.2 c (by simp)), ← List.cons_append, hb, trimEnd_leaf _ hs.2]
    simp only
    rw [if_neg]
    rintro (h | h)
    · cases h
    · obtain ⟨d, hd, hi⟩ := List.any_eq_true.1 h
      rw [(hs.2 d hd).not_indicator] at hi
      cases hi

/-! ## Numbers -/

theorem number_append (s t : Str) (a : Nat) : number a (s ++ t) = (number a s).bind fun n => number n t := by
  induction s generalizing a with
  | nil => rfl
  | cons c cs ih =>
    simp only [List.cons_append, number]
    split
    · exact ih _
    · rfl

theorem digitChar_facts (d : Nat) (h : d < 10) : (Nat.digitChar d).isDigit = true ∧ (Nat.digitChar d).toNat - 48 = d := by
  have : ∀ d : Fin 10, (Nat.digitChar d).isDigit = true ∧ (Nat.digitChar d).toNat - 48 = d.1 := by decide
  exact this ⟨d, h⟩

theorem number_digitChar (a d : Nat) (h : d < 10) : number a [Nat.digitChar d] = some (10 * a + d) := by
  obtain ⟨h1, h2⟩ := digitChar_facts d h
  simp [number, h1, h2]

theorem number_decimal (n : Nat) : number 0 (decimal n) = some n := by
  unfold decimal
  induction n using Nat.strongRecOn with
  | ind n ih =>
    by_cases h : n < 10
    · rw [Nat.toDigits_of_lt_base h, number_digitChar 0 n h]
      simp
    · rw [Nat.toDigits_of_base_le (by omega) (by omega), number_append, ih (n / 10) (by omega)]
      show number (n / 10) [Nat.digitChar (n % 10)] = _
      rw [number_digitChar _ _ (by omega)]
      congr 1
      omega

theorem decimal_digits (n : Nat) : ∀ c ∈ decimal n, c.isDigit = true := fun c hc => Nat.isDigit_of_mem_toDigits (by omega) (by omega) hc

theorem decimal_ne (n : Nat) : decimal n ≠ [] := Nat.toDigits_ne_nil

theorem decimal_leaf (n : Nat) : Leaf (decimal n) := ⟨decimal_ne n, fun c hc => isDigit_leaf c (decimal_digits n c hc)⟩

theorem lastDigits_length (k n : Nat) : (lastDigits k n).length = k := by
  induction k generalizing n with
  | zero => rfl
  | succ k ih => simp [lastDigits, ih]

theorem lastDigits_digits (k n : Nat) : ∀ c ∈ lastDigits k n, c.isDigit = true := by
  induction k generalizing n with
  | zero => simp [lastDigits]
  | succ k ih =>
    intro c hc
    simp only [lastDigits, List.mem_append, List.mem_singleton] at hc
    rcases hc with hc | rfl
    · exact ih _ c hc
    · exact (digitChar_facts _ (Nat.mod_lt _ (by omega))).1

theorem number_lastDigits (a k n : Nat) : number a (lastDigits k n) = some (a * 10 ^ k + n % 10 ^ k) := by
  induction k generalizing n with
  | zero => simp [lastDigits, number, Nat.mod_one]
  | succ k ih =>
    rw [lastDigits, number_append, ih]
    show number _ [Nat.digitChar (n % 10)] = _
    rw [number_digitChar _ _ (by omega)]
    congr 1
    rw [Nat.pow_succ, Nat.mul_comm (10 ^ k) 10, Nat.mod_mul, Nat.mul_add, Nat.add_assoc, Nat.add_comm (10 * _) (n % 10), Nat.mul_left_comm]

theorem takeWhile_append_stop {α : Type} (p : α → Bool) (s t : List α) (h : ∀ x ∈ s, p x = true) (ht : ∀ x, t.head? = some x → p x = false) :
    (s ++ t).takeWhile p = s ∧ (s ++ t).dropWhile p = t := by
  induction s with
  | nil =>
    cases t with
    | nil => simp
    | cons x xs => simp [ht x rfl]
  | cons c cs ih =>
    have := ih fun x hx => h x (by simp [hx])
    simp [h c (by simp), this.1, this.2]

theorem digit_ne_point (c : Char) (h : c.isDigit = true) : c ≠ '.' := by rintro rfl; cases h

theorem unsignedNumber_int (neg : Bool) (n : Nat) : unsignedNumber neg (decimal n) = some (.int (if neg then -(n : Int) else n)) := by
  have h := takeWhile_append_stop (fun c => decide (c ≠ '.')) (decimal n) [] (fun c hc => by simpa using digit_ne_point c (decimal_digits n c hc)) (by simp)
  rw [List.append_nil] at h
  unfold unsignedNumber
  simp only [h.1, h.2, natural, if_neg (decimal_ne n), number_decimal]
  rfl

theorem unsignedNumber_dec (neg : Bool) (k n : Nat) (hk : 0 < k) :
    unsignedNumber neg (decimal (n / 10 ^ k) ++ ['.'] ++ lastDigits k n) = some (.dec neg n k) := by
  have h := takeWhile_append_stop (fun c => decide (c ≠ '.')) (decimal (n / 10 ^ k)) ('.' :: lastDigits k n)
    (fun c hc => by simpa using digit_ne_point c (decimal_digits _ c hc)) (by simp)
  have hl : lastDigits k n ≠ [] := by intro e; have := lastDigits_length k n; rw [e] at this; simp at this; omega
  unfold unsignedNumber
  simp only [List.append_assoc, List.singleton_append, h.1, h.2]
  rw [if_neg (by simp [decimal_ne, hl]), natural, if_neg (by simp [decimal_ne]), number_append, number_decimal]
  show Option.map _ (number (n / 10 ^ k) (lastDigits k n)) = _
  rw [number_lastDigits, lastDigits_length]
  show some (Tree.dec neg _ k) = _
  congr 2
  have := Nat.div_add_mod n (10 ^ k)
  rw [Nat.mul_comm] at this
  exact this

theorem digit_ne (c d : Char) (h : c.isDigit = true) (hd : d.isDigit = false) : c ≠ d := by rintro rfl; rw [h] at hd; cases hd

theorem resolve_digit (c : Char) (cs : Str) (t : Tree) (hc : c.isDigit = true) (h : unsignedNumber false (c :: cs) = some t) : resolve (c :: cs) = t := by
  have hne : ∀ (d : Char) (ds : Str), d.isDigit = false → c :: cs ≠ d :: ds := fun d ds hd e => digit_ne c d hc hd (List.cons.inj e).1
  unfold resolve
  rw [if_neg (by rintro (e | e | e); cases e; exact hne 'n' _ (by decide) e; exact hne '~' _ (by decide) e), if_neg (show ¬ c :: cs = "true".toList from fun e => hne 't' _ (by decide) e),
    if_neg (show ¬ c :: cs = "false".toList from fun e => hne 'f' _ (by decide) e), 
    if_neg (show ¬ c :: cs = ".inf".toList from fun e => hne '.' _ (by decide) e), if_neg (show ¬ c :: cs = "-.inf".toList from fun e => hne '-' _ (by decide) e),
    if_neg (show ¬ c :: cs = ".nan".toList from fun e => hne '.' _ (by decide) e)]
  split <;> rename_i heq
  · split at heq
    · rename_i e; exact absurd e (hne _ _ (by decide))
    · rw [h] at heq; cases heq; rfl
  · split at heq
    · rename_i e; exact absurd e (hne _ _ (by decide))
    · rw [h] at heq; cases heq

theorem resolve_minus (c : Char) (cs : Str) (t : Tree) (hc : c.isDigit = true) (h : unsignedNumber true (c :: cs) = some t) : resolve ('-' :: c :: cs) = t := by
  have hne : ∀ (ds : Str), c :: cs ≠ '.' :: ds := fun ds e => digit_ne c '.' hc (by decide) (List.cons.inj e).1
  unfold resolve
  rw [if_neg (by rintro (e | e | e) <;> cases e), if_neg (by intro e; cases e), if_neg (by intro e; cases e), if_neg (by intro e; cases e),
    if_neg (by intro e; exact hne _ (List.cons.inj e).2), if_neg (by intro e; cases e)]
  simp only [h]

theorem intText_leaf (i : Int) : Leaf (intText i) := by
  unfold intText
  split
  · exact ⟨by simp, fun c hc => by
      rcases List.mem_cons.1 hc with rfl | hc
      · exact .inr (.inl rfl)
      · exact (decimal_leaf _).2 c hc⟩
  · exact decimal_leaf _

theorem decimal_head_digit' (n : Nat) : ∃ c cs, decimal n = c :: cs ∧ c.isDigit = true := by
  cases h : decimal n with
  | nil => exact absurd h (decimal_ne n)
  | cons c cs => exact ⟨c, cs, rfl, decimal_digits n c (by simp [h])⟩

theorem resolve_intText (i : Int) : resolve (intText i) = .int i := by
  obtain ⟨c, cs, hd, hc⟩ := decimal_head_digit' i.natAbs
  unfold intText
  split
  · have := unsignedNumber_int true i.natAbs
    rw [hd] at this ⊢
    rw [resolve_minus c cs _ hc this]
    simp
    omega
  · have := unsignedNumber_int false i.natAbs
    rw [hd] at this ⊢
    rw [resolve_digit c cs _ hc this]
    simp
    omega

/-- The digits of a float. -/
def fixedNat (k : Nat) (q : Rat) : Nat := (roundHalfEven (q * (10 : Rat) ^ k)).toNat

theorem fixed_leaf (k : Nat) (neg : Bool) (q : Rat) : Leaf (fixed k (.fin neg q)) := by
  refine ⟨by simp [fixed], fun c hc => ?_⟩
  simp only [fixed, List.mem_append, List.mem_singleton] at hc
  rcases hc with ((hc | hc) | rfl) | hc
  · split at hc
    · rw [List.mem_singleton] at hc; exact .inr (.inl hc)
    · cases hc
  · exact (decimal_leaf _).2 c hc
  · exact .inr (.inr rfl)
  · exact isDigit_leaf c (lastDigits_digits _ _ c hc)

theorem resolve_fixed (k : Nat) (hk : 0 < k) (neg : Bool) (q : Rat) : resolve (fixed k (.fin neg q)) = .dec neg (fixedNat k q) k := by
  have h := fun b => unsignedNumber_dec b k (fixedNat k q) hk
  obtain ⟨c, cs, hd, hc⟩ := decimal_head_digit' (fixedNat k q / 10 ^ k)
  simp only [hd, List.cons_append] at h
  unfold fixed
  simp only
  change resolve ((if neg = true then ['-'] else []) ++ decimal (fixedNat k q / 10 ^ k) ++ ['.'] ++ lastDigits k (fixedNat k q)) = _
  rw [hd]
  cases neg
  · exact resolve_digit c _ _ hc (h false)
  · exact resolve_minus c _ _ hc (h true)

theorem roundHalfEven_near (m : Rat) : ((roundHalfEven m : Int) : Rat) ≤ m + 1 / 2 ∧ m ≤ ((roundHalfEven m : Int) : Rat) + 1 / 2 := by
  have h1 : (m.floor : Rat) ≤ m := Rat.floor_le m
  have h2 : m < (m.floor : Rat) + 1 := by
    have := @Rat.lt_floor m
    grind
  unfold roundHalfEven
  simp only
  split
  · grind
  · split
    · grind
    · split
      · grind
      · grind

theorem fixedNat_near (k : Nat) (q : Rat) (hq : 0 ≤ q) :
    ((fixedNat k q : Nat) : Rat) ≤ q * (10 : Rat) ^ k + 1 / 2 ∧ q * (10 : Rat) ^ k ≤ ((fixedNat k q : Nat) : Rat) + 1 / 2 := by
  have h10 : (0 : Rat) ≤ (10 : Rat) ^ k := Rat.pow_nonneg (by decide +kernel)
  have hm : 0 ≤ q * (10 : Rat) ^ k := Rat.mul_nonneg hq h10
  obtain ⟨h1, h2⟩ := roundHalfEven_near (q * (10 : Rat) ^ k)
  have hpos : 0 ≤ roundHalfEven (q * (10 : Rat) ^ k) := by
    have hf : 0 ≤ (q * (10 : Rat) ^ k).floor := Rat.le_floor_iff.2 (by simpa using hm)
    unfold roundHalfEven
    simp only
    split
    · exact hf
    · split
      · omega
      · split <;> omega
  have : ((fixedNat k q : Nat) : Rat) = ((roundHalfEven (q * (10 : Rat) ^ k) : Int) : Rat) := by
    unfold fixedNat
    rw [← Rat.intCast_natCast, Int.toNat_of_nonneg hpos]
  rw [this]
  exact ⟨h1, h2⟩

end YamlSpec
end Dronecan
