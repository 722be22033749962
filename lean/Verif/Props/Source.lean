import Verif.Props.Normal

/-!
# What a definition says (C85)
-/

namespace Dronecan
namespace Parser

open Text

/-! ## Specification -/

/-- One or two digits, with their value. -/
inductive Number : Str → Nat → Prop where
  | one (a : Char) : Digit a → Number [a] (a.toNat - 48)
  | two (a b : Char) : Digit a → Digit b → Number [a, b] (10 * (a.toNat - 48) + (b.toNat - 48))

/-- The cast mode given on a line, and whether values are truncated. -/
inductive CastIs : Option Str → Bool → Prop where
  | missing : CastIs none false
  | saturated : CastIs (some (lit "saturated")) false
  | truncated : CastIs (some (lit "truncated")) true

/-- The size of an array. -/
inductive Size : Str → Bool → Nat → Prop where
  | atMost (s : Str) (n : Nat) : IntLiteral s n → 0 < n → Size ('<' :: '=' :: s) true n
  | below (s : Str) (n : Nat) : IntLiteral s n → 1 < n → Size ('<' :: s) true (n - 1)
  | exactly (s : Str) (n : Nat) : IntLiteral s n → 0 < n → Size s false n

/-- A word that looks like a type of the language: `bool`, or lower case letters and one or two digits. -/
def Basic (s : Str) : Prop := s = lit "bool" ∨ ∃ w ds n, w ≠ [] ∧ (∀ c ∈ w, Lower c) ∧ Number ds n ∧ s = w ++ ds

/-- The type that a word stands for, with the cast mode of the line; `nested` gives the structures that names refer to. Digits after
`bool` are accepted and have no effect. The cast mode of padding is ignored. -/
inductive Spells (nested : Str → Except Err PTy) : Option Str → Str → PTy → Prop where
  | void (m : Option Str) (ds : Str) (n : Nat) : Number ds n → 1 ≤ n → n ≤ 64 → Spells nested m (lit "void" ++ ds) (.void n)
  | bool (m : Option Str) (tr : Bool) : CastIs m tr → Spells nested m (lit "bool") (.prim ⟨.boolean, 1, tr⟩)
  | boolDigits (m : Option Str) (tr : Bool) (ds : Str) (n : Nat) : CastIs m tr → Number ds n →
      Spells nested m (lit "bool" ++ ds) (.prim ⟨.boolean, 1, tr⟩)
  | uint (m : Option Str) (tr : Bool) (ds : Str) (n : Nat) : CastIs m tr → Number ds n → 2 ≤ n → n ≤ 64 →
      Spells nested m (lit "uint" ++ ds) (.prim ⟨.unsigned, n, tr⟩)
  | int (m : Option Str) (tr : Bool) (ds : Str) (n : Nat) : CastIs m tr → Number ds n → 2 ≤ n → n ≤ 64 →
      Spells nested m (lit "int" ++ ds) (.prim ⟨.signed, n, tr⟩)
  | float (m : Option Str) (tr : Bool) (ds : Str) (n : Nat) : CastIs m tr → Number ds n → n = 16 ∨ n = 32 ∨ n = 64 →
      Spells nested m (lit "float" ++ ds) (.prim ⟨.float, n, tr⟩)
  | array (m : Option Str) (v size : Str) (t : PTy) (dynamic : Bool) (n : Nat) : Spells nested m v t →
      (∀ e d k, t ≠ .array e d k) → Size size dynamic n → Spells nested m (v ++ '[' :: size ++ [']']) (.array t dynamic n)
  | name (s : Str) (t : PTy) : ¬ Basic s → nested s = .ok t → Spells nested none s t

/-- Names of structures have no brackets, and stand for structures. -/
def RefNames (nested : Str → Except Err PTy) : Prop :=
  ∀ s t, nested s = .ok t → s ≠ [] ∧ (∀ c ∈ s, c ≠ '[') ∧ t.isCompound = true

/-! ## Proofs -/

theorem digit_value (a : Char) (h : Digit a) : digitVal a = some (a.toNat - 48) ∧ a.toNat - 48 < 10 := by
  obtain ⟨h1, h2⟩ := h
  refine ⟨?_, by omega⟩
  unfold digitVal
  rw [if_pos]
  exact ⟨h1, h2⟩

theorem signed_digit (f : Str → Option Nat) (c : Char) (cs : Str) (h : Digit c) : signed f (c :: cs) = (f (c :: cs)).map (fun (n : Nat) => (n : Int)) := by
  have h1 : c ≠ '+' := by rintro rfl; revert h; unfold Digit; decide
  have h2 : c ≠ '-' := by rintro rfl; revert h; unfold Digit; decide
  unfold signed
  split
  · rename_i e; injection e with e1 e2; exact absurd e1 h2
  · rename_i e; injection e with e1 e2; exact absurd e1 h1
  · rfl

theorem digit_space (c : Char) (h : Digit c) : isSpace c = false := (name_plain c (.inr (.inr (.inl h)))).1

theorem number_digits {ds : Str} {n : Nat} (h : Number ds n) : ∀ c ∈ ds, Digit c := by
  cases h with
  | one a ha => intro c hc; rw [List.mem_singleton.1 hc]; exact ha
  | two a b ha hb =>
    intro c hc
    simp only [List.mem_cons, List.not_mem_nil, or_false] at hc
    rcases hc with rfl | rfl
    · exact ha
    · exact hb

theorem number_ok {ds : Str} {n : Nat} (h : Number ds n) :
    int10 ds = some (n : Int) ∧ strip ds = ds ∧ (1 ≤ ds.length && ds.length ≤ 2 && ds.all isDigit) = true := by
  have hd := number_digits h
  have hs : strip ds = ds := strip_of_no_space ds (fun c hc => digit_space c (hd c hc))
  refine ⟨?_, hs, ?_⟩
  · unfold int10
    rw [hs]
    cases h with
    | one a ha =>
      obtain ⟨h1, h2⟩ := digit_value a ha
      rw [signed_digit _ _ _ ha, digits_complete 10 _ _ (.one a _ h1 h2)]
      rfl
    | two a b ha hb =>
      obtain ⟨h1, h2⟩ := digit_value a ha
      obtain ⟨h3, h4⟩ := digit_value b hb
      have := digits_complete 10 _ _ (.more [a] _ b _ (.one a _ h1 h2) h3 h4)
      rw [signed_digit _ _ _ ha, show [a, b] = [a] ++ [b] from rfl, this, Nat.mul_comm]
      rfl
  · have ha : ds.all isDigit = true := List.all_eq_true.2 (fun c hc => (isDigit_iff c).2 (hd c hc))
    rw [ha]
    cases h <;> rfl

theorem number_of {ds : Str} (h : (1 ≤ ds.length && ds.length ≤ 2 && ds.all isDigit) = true) : ∃ n, Number ds n := by
  simp only [Bool.and_eq_true, decide_eq_true_eq, List.all_eq_true] at h
  obtain ⟨⟨h1, h2⟩, h3⟩ := h
  match ds, h1, h2, h3 with
  | [a], _, _, h3 => exact ⟨_, .one a ((isDigit_iff a).1 (h3 a (by simp)))⟩
  | [a, b], _, _, h3 => exact ⟨_, .two a b ((isDigit_iff a).1 (h3 a (by simp))) ((isDigit_iff b).1 (h3 b (by simp)))⟩

theorem voidMatch_some (s ds : Str) (h : voidMatch s = some ds) : s = lit "void" ++ ds ∧ ∃ n, Number ds n := by
  unfold voidMatch at h
  split at h
  · rename_i hp
    dsimp only at h
    split at h
    · rename_i hd
      injection h with h
      subst h
      refine ⟨?_, number_of hd⟩
      rw [List.isPrefixOf_iff_prefix] at hp
      obtain ⟨r, rfl⟩ := hp
      rfl
    · cases h
  · cases h

theorem voidMatch_number (ds : Str) (n : Nat) (h : Number ds n) : voidMatch (lit "void" ++ ds) = some ds := by
  have hp : (lit "void").isPrefixOf (lit "void" ++ ds) = true := by
    rw [List.isPrefixOf_iff_prefix]; exact List.prefix_append _ _
  have hd : (lit "void" ++ ds).drop 4 = ds := rfl
  simp only [voidMatch, hp, hd, (number_ok h).2.2, if_true]

theorem lower_digit (c : Char) (h : Digit c) : isLower c = false := by
  rw [Bool.eq_false_iff, Ne, isLower_iff]
  intro h'
  have := h.2
  have := h'.1
  omega

theorem split_word (w ds : Str) (n : Nat) (hw : ∀ c ∈ w, Lower c) (h : Number ds n) :
    (w ++ ds).takeWhile isLower = w ∧ (w ++ ds).dropWhile isLower = ds := by
  have ha : ∀ c ∈ w, isLower c = true := fun c hc => (isLower_iff c).2 (hw c hc)
  have hd := number_digits h
  have hh : ∃ c cs, ds = c :: cs := by cases h <;> exact ⟨_, _, rfl⟩
  obtain ⟨c, cs, rfl⟩ := hh
  have hl := lower_digit c (hd c (by simp))
  rw [List.takeWhile_append_of_pos ha, List.dropWhile_append_of_pos ha]
  simp [List.takeWhile_cons, List.dropWhile_cons, hl]

theorem primMatch_word' (w ds : Str) (n : Nat) (hne : w ≠ []) (hw : ∀ c ∈ w, Lower c) (h : Number ds n) :
    primMatch (w ++ ds) = some (w, some ds) := by
  obtain ⟨h1, h2⟩ := split_word w ds n hw h
  have h3 := (number_ok h).2.2
  simp only [Bool.and_eq_true, decide_eq_true_eq] at h3
  simp only [primMatch, h1, h2]
  rw [if_pos]
  simp only [Bool.and_eq_true, decide_eq_true_eq]
  exact ⟨⟨⟨by simpa using hne, h3.1.1⟩, h3.1.2⟩, h3.2⟩

theorem primMatch_some (s base : Str) (o : Option Str) (h : primMatch s = some (base, o)) :
    (s = lit "bool" ∧ base = lit "bool" ∧ o = none) ∨
    ∃ ds n, o = some ds ∧ base ≠ [] ∧ (∀ c ∈ base, Lower c) ∧ Number ds n ∧ s = base ++ ds := by
  simp only [primMatch] at h
  split at h
  · rename_i hc
    injection h with h
    injection h with h1 h2
    subst h1 h2
    simp only [Bool.and_eq_true, decide_eq_true_eq] at hc
    right
    obtain ⟨n, hn⟩ := number_of (ds := s.dropWhile isLower) (by
      simp only [Bool.and_eq_true, decide_eq_true_eq]
      exact ⟨⟨hc.1.1.2, hc.1.2⟩, hc.2⟩)
    exact ⟨_, n, rfl, by simpa using hc.1.1.1, fun c hc' => (isLower_iff c).1 (mem_takeWhile hc'), hn, (List.takeWhile_append_dropWhile).symm⟩
  · split at h
    · rename_i hs
      injection h with h
      injection h with h1 h2
      exact .inl ⟨hs, h1 ▸ hs, h2.symm⟩
    · cases h

theorem primMatch_none (s : Str) : primMatch s = none ↔ ¬ Basic s := by
  constructor
  · intro h hb
    rcases hb with rfl | ⟨w, ds, n, h1, h2, h3, rfl⟩
    · revert h; decide
    · rw [primMatch_word' w ds n h1 h2 h3] at h; cases h
  · intro h
    cases hp : primMatch s with
    | none => rfl
    | some r =>
      obtain ⟨base, o⟩ := r
      rcases primMatch_some s base o hp with ⟨h1, -⟩ | ⟨ds, n, -, h1, h2, h3, h4⟩
      · exact absurd (.inl h1) h
      · exact absurd (.inr ⟨_, _, _, h1, h2, h3, h4⟩) h

theorem castOf_iff (m : Option Str) (tr : Bool) : castOf m = .ok tr ↔ CastIs m tr := by
  constructor
  · intro h
    cases m with
    | none => injection h with h; subst h; exact .missing
    | some c =>
      simp only [castOf] at h
      split at h
      · rename_i hc; injection h with h; subst h hc; exact .saturated
      · split at h
        · rename_i hc; injection h with h; subst h hc; exact .truncated
        · cases h
  · intro h
    cases h with
    | missing => rfl
    | saturated => rfl
    | truncated => decide

theorem parsePrimitive_digits (nested : Str → Except Err PTy) (m : Option Str) (base ds : Str) (n : Nat) (hn : Number ds n) (t : PTy)
    (h : parsePrimitive base n m = .ok t) : Spells nested m (base ++ ds) t := by
  unfold parsePrimitive at h
  obtain ⟨tr, htr, h⟩ := bind_ok h
  rw [castOf_iff] at htr
  split at h
  · rename_i hb
    injection h with h
    subst h hb
    exact .boolDigits m tr ds n htr hn
  · split at h
    · rename_i hb
      obtain ⟨hc, h⟩ := enforce_bind h
      injection h with h
      subst h hb
      simp only [Bool.or_eq_true, decide_eq_true_eq] at hc
      refine .float m tr ds n htr hn (by omega)
    · split at h
      · rename_i hb
        obtain ⟨hc, h⟩ := enforce_bind h
        injection h with h
        subst h hb
        simp only [Bool.and_eq_true, decide_eq_true_eq] at hc
        exact .uint m tr ds n htr hn (by omega) (by omega)
      · split at h
        · rename_i hb
          obtain ⟨hc, h⟩ := enforce_bind h
          injection h with h
          subst h hb
          simp only [Bool.and_eq_true, decide_eq_true_eq] at hc
          exact .int m tr ds n htr hn (by omega) (by omega)
        · cases h

theorem intLiteral_chars {s : Str} {n : Int} (h : IntLiteral s n) : s ≠ [] ∧ s.head? ≠ some '=' ∧ s.head? ≠ some '<' := by
  cases h with
  | plain s n h =>
    obtain ⟨c, cs, d, rfl, hd⟩ := literal_head s n h
    refine ⟨by simp, ?_, ?_⟩ <;>
    · intro e
      injection e with e
      subst e
      revert hd
      simp [show digitVal '=' = none by decide, show digitVal '<' = none by decide]
  | plus s n h => exact ⟨by simp, by simp, by simp⟩
  | minus s n h => exact ⟨by simp, by simp, by simp⟩

theorem parseSize_iff (s : Str) (hs : ∀ c ∈ s, isSpace c = false) (d : Bool) (n : Nat) : parseSize s = .ok (d, n) ↔ Size s d n := by
  constructor
  · intro h
    match s, hs, h with
    | '<' :: '=' :: s, hs, h =>
      obtain ⟨k, h1, h2, h3⟩ := (C58_at_most s _).1 h
      rw [strip_of_no_space s (fun c hc => hs c (by simp [hc]))] at h2
      injection h3 with h3 h4
      subst h3 h4
      exact .atMost s _ h2 h1
    | s, hs, h =>
      by_cases h0 : s.head? = some '<'
      · obtain ⟨s, rfl⟩ : ∃ r, s = '<' :: r := by
          cases s with
          | nil => cases h0
          | cons a r => injection h0 with h0; exact ⟨r, by rw [h0]⟩
        by_cases h1 : s.head? = some '='
        · obtain ⟨s, rfl⟩ : ∃ r, s = '=' :: r := by
            cases s with
            | nil => cases h1
            | cons a r => injection h1 with h1; exact ⟨r, by rw [h1]⟩
          obtain ⟨k, h1, h2, h3⟩ := (C58_at_most s _).1 h
          rw [strip_of_no_space s (fun c hc => hs c (by simp [hc]))] at h2
          injection h3 with h3 h4
          subst h3 h4
          exact .atMost s _ h2 h1
        · obtain ⟨k, h1, h2, h3⟩ := (C58_less_than s h1 _).1 h
          rw [strip_of_no_space s (fun c hc => hs c (by simp [hc]))] at h2
          injection h3 with h3 h4
          subst h3 h4
          exact .below s _ h2 h1
      · obtain ⟨k, h1, h2, h3⟩ := (C58_exactly s h0 _).1 h
        rw [strip_of_no_space s hs] at h2
        injection h3 with h3 h4
        subst h3 h4
        exact .exactly s _ h2 h1
  · intro h
    cases h with
    | atMost s n h1 h2 =>
      refine (C58_at_most s _).2 ⟨n, h2, ?_, rfl⟩
      rw [strip_of_no_space s (fun c hc => hs c (by simp [hc]))]; exact h1
    | below s n h1 h2 =>
      refine (C58_less_than s (intLiteral_chars h1).2.1 _).2 ⟨n, h2, ?_, rfl⟩
      rw [strip_of_no_space s (fun c hc => hs c (by simp [hc]))]; exact h1
    | exactly s n h1 h2 =>
      refine (C58_exactly s (intLiteral_chars h1).2.2 _).2 ⟨n, h2, ?_, rfl⟩
      rw [strip_of_no_space s hs]; exact h1

theorem arrayMatchAux_split (cs : Str) : ∀ (pre v size : Str), arrayMatchAux pre cs = some (v, size) →
    pre.reverse ++ cs = v ++ '[' :: size ++ [']'] := by
  induction cs with
  | nil => intro pre v size h; cases h
  | cons c cs ih =>
    intro pre v size h
    simp only [arrayMatchAux] at h
    split at h
    · rename_i hc
      simp only [Bool.and_eq_true, decide_eq_true_eq] at hc
      injection h with h
      injection h with h1 h2
      rcases List.eq_nil_or_concat cs with rfl | ⟨init, l, rfl⟩
      · exact absurd hc.1.2 (by simp)
      · have hl := hc.1.2
        simp only [List.concat_eq_append, List.getLast?_append, List.getLast?_singleton] at hl
        simp only [List.concat_eq_append, List.dropLast_concat] at h2
        rw [hc.1.1.1, h1, h2]
        simp only [Option.some_or, Option.some.injEq] at hl
        simp [hl]
    · have := ih _ _ _ h
      simpa using this

theorem isArray_ne {t : PTy} (h : t.isArray = false) : ∀ e d k, t ≠ .array e d k := by
  intro e d k he
  rw [he] at h
  cases h

theorem parseTypeAux_spells (nested : Str → Except Err PTy) (n : Nat) : ∀ (s : Str) (m : Option Str) (t : PTy), (∀ c ∈ s, isSpace c = false) →
    parseTypeAux nested n s m = .ok t → Spells nested m s t := by
  induction n with
  | zero => intro s m t _ h; cases h
  | succ n ih =>
    intro s m t hs h
    simp only [parseTypeAux, strip_of_no_space s hs] at h
    split at h
    · rename_i ds hv
      obtain ⟨rfl, k, hk⟩ := voidMatch_some s ds hv
      obtain ⟨h1, h2, -⟩ := number_ok hk
      rw [h2, h1] at h
      unfold parseVoid at h
      obtain ⟨hc, h⟩ := enforce_bind h
      injection h with h
      subst h
      simp only [Bool.and_eq_true, decide_eq_true_eq] at hc
      exact .void m ds k hk (by omega) (by omega)
    · split at h
      · rename_i v size hm
        have hsp := arrayMatchAux_split s [] v size hm
        simp only [List.reverse_nil, List.nil_append] at hsp
        subst hsp
        have hv : ∀ c ∈ v, isSpace c = false := fun c hc => hs c (by simp [hc])
        have hz : ∀ c ∈ size, isSpace c = false := fun c hc => hs c (by simp [hc])
        rw [strip_of_no_space v hv, strip_of_no_space size hz] at h
        obtain ⟨e, he, h⟩ := bind_ok h
        obtain ⟨ha, h⟩ := enforce_bind h
        obtain ⟨⟨dy, k⟩, hk, h⟩ := bind_ok h
        injection h with h
        subst h
        exact .array m v size e dy k (ih v m e hv he) (isArray_ne (by simpa using ha)) ((parseSize_iff size hz dy k).1 hk)
      · split at h
        · rename_i base ds hm
          rcases primMatch_some s base _ hm with ⟨-, -, h1⟩ | ⟨ds', k, h1, h2, h3, h4, rfl⟩
          · cases h1
          · injection h1 with h1
            subst h1
            rw [(number_ok h4).1] at h
            exact parsePrimitive_digits nested m base ds k h4 t h
        · rename_i base hm
          rcases primMatch_some s base _ hm with ⟨rfl, rfl, -⟩ | ⟨ds', k, h1, -⟩
          · unfold parsePrimitive at h
            obtain ⟨tr, htr, h⟩ := bind_ok h
            rw [if_pos rfl] at h
            injection h with h
            subst h
            exact .bool m tr ((castOf_iff m tr).1 htr)
          · cases h1
        · rename_i hm
          obtain ⟨hc, h⟩ := enforce_bind h
          rw [Option.isNone_iff_eq_none] at hc
          subst hc
          exact .name s t ((primMatch_none s).1 hm) h

theorem spells_brackets {nested : Str → Except Err PTy} (hn : RefNames nested) {m : Option Str} {s : Str} {t : PTy} (h : Spells nested m s t)
    (ha : ∀ e d k, t ≠ .array e d k) : s ≠ [] ∧ ∀ c ∈ s, c ≠ '[' := by
  have hnum : ∀ (w : String) (ds : Str) (n : Nat), (∀ c ∈ w.toList, c ≠ '[') → Number ds n → ∀ c ∈ lit w ++ ds, c ≠ '[' := by
    intro w ds n hw hn c hc
    rcases List.mem_append.1 hc with hc | hc
    · exact hw c hc
    · rintro rfl
      exact absurd (number_digits hn _ hc) (by unfold Digit; decide)
  cases h with
  | void m ds n h => exact ⟨by simp [lit], hnum _ _ _ (by decide) h⟩
  | bool m tr h => exact ⟨by simp [lit], by decide⟩
  | boolDigits m tr ds n _ h => exact ⟨by simp [lit], hnum _ _ _ (by decide) h⟩
  | uint m tr ds n _ h => exact ⟨by simp [lit], hnum _ _ _ (by decide) h⟩
  | int m tr ds n _ h => exact ⟨by simp [lit], hnum _ _ _ (by decide) h⟩
  | float m tr ds n _ h => exact ⟨by simp [lit], hnum _ _ _ (by decide) h⟩
  | array m v size t dy n _ _ _ => exact absurd rfl (ha t dy n)
  | name s t _ h => exact ⟨(hn _ _ h).1, (hn _ _ h).2.1⟩

theorem digits_bracket {base : Nat} {s : Str} {n : Nat} (h : Digits base s n) : ∀ c ∈ s, c ≠ ']' := by
  have hv : digitVal ']' = none := by decide
  induction h with
  | one c d h1 _ =>
    intro x hx
    rw [List.mem_singleton.1 hx]
    rintro rfl
    rw [hv] at h1; cases h1
  | more s n c d _ h1 _ ih =>
    intro x hx
    rcases List.mem_append.1 hx with hx | hx
    · exact ih x hx
    · rw [List.mem_singleton.1 hx]
      rintro rfl
      rw [hv] at h1; cases h1
  | underscore s n c d _ h1 _ ih =>
    intro x hx
    rcases List.mem_append.1 hx with hx | hx
    · exact ih x hx
    · simp only [List.mem_cons, List.not_mem_nil, or_false] at hx
      rcases hx with rfl | rfl
      · decide
      · rintro rfl
        rw [hv] at h1; cases h1

theorem literal_bracket {s : Str} {n : Nat} (h : Literal s n) : ∀ c ∈ s, c ≠ ']' := by
  have pre : ∀ (x : Char) (s : Str) (y : Char), x ≠ ']' → y ≠ ']' → (∀ c ∈ s, c ≠ ']') → ∀ c ∈ y :: x :: s, c ≠ ']' := by
    intro x s y hx hy hs c hc
    rcases List.mem_cons.1 hc with rfl | hc
    · exact hy
    · rcases List.mem_cons.1 hc with rfl | hc
      · exact hx
      · exact hs c hc
  have pre' : ∀ (s : Str), (∀ c ∈ s, c ≠ ']') → ∀ c ∈ '_' :: s, c ≠ ']' := by
    intro s hs c hc
    rcases List.mem_cons.1 hc with rfl | hc
    · decide
    · exact hs c hc
  cases h with
  | decimal s n h _ => exact digits_bracket h
  | zero s h => exact digits_bracket h
  | hex x s n hx h => exact pre x s '0' (by rcases hx with rfl | rfl <;> decide) (by decide) (digits_bracket h)
  | hexU x s n hx h => exact pre x _ '0' (by rcases hx with rfl | rfl <;> decide) (by decide) (pre' s (digits_bracket h))
  | oct x s n hx h => exact pre x s '0' (by rcases hx with rfl | rfl <;> decide) (by decide) (digits_bracket h)
  | octU x s n hx h => exact pre x _ '0' (by rcases hx with rfl | rfl <;> decide) (by decide) (pre' s (digits_bracket h))
  | bin x s n hx h => exact pre x s '0' (by rcases hx with rfl | rfl <;> decide) (by decide) (digits_bracket h)
  | binU x s n hx h => exact pre x _ '0' (by rcases hx with rfl | rfl <;> decide) (by decide) (pre' s (digits_bracket h))

theorem size_bracket {s : Str} {d : Bool} {n : Nat} (h : Size s d n) : ∀ c ∈ s, c ≠ ']' := by
  have int : ∀ {s : Str} {n : Int}, IntLiteral s n → ∀ c ∈ s, c ≠ ']' := by
    intro s n h
    cases h with
    | plain s n h => exact literal_bracket h
    | plus s n h =>
      intro c hc
      rcases List.mem_cons.1 hc with rfl | hc
      · decide
      · exact literal_bracket h c hc
    | minus s n h =>
      intro c hc
      rcases List.mem_cons.1 hc with rfl | hc
      · decide
      · exact literal_bracket h c hc
  cases h with
  | atMost s n h _ =>
    intro c hc
    simp only [List.mem_cons] at hc
    rcases hc with rfl | rfl | hc
    · decide
    · decide
    · exact int h c hc
  | below s n h _ =>
    intro c hc
    rcases List.mem_cons.1 hc with rfl | hc
    · decide
    · exact int h c hc
  | exactly s n h _ => exact int h

/-- A word without opening bracket. -/
theorem parseType_word' (nested : Str → Except Err PTy) (s : Str) (hs : ∀ c ∈ s, isSpace c = false) (h : ∀ c ∈ s, c ≠ '[') (cast : Option Str) :
    parseType nested s cast =
      match voidMatch s with
      | some ds => match int10 (strip ds) with
        | some b => parseVoid b
        | none => fail
      | none =>
        match primMatch s with
        | some (base, some ds) => match int10 ds with
          | some b => parsePrimitive base b cast
          | none => fail
        | some (base, none) => parsePrimitive base 1 cast
        | none => (do enforce cast.isNone; nested s) := by
  have hs := strip_of_no_space s hs
  have ha : arrayMatch s = none := arrayMatchAux_none [] s h
  simp only [parseType, parseTypeAux, hs, ha]
  rfl

theorem parseType_digits (nested : Str → Except Err PTy) (w : String) (ds : Str) (n : Nat) (hw : w.toList ≠ [] ∧ ∀ c ∈ w.toList, Lower c)
    (hv : w.toList.head? ≠ some 'v') (h : Number ds n) (m : Option Str) :
    parseType nested (lit w ++ ds) m = parsePrimitive (lit w) n m := by
  obtain ⟨hne, hw⟩ := hw
  have hd := number_digits h
  have hpl : ∀ c ∈ lit w ++ ds, Plain c := append_plain (fun c hc => name_plain c (.inl (hw c hc))) (fun c hc => name_plain c (.inr (.inr (.inl (hd c hc)))))
  rw [parseType_plain nested _ hpl, primMatch_word' (lit w) ds n hne hw h]
  have hvm : voidMatch (lit w ++ ds) = none := by
    cases hl : lit w with
    | nil => exact absurd hl hne
    | cons c cs =>
      rw [List.cons_append]
      refine voidMatch_other c _ ?_
      rintro rfl
      exact hv (by rw [show w.toList = lit w from rfl, hl]; rfl)
  rw [hvm]
  dsimp only
  rw [(number_ok h).1]

/-- The parser takes a word for exactly the types that it stands for. -/
theorem parseType_spells (nested : Str → Except Err PTy) (hn : RefNames nested) (s : Str) (hs : ∀ c ∈ s, isSpace c = false) (m : Option Str)
    (t : PTy) : parseType nested s m = .ok t ↔ Spells nested m s t := by
  constructor
  · exact parseTypeAux_spells nested _ s m t hs
  · intro h
    induction h with
    | void m ds n h h1 h2 =>
      have hd := number_digits h
      have hpl : ∀ c ∈ lit "void" ++ ds, Plain c := append_plain (lit_plain _ (by decide)) (fun c hc => name_plain c (.inr (.inr (.inl (hd c hc)))))
      rw [parseType_plain nested _ hpl, voidMatch_number ds n h]
      dsimp only
      rw [(number_ok h).2.1, (number_ok h).1]
      have : (decide (1 ≤ (n : Int)) && decide ((n : Int) ≤ 64)) = true := by
        simp only [Bool.and_eq_true, decide_eq_true_eq]; omega
      simp only [parseVoid, this, enforce]
      rfl
    | bool m tr h =>
      rw [parseType_plain nested _ (lit_plain _ (by decide))]
      have h1 : voidMatch (lit "bool") = none := by decide
      have h2 : primMatch (lit "bool") = some (lit "bool", none) := by decide
      rw [h1, h2]
      simp only [parsePrimitive, (castOf_iff m tr).2 h]
      rfl
    | boolDigits m tr ds n h h1 =>
      rw [parseType_digits nested "bool" ds n ⟨by decide, by unfold Lower; decide⟩ (by decide) h1]
      simp only [parsePrimitive, (castOf_iff m tr).2 h]
      rfl
    | uint m tr ds n h h1 h2 h3 =>
      rw [parseType_digits nested "uint" ds n ⟨by decide, by unfold Lower; decide⟩ (by decide) h1]
      have : (decide (2 ≤ (n : Int)) && decide ((n : Int) ≤ 64)) = true := by
        simp only [Bool.and_eq_true, decide_eq_true_eq]; omega
      simp only [parsePrimitive, (castOf_iff m tr).2 h, this]
      rfl
    | int m tr ds n h h1 h2 h3 =>
      rw [parseType_digits nested "int" ds n ⟨by decide, by unfold Lower; decide⟩ (by decide) h1]
      have : (decide (2 ≤ (n : Int)) && decide ((n : Int) ≤ 64)) = true := by
        simp only [Bool.and_eq_true, decide_eq_true_eq]; omega
      simp only [parsePrimitive, (castOf_iff m tr).2 h, this]
      rfl
    | float m tr ds n h h1 h2 =>
      rw [parseType_digits nested "float" ds n ⟨by decide, by unfold Lower; decide⟩ (by decide) h1]
      have : (decide ((n : Int) = 16) || decide ((n : Int) = 32) || decide ((n : Int) = 64)) = true := by
        simp only [Bool.or_eq_true, decide_eq_true_eq]; omega
      simp only [parsePrimitive, (castOf_iff m tr).2 h, this]
      rfl
    | array m v size t dy n h1 h2 h3 ih =>
      have hv : ∀ c ∈ v, isSpace c = false := fun c hc => hs c (by simp [hc])
      have hz : ∀ c ∈ size, isSpace c = false := fun c hc => hs c (by simp [hc])
      obtain ⟨hne, hb⟩ := spells_brackets hn h1 h2
      rw [C58_array_type nested v size m hne (fun c hc => ⟨hb c hc, hv c hc⟩) (fun c hc => ⟨size_bracket h3 c hc, hz c hc⟩), ih hv]
      have hna : t.isArray = false := by
        cases t with
        | array e d k => exact absurd rfl (h2 e d k)
        | _ => rfl
      simp only [bind, Except.bind, hna, (parseSize_iff size hz dy n).2 h3]
      rfl
    | name s t h1 h2 =>
      obtain ⟨-, hb, -⟩ := hn s t h2
      rw [parseType_word' nested s hs hb, (primMatch_none s).2 h1]
      have hv : voidMatch s = none := by
        cases hv : voidMatch s with
        | none => rfl
        | some ds =>
          obtain ⟨rfl, k, hk⟩ := voidMatch_some s ds hv
          exact absurd (.inr ⟨lit "void", ds, k, by simp [lit], by unfold Lower; decide, hk, rfl⟩) h1
      rw [hv]
      exact h2

end Parser
end Dronecan
