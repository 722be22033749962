import Verif.Model.Introspect

/-!
# C60: names of constants shown for a value
-/

namespace Dronecan
namespace Introspect

open Text Parser

/-! ## Specification -/

/-- The two numbers are equal. -/
inductive Same : Num → Num → Prop where
  | finite (a b : Num) (q : Rat) (ha : a.finite = some q) (hb : b.finite = some q) : Same a b
  | inf (neg : Bool) : Same (.inf neg) (.inf neg)

/-- The prefixes of names that belong to a field: its name, its name without a final `s`, nothing if it is the only field. -/
inductive Group (g : Args) : Str → Prop where
  | own : Group g (g.field ++ ['_'])
  | singular (f : Str) (h : g.field = f ++ ['s']) : Group g (f ++ ['_'])
  | any (h : g.nfields = 1) : Group g []

/-- The name begins with the prefix, up to upper and lower case. -/
def Begins (pre name : Str) : Prop := ∃ a b, name = a ++ b ∧ a.map Char.toLower = pre.map Char.toLower

/-- The constant belongs to the prefix and has the value. -/
def Fits (pre : Str) (v : Num) (c : Const) : Prop := Begins pre c.name ∧ Same c.value v

/-- `c` is the only constant that fits. -/
def Only (g : Args) (pre : Str) (v : Num) (c : Const) : Prop :=
  ∃ l1 l2, g.consts = l1 ++ c :: l2 ∧ Fits pre v c ∧ ∀ x ∈ l1 ++ l2, ¬ Fits pre v x

/-- The text stands for the only constant of a group with the value: its name without the prefix, and the value if wanted. -/
def Names (g : Args) (v : Num) (s : Str) : Prop :=
  ∃ pre c a b, Group g pre ∧ Only g pre v c ∧ c.name = a ++ b ∧ a.length = pre.length ∧
    s = if g.keep then b ++ lit " (" ++ g.repr v ++ lit ")" else b

/-- The relation holds for corresponding elements of two lists. -/
inductive Each {α β : Type} (R : α → β → Prop) : List α → List β → Prop where
  | nil : Each R [] []
  | cons {a : α} {b : β} {as : List α} {bs : List β} (h : R a b) (t : Each R as bs) : Each R (a :: as) (b :: bs)

/-! ## Strings -/

theorem splitOnAux_append (sep : Char) (a b cur : Str) :
    (splitOnAux sep cur (a ++ sep :: b)).drop (a.count sep + 1) = splitOnAux sep [] b := by
  induction a generalizing cur with
  | nil => simp [splitOnAux]
  | cons c cs ih =>
    simp only [List.cons_append, splitOnAux]
    by_cases h : c = sep
    · subst h
      simp only [if_true, List.count_cons_self, List.drop_succ_cons]
      exact ih []
    · rw [if_neg h, List.count_cons_of_ne h]
      exact ih (c :: cur)

theorem splitOnAux_length (sep : Char) (a cur : Str) : (splitOnAux sep cur a).length = a.count sep + 1 := by
  induction a generalizing cur with
  | nil => simp [splitOnAux]
  | cons c cs ih =>
    simp only [splitOnAux]
    by_cases h : c = sep
    · subst h
      simp [ih]
    · rw [if_neg h, ih, List.count_cons_of_ne h]

theorem splitOnAux_ne (sep : Char) (a cur : Str) : splitOnAux sep cur a ≠ [] := by
  intro h
  have := splitOnAux_length sep a cur
  rw [h] at this
  simp at this

theorem join_splitOnAux (sep : Char) (a cur : Str) : joinWith [sep] (splitOnAux sep cur a) = cur.reverse ++ a := by
  induction a generalizing cur with
  | nil => simp [splitOnAux, joinWith]
  | cons c cs ih =>
    simp only [splitOnAux]
    by_cases h : c = sep
    · subst h
      rw [if_pos rfl]
      have hne := splitOnAux_ne c cs []
      have := ih []
      cases hs : splitOnAux c [] cs with
      | nil => exact absurd hs hne
      | cons x xs =>
        rw [hs] at this
        simp only [joinWith, this]
        simp
    · rw [if_neg h, ih]
      simp

theorem toLower_underscore (c : Char) : c.toLower = '_' ↔ c = '_' := by
  constructor
  · intro h
    unfold Char.toLower at h
    split at h
    · next hh =>
      have h1 := congrArg Char.toNat h
      have h2 : c.val.toNat ≥ 65 ∧ c.val.toNat ≤ 90 := by
        constructor
        · exact hh.1
        · exact hh.2
      have h3 : ('_' : Char).toNat = 95 := rfl
      rw [h3] at h1
      simp only [Char.toNat, UInt32.toNat_add] at h1
      have h4 : (32 : UInt32).toNat = 32 := rfl
      have h5 : (UInt32.toNat ('a'.val - 'A'.val)) = 32 := rfl
      omega
    · exact h
  · intro h; subst h; rfl

theorem count_lower (a b : Str) (h : a.map Char.toLower = b.map Char.toLower) : a.count '_' = b.count '_' := by
  induction a generalizing b with
  | nil =>
    cases b with
    | nil => rfl
    | cons => simp at h
  | cons x xs ih =>
    cases b with
    | nil => simp at h
    | cons y ys =>
      simp only [List.map_cons, List.cons.injEq] at h
      have := ih ys h.2
      by_cases hx : x = '_'
      · have hy : y = '_' := by rw [← toLower_underscore, ← h.1, hx]; rfl
        subst hx; subst hy
        simp [this]
      · have hy : y ≠ '_' := by
          intro hy
          apply hx
          rw [← toLower_underscore, h.1, hy]; rfl
        rw [List.count_cons_of_ne hx, List.count_cons_of_ne hy, this]

/-- Removing the parts of the name that the field's name has leaves what comes after the prefix. -/
theorem strip_parts (field f : Str) (hf : f.count '_' = field.count '_') (a b : Str) (h : a.map Char.toLower = (f ++ ['_']).map Char.toLower) :
    joinWith (lit "_") ((splitOn '_' (a ++ b)).drop (splitOn '_' field).length) = b := by
  have hc := count_lower _ _ h
  obtain ⟨a', ha⟩ : ∃ a', a = a' ++ ['_'] := by
    have hne : a ≠ [] := by
      intro h0
      subst h0
      simp at h
    refine ⟨a.dropLast, ?_⟩
    have h1 := List.dropLast_concat_getLast hne
    have h2 : (a.getLast hne).toLower = '_' := by
      have e : (a.map Char.toLower).getLast? = some '_' := by rw [h]; simp
      rw [List.getLast?_map, List.getLast?_eq_some_getLast hne] at e
      simpa using e
    rw [toLower_underscore] at h2
    rw [← h2, h1]
  subst ha
  have hl : (splitOn '_' field).length = a'.count '_' + 1 := by
    unfold splitOn
    rw [splitOnAux_length]
    simp only [List.count_append, List.count_singleton_self] at hc
    omega
  rw [hl]
  unfold splitOn
  rw [List.append_assoc, List.singleton_append, splitOnAux_append, show lit "_" = ['_'] from rfl, join_splitOnAux]
  rfl

/-! ## Matching -/

theorem same_iff (a b : Num) : a.eq b = true ↔ Same a b := by
  constructor
  · intro h
    unfold Num.eq at h
    split at h
    · next x y =>
      have : x = y := by simpa using h
      subst this
      exact .inf x
    · simp only [Bool.and_eq_true, beq_iff_eq] at h
      obtain ⟨q, hq⟩ := Option.isSome_iff_exists.1 h.1
      exact .finite a b q hq (by rw [← h.2, hq])
  · intro h
    cases h with
    | inf neg => simp [Num.eq]
    | finite =>
      rename_i q ha hb
      unfold Num.eq
      split
      · simp [Num.finite] at ha
      · simp [ha, hb]

theorem begins_iff (pre name : Str) : (lower pre).isPrefixOf (lower name) = true ↔ Begins pre name := by
  rw [List.isPrefixOf_iff_prefix]
  constructor
  · intro ⟨t, ht⟩
    unfold lower at ht
    rw [eq_comm, List.map_eq_append_iff] at ht
    obtain ⟨a, b, e, ha, _⟩ := ht
    exact ⟨a, b, e, ha⟩
  · intro ⟨a, b, e, ha⟩
    refine ⟨lower b, ?_⟩
    unfold lower
    rw [e, List.map_append, ha]

theorem filter_one {α : Type} (p : α → Bool) (l : List α) (c : α) :
    l.filter p = [c] ↔ ∃ l1 l2, l = l1 ++ c :: l2 ∧ p c = true ∧ ∀ x ∈ l1 ++ l2, ¬ p x = true := by
  constructor
  · intro h
    rw [List.filter_eq_cons_iff] at h
    obtain ⟨l1, l2, e, h1, h2, h3⟩ := h
    refine ⟨l1, l2, e, h2, ?_⟩
    intro x hx
    rcases List.mem_append.1 hx with hx | hx
    · exact h1 x hx
    · intro hp
      have : x ∈ l2.filter p := List.mem_filter.2 ⟨hx, hp⟩
      rw [h3] at this
      exact absurd this (by simp)
  · intro ⟨l1, l2, e, h1, h2⟩
    subst e
    have e1 : l1.filter p = [] := List.filter_eq_nil_iff.2 fun x hx => h2 x (List.mem_append_left _ hx)
    have e2 : l2.filter p = [] := List.filter_eq_nil_iff.2 fun x hx => h2 x (List.mem_append_right _ hx)
    rw [List.filter_append, List.filter_cons, e1, e2, h1]
    rfl

theorem matchOnePrefix_iff (g : Args) (pre : Str) (v : Num) (n : Str) : matchOnePrefix g pre v = some n ↔ ∃ c, Only g pre v c ∧ c.name = n := by
  have hp : ∀ c : Const, (((lower pre).isPrefixOf (lower c.name) && c.value.eq v) = true) ↔ Fits pre v c := by
    intro c
    rw [Bool.and_eq_true, begins_iff, same_iff]
    rfl
  have hone : ∀ c, g.consts.filter (fun c => (lower pre).isPrefixOf (lower c.name) && c.value.eq v) = [c] ↔ Only g pre v c := by
    intro c
    rw [filter_one]
    simp only [hp]
    rfl
  have hf : (g.consts.filter (fun c => (lower pre).isPrefixOf (lower c.name))).filter (fun c => c.value.eq v) =
      g.consts.filter (fun c => (lower pre).isPrefixOf (lower c.name) && c.value.eq v) := by
    rw [List.filter_filter]
    congr 1
    funext c
    rw [Bool.and_comm]
  unfold matchOnePrefix
  rw [hf]
  constructor
  · intro h
    split at h
    · next c hc =>
      cases h
      exact ⟨c, (hone c).1 hc, rfl⟩
    · cases h
  · intro ⟨c, hc, hn⟩
    rw [(hone c).2 hc, ← hn]

theorem matchOnePrefix_none (g : Args) (pre : Str) (v : Num) : matchOnePrefix g pre v = none ↔ ∀ c, ¬ Only g pre v c := by
  constructor
  · intro h c hc
    have := (matchOnePrefix_iff g pre v c.name).2 ⟨c, hc, rfl⟩
    rw [h] at this
    cases this
  · intro h
    cases hm : matchOnePrefix g pre v with
    | none => rfl
    | some n =>
      obtain ⟨c, hc, _⟩ := (matchOnePrefix_iff g pre v n).1 hm
      exact absurd hc (h c)

theorem truthy_some (m : Option Str) (s : Str) : truthy m = some s ↔ m = some s ∧ s ≠ [] := by
  cases m with
  | none => simp [truthy]
  | some t =>
    cases t with
    | nil =>
      simp only [truthy]
      constructor
      · intro h; cases h
      · intro ⟨h, hn⟩; cases h; exact absurd rfl hn
    | cons x xs =>
      simp only [truthy]
      constructor
      · intro h; cases h; exact ⟨rfl, by simp⟩
      · intro h; exact h.1

theorem truthy_none (m : Option Str) : truthy m = none ↔ ∀ s, m = some s → s = [] := by
  cases m with
  | none => simp [truthy]
  | some t =>
    cases t with
    | nil => simp [truthy]
    | cons x xs => simp [truthy]

theorem format_own (g : Args) (f : Str) (hf : f.count '_' = g.field.count '_') (v : Num) (c : Const) (h : Only g (f ++ ['_']) v c) :
    ∃ a b, c.name = a ++ b ∧ a.length = (f ++ ['_']).length ∧ formatOutput g c.name v true = if g.keep then b ++ lit " (" ++ g.repr v ++ lit ")" else b := by
  obtain ⟨l1, l2, _, ⟨⟨a, b, e, ha⟩, _⟩, _⟩ := h
  have hlen := congrArg List.length ha
  rw [List.length_map, List.length_map] at hlen
  refine ⟨a, b, e, hlen, ?_⟩
  unfold formatOutput
  rw [e]
  simp only [if_true, strip_parts g.field f hf a b ha]

theorem getLast_s (l f : Str) (h : l = f ++ ['s']) : l.getLast? = some 's' ∧ l.dropLast = f := by
  subst h
  simp

theorem field_s (l : Str) (h : l.getLast? = some 's') : l = l.dropLast ++ ['s'] := by
  have hne : l ≠ [] := by intro h0; subst h0; simp at h
  have h1 := List.dropLast_concat_getLast hne
  rw [List.getLast?_eq_some_getLast hne] at h
  cases h' : l.getLast hne
  have : l.getLast hne = 's' := by simpa using h
  rw [this] at h1
  exact h1.symm

theorem matchValue_names (g : Args) (v : Num) (s : Str) (h : matchValue g v = .ok (some s)) : Names g v s := by
  unfold matchValue at h
  split at h
  · next m hm =>
    obtain ⟨hm, _⟩ := (truthy_some _ _).1 hm
    obtain ⟨c, hc, rfl⟩ := (matchOnePrefix_iff g _ v m).1 hm
    cases h
    obtain ⟨a, b, e1, e2, e3⟩ := format_own g g.field rfl v c hc
    exact ⟨_, c, a, b, .own, hc, e1, e2, e3⟩
  · split at h
    · cases h
    · next last hl =>
      split at h
      · next m hm =>
        cases h
        split at hm
        · next hs =>
          subst hs
          obtain ⟨hm, _⟩ := (truthy_some _ _).1 hm
          obtain ⟨c, hc, rfl⟩ := (matchOnePrefix_iff g _ v m).1 hm
          have hfs := field_s _ hl
          have hcount : (g.field.dropLast).count '_' = g.field.count '_' := by
            conv => rhs; rw [hfs]
            simp [List.count_append]
          obtain ⟨a, b, e1, e2, e3⟩ := format_own g _ hcount v c hc
          exact ⟨_, c, a, b, .singular _ hfs, hc, e1, e2, e3⟩
        · cases hm
      · split at h
        · next m hm =>
          cases h
          split at hm
          · next hs =>
            obtain ⟨hm, _⟩ := (truthy_some _ _).1 hm
            obtain ⟨c, hc, rfl⟩ := (matchOnePrefix_iff g _ v m).1 hm
            refine ⟨[], c, [], c.name, .any hs, hc, rfl, rfl, ?_⟩
            simp [formatOutput]
          · cases hm
        · cases h

/-! ## Powers of two -/

theorem two_and (k x : Nat) : 2 ^ k &&& x ≠ 0 ↔ x.testBit k = true := by
  constructor
  · intro h
    apply Classical.byContradiction
    intro hn
    apply h
    apply Nat.eq_of_testBit_eq
    intro j
    rw [Nat.testBit_and, Nat.testBit_two_pow, Nat.zero_testBit]
    by_cases hj : k = j
    · subst hj; simp [Bool.eq_false_iff.2 hn]
    · simp [hj]
  · intro h h0
    have := congrArg (fun n => Nat.testBit n k) h0
    simp only [Nat.testBit_and, Nat.testBit_two_pow_self, Nat.zero_testBit, h] at this
    cases this

/-- What the generator yields from `2^k` on: increasing powers, those of the bits that are set. -/
theorem powersFrom_spec (x : Nat) (n k : Nat) (hn : x + 1 - 2 ^ k ≤ n) : ∃ ks : List Nat, powersFrom x (2 ^ k) = ks.map (2 ^ ·) ∧
    ks.Pairwise (· < ·) ∧ ∀ j, j ∈ ks ↔ k ≤ j ∧ x.testBit j = true := by
  induction n generalizing k with
  | zero =>
    refine ⟨[], ?_, List.Pairwise.nil, ?_⟩
    · rw [powersFrom, dif_neg (by omega)]; rfl
    · intro j
      simp only [List.not_mem_nil, false_iff]
      intro ⟨h1, h2⟩
      have h3 : 2 ^ k ≤ 2 ^ j := Nat.pow_le_pow_right (by omega) h1
      rw [Nat.testBit_lt_two_pow (by omega)] at h2
      cases h2
  | succ n ih =>
    have hp : 0 < 2 ^ k := Nat.pow_pos (by omega)
    by_cases hle : 2 ^ k ≤ x
    · obtain ⟨ks, h1, h2, h3⟩ := ih (k + 1) (by rw [Nat.pow_succ]; omega)
      have hs : 2 ^ k <<< 1 = 2 ^ (k + 1) := by rw [Nat.shiftLeft_eq, Nat.pow_succ 2 k]
      rw [powersFrom, dif_pos ⟨hp, hle⟩, hs, h1]
      by_cases hb : x.testBit k = true
      · rw [if_pos ((two_and k x).2 hb)]
        refine ⟨k :: ks, rfl, List.pairwise_cons.2 ⟨fun j hj => ((h3 j).1 hj).1, h2⟩, ?_⟩
        intro j
        rw [List.mem_cons, h3]
        constructor
        · intro h
          rcases h with h | h
          · subst h; exact ⟨Nat.le_refl _, hb⟩
          · exact ⟨by omega, h.2⟩
        · intro h
          by_cases hj : j = k
          · exact .inl hj
          · exact .inr ⟨by omega, h.2⟩
      · rw [if_neg (fun h => hb ((two_and k x).1 h))]
        refine ⟨ks, rfl, h2, ?_⟩
        intro j
        rw [h3]
        constructor
        · intro h; exact ⟨by omega, h.2⟩
        · intro h
          refine ⟨?_, h.2⟩
          have : j ≠ k := by intro hj; subst hj; exact hb h.2
          omega
    · refine ⟨[], ?_, List.Pairwise.nil, ?_⟩
      · rw [powersFrom, dif_neg (by omega)]; rfl
      · intro j
        simp only [List.not_mem_nil, false_iff]
        intro ⟨h1, h2⟩
        have h3 : 2 ^ k ≤ 2 ^ j := Nat.pow_le_pow_right (by omega) h1
        rw [Nat.testBit_lt_two_pow (by omega)] at h2
        cases h2

theorem testBit_orAll (ks : List Nat) (j : Nat) : ((ks.map (2 ^ ·)).foldr (· ||| ·) 0).testBit j = decide (j ∈ ks) := by
  induction ks with
  | nil => simp
  | cons k ks ih =>
    simp only [List.map_cons, List.foldr_cons, Nat.testBit_or, ih, Nat.testBit_two_pow, List.mem_cons]
    by_cases h : k = j
    · simp [h]
    · simp [h, Ne.symm h]

/-- The texts of the powers, in order. -/
theorem matchPowers_ok (g : Args) (ps : List Nat) (acc ms : List Str) (h : matchPowers g ps acc = .ok ms) (hne : ms ≠ []) :
    ∃ ss, ms = acc ++ ss ∧ Each (fun p s => Names g (.int (p : Nat)) s ∧ s ≠ []) ps ss := by
  induction ps generalizing acc with
  | nil =>
    simp only [matchPowers] at h
    cases h
    exact ⟨[], by simp, .nil⟩
  | cons p ps ih =>
    simp only [matchPowers] at h
    split at h
    · cases h
    · next m hm =>
      split at h
      · next s hs =>
        obtain ⟨e, hsne⟩ := (truthy_some _ _).1 hs
        subst e
        obtain ⟨ss, e2, hf⟩ := ih (acc ++ [s]) h
        exact ⟨s :: ss, by rw [e2]; simp, .cons ⟨matchValue_names g _ s hm, hsne⟩ hf⟩
      · cases h
        exact absurd rfl hne

/-- The exponents of different powers of two that together give `n`. -/
def Bits (n : Nat) (ks : List Nat) : Prop := ks.Pairwise (· < ·) ∧ (ks.map (2 ^ ·)).foldr (· ||| ·) 0 = n

theorem powers_bits (n : Nat) : ∃ ks, powersFrom n 1 = ks.map (2 ^ ·) ∧ Bits n ks ∧ ∀ j, j ∈ ks ↔ n.testBit j = true := by
  obtain ⟨ks, h1, h2, h3⟩ := powersFrom_spec n (n + 1) 0 (by omega)
  refine ⟨ks, h1, ⟨h2, ?_⟩, fun j => by rw [h3]; simp⟩
  apply Nat.eq_of_testBit_eq
  intro j
  rw [testBit_orAll]
  cases hb : n.testBit j with
  | true => simp [(h3 j).2 ⟨by omega, hb⟩]
  | false =>
    have : j ∉ ks := fun hj => by
      have := ((h3 j).1 hj).2
      rw [hb] at this
      cases this
    simp [this]

theorem extractPowers_ok (v : Num) (ps : List Nat) (h : extractPowers v = .ok ps) (hne : ps ≠ []) : ∃ n : Nat, Same v (.int n) ∧ ps = powersFrom n 1 := by
  cases v with
  | int i =>
    simp only [extractPowers] at h
    cases h
    by_cases hi : 0 ≤ i
    · exact ⟨i.toNat, .finite _ _ (i : Rat) rfl (by simp [Num.finite, Int.toNat_of_nonneg hi]), rfl⟩
    · exfalso
      apply hne
      rw [show i.toNat = 0 by omega, powersFrom, dif_neg (by omega)]
  | bool b =>
    simp only [extractPowers] at h
    cases h
    refine ⟨if b then 1 else 0, ?_, rfl⟩
    cases b
    · exact .finite _ _ 0 rfl rfl
    · exact .finite _ _ 1 rfl rfl
  | flt q =>
    simp only [extractPowers] at h
    split at h
    · cases h
    · cases h; exact absurd rfl hne
  | inf neg =>
    simp only [extractPowers] at h
    split at h
    · cases h; exact absurd rfl hne
    · cases h
  | nan =>
    simp only [extractPowers] at h
    cases h
    exact absurd rfl hne

/-- What is returned is the value itself, the name of the only constant with this value, or the names of constants that are different powers of two
and together give the value. -/
theorem C60_truthful (g : Args) (v : Num) (r : Result) (h : valueToConstantName g v = .ok r) :
    r = .literal v ∨ (∃ s, r = .text s ∧ s ≠ [] ∧ Names g v s) ∨
    ∃ (n : Nat) (ks : List Nat) (ss : List Str), Same v (.int n) ∧ ks ≠ [] ∧ Bits n ks ∧
      Each (fun k s => s ≠ [] ∧ Names g (.int ((2 ^ k : Nat) : Int)) s) ks ss ∧ r = .text (joinWith (lit " | ") ss) := by
  unfold valueToConstantName at h
  split at h
  · cases h
  · split at h
    · cases h
    · next m hm =>
      split at h
      · next s hs =>
        cases h
        obtain ⟨e, hsne⟩ := (truthy_some _ _).1 hs
        subst e
        exact .inr (.inl ⟨s, rfl, hsne, matchValue_names g v s hm⟩)
      · split at h
        · cases h
        · next ps hps =>
          split at h
          · cases h
          · next ms hms =>
            split at h
            · next hlen =>
              cases h
              right; right
              have hne : ms ≠ [] := by intro h0; subst h0; simp at hlen
              obtain ⟨ss, e, hf⟩ := matchPowers_ok g ps [] ms hms hne
              rw [List.nil_append] at e
              subst e
              have hpne : ps ≠ [] := by
                intro h0
                subst h0
                cases hf
                exact hne rfl
              obtain ⟨n, hn, hp⟩ := extractPowers_ok v ps hps hpne
              obtain ⟨ks, hk, hb, hmem⟩ := powers_bits n
              refine ⟨n, ks, ms, hn, ?_, hb, ?_, rfl⟩
              · intro h0
                subst h0
                rw [hp, hk] at hpne
                exact hpne rfl
              · rw [hp, hk] at hf
                clear hk hb hmem
                generalize hw : ks.map (2 ^ ·) = w at hf
                clear hms hne hlen
                induction hf generalizing ks with
                | nil =>
                  have : ks = [] := by simpa using hw
                  subst this
                  exact .nil
                | cons hx _ ih =>
                  cases ks with
                  | nil => simp at hw
                  | cons k ks =>
                    simp only [List.map_cons, List.cons.injEq] at hw
                    obtain ⟨hw1, hw2⟩ := hw
                    subst hw1
                    exact .cons ⟨hx.2, hx.1⟩ (ih ks hw2)
            · cases h
              exact .inl rfl

/-! ## Nothing is missed -/

/-- No constant's name consists of a prefix only. -/
def NoBare (g : Args) : Prop := ∀ c ∈ g.consts, c.name ≠ [] ∧ ∀ pre, Group g pre → Begins pre c.name → pre ≠ [] → c.name.length ≠ pre.length

theorem only_name (g : Args) (hb : NoBare g) (pre : Str) (hp : Group g pre) (v : Num) (c : Const) (h : Only g pre v c) :
    c.name ≠ [] ∧ (pre ≠ [] → c.name.length ≠ pre.length) := by
  obtain ⟨l1, l2, e, hf, _⟩ := h
  have hc : c ∈ g.consts := by rw [e]; simp
  exact ⟨(hb c hc).1, (hb c hc).2 pre hp hf.1⟩

theorem names_ne (g : Args) (hb : NoBare g) (v : Num) (s : Str) (h : Names g v s) : s ≠ [] := by
  obtain ⟨pre, c, a, b, hg, ho, e1, e2, e3⟩ := h
  obtain ⟨n1, n2⟩ := only_name g hb pre hg v c ho
  have hbne : b ≠ [] := by
    intro h0
    subst h0
    rw [List.append_nil] at e1
    by_cases hp : pre = []
    · subst hp
      have : a = [] := by simpa using e2
      exact n1 (by rw [e1, this])
    · exact n2 hp (by rw [e1, e2])
  rw [e3]
  split
  · simp [hbne]
  · exact hbne

/-- If some group has exactly one constant with the value, the value is matched. -/
theorem matchValue_total (g : Args) (hf : g.field ≠ []) (hb : NoBare g) (v : Num) :
    (∃ s, matchValue g v = .ok (some s) ∧ s ≠ []) ∨ (matchValue g v = .ok none ∧ ∀ s, ¬ Names g v s) := by
  have hnone : ∀ pre, Group g pre → truthy (matchOnePrefix g pre v) = none → ∀ c, ¬ Only g pre v c := by
    intro pre hp h c hc
    have h1 := (matchOnePrefix_iff g pre v c.name).2 ⟨c, hc, rfl⟩
    exact (only_name g hb pre hp v c hc).1 ((truthy_none _).1 h c.name h1)
  cases hm : matchValue g v with
  | error e =>
    exfalso
    unfold matchValue at hm
    split at hm
    · cases hm
    · split at hm
      · next h0 => exact hf (List.getLast?_eq_none_iff.1 h0)
      · split at hm
        · cases hm
        · split at hm <;> cases hm
  | ok m =>
    cases m with
    | some s => exact .inl ⟨s, rfl, names_ne g hb v s (matchValue_names g v s hm)⟩
    | none =>
      refine .inr ⟨rfl, ?_⟩
      unfold matchValue at hm
      split at hm
      · cases hm
      · next h1 =>
        split at hm
        · cases hm
        · next last hl =>
          split at hm
          · cases hm
          · next h2 =>
            split at hm
            · cases hm
            · next h3 =>
              intro s ⟨pre, c, a, b, hg, ho, _⟩
              cases hg with
              | own => exact hnone _ .own h1 c ho
              | singular f hf' =>
                obtain ⟨e1, e2⟩ := getLast_s _ _ hf'
                rw [e1] at hl
                cases hl
                rw [if_pos rfl, e2] at h2
                exact hnone _ (.singular f hf') h2 c ho
              | any hn =>
                rw [if_pos hn] at h3
                exact hnone _ (.any hn) h3 c ho

theorem matchPowers_total (g : Args) (hf : g.field ≠ []) (hb : NoBare g) (ps : List Nat) (acc : List Str) :
    (∃ ss, matchPowers g ps acc = .ok (acc ++ ss) ∧ ss.length = ps.length) ∨
    (matchPowers g ps acc = .ok [] ∧ ∃ p ∈ ps, ∀ s, ¬ Names g (.int (p : Nat)) s) := by
  induction ps generalizing acc with
  | nil => exact .inl ⟨[], by simp [matchPowers], rfl⟩
  | cons p ps ih =>
    simp only [matchPowers]
    rcases matchValue_total g hf hb (.int (p : Nat)) with ⟨s, h1, h2⟩ | ⟨h1, h2⟩
    · rw [h1]
      simp only
      rw [(truthy_some _ _).2 ⟨rfl, h2⟩]
      simp only
      rcases ih (acc ++ [s]) with ⟨ss, e1, e2⟩ | ⟨e1, q, hq, e2⟩
      · exact .inl ⟨s :: ss, by rw [e1]; simp, by simp [e2]⟩
      · exact .inr ⟨e1, q, List.mem_cons_of_mem _ hq, e2⟩
    · rw [h1]
      simp only [truthy]
      exact .inr ⟨trivial, p, List.mem_cons_self, h2⟩

/-- The value itself is returned for an integer only if no group has exactly one constant with it, and (if it is positive) that is also so for one of
its bits. There is no error. -/
theorem C60_complete (g : Args) (hn : 0 < g.nfields) (hf : g.field ≠ []) (hb : NoBare g) (i : Int) :
    ∃ r, valueToConstantName g (.int i) = .ok r ∧
      (r = .literal (.int i) → (∀ s, ¬ Names g (.int i) s) ∧
        (0 < i → ∃ k, i.toNat.testBit k = true ∧ ∀ s, ¬ Names g (.int ((2 ^ k : Nat) : Int)) s)) := by
  unfold valueToConstantName
  rw [if_neg (by omega)]
  rcases matchValue_total g hf hb (.int i) with ⟨s, h1, h2⟩ | ⟨h1, h2⟩
  · rw [h1]
    simp only
    rw [(truthy_some _ _).2 ⟨rfl, h2⟩]
    exact ⟨_, rfl, fun h => by cases h⟩
  · rw [h1]
    simp only [truthy, extractPowers]
    obtain ⟨ks, hk, ⟨_, hor⟩, hmem⟩ := powers_bits i.toNat
    rw [hk]
    rcases matchPowers_total g hf hb (ks.map (2 ^ ·)) [] with ⟨ss, e1, e2⟩ | ⟨e1, p, hp, e2⟩
    · rw [e1, List.nil_append]
      simp only
      split
      · exact ⟨_, rfl, fun h => by cases h⟩
      · next hl =>
        refine ⟨_, rfl, fun _ => ⟨h2, fun hi => ?_⟩⟩
        exfalso
        have : ks = [] := by
          rw [List.length_map] at e2
          exact List.length_eq_zero_iff.1 (by omega)
        subst this
        simp at hor
        omega
    · rw [e1]
      refine ⟨_, rfl, fun _ => ⟨h2, fun _ => ?_⟩⟩
      obtain ⟨k, hk', rfl⟩ := List.mem_map.1 hp
      exact ⟨k, (hmem k).1 hk', e2⟩

/-- Observed: a float of one or more that has no name is not returned as it is, the bit operation raises. -/
theorem C60_float_raises (g : Args) (hn : 0 < g.nfields) (hf : g.field ≠ []) (hb : NoBare g) (q : Rat) (hq : 1 ≤ q) (h : ∀ s, ¬ Names g (.flt q) s) :
    valueToConstantName g (.flt q) = .error .typeError := by
  unfold valueToConstantName
  rw [if_neg (by omega)]
  rcases matchValue_total g hf hb (.flt q) with ⟨s, h1, h2⟩ | ⟨h1, h2⟩
  · exact absurd (matchValue_names g _ s h1) (h s)
  · rw [h1]
    simp only [truthy, extractPowers, if_pos hq]

/-! ## Examples -/

/-- `uavcan.protocol.NodeStatus` with some constants; the field `flags` and the field `mode`. -/
def exampleArgs (field : String) (keep : Bool) : Args where
  consts := [⟨lit "MODE_OPERATIONAL", .int 0⟩, ⟨lit "MODE_INITIALIZATION", .int 1⟩, ⟨lit "FLAG_HOT", .int 1⟩, ⟨lit "FLAG_WET", .int 4⟩,
    ⟨lit "HEALTH_OK", .int 0⟩, ⟨lit "MODE_MAX", .int 1⟩]
  nfields := 3
  field := lit field
  keep := keep
  repr := fun v => match v with | .int i => lit (toString i) | _ => lit "?"

/-- A name, a name with the value, a list of flags, two constants with the same value, a flag without name. -/
example : valueToConstantName (exampleArgs "mode" false) (.int 0) = .ok (.text (lit "OPERATIONAL")) ∧
    valueToConstantName (exampleArgs "health" true) (.int 0) = .ok (.text (lit "OK (0)")) ∧
    valueToConstantName (exampleArgs "flags" false) (.int 5) = .ok (.text (lit "HOT | WET")) ∧
    valueToConstantName (exampleArgs "mode" false) (.int 1) = .ok (.literal (.int 1)) ∧
    valueToConstantName (exampleArgs "flags" false) (.int 7) = .ok (.literal (.int 7)) ∧
    valueToConstantName (exampleArgs "flags" false) (.flt (5 / 2)) = .error .typeError := by decide +kernel

example : 0 < (exampleArgs "flags" false).nfields ∧ (exampleArgs "flags" false).field ≠ [] := by decide +kernel

example : NoBare (exampleArgs "flags" false) := by
  intro c hc
  have h1 : c.name ≠ [] := by
    have : ∀ c ∈ (exampleArgs "flags" false).consts, c.name ≠ [] := by decide +kernel
    exact this c hc
  refine ⟨h1, ?_⟩
  intro pre hg _ _
  have h2 : ∀ c ∈ (exampleArgs "flags" false).consts, 6 < c.name.length := by decide +kernel
  have h3 := h2 c hc
  cases hg with
  | own => simp [exampleArgs, lit]; omega
  | singular f hf =>
    have := congrArg List.length hf
    simp [exampleArgs, lit] at this ⊢
    omega
  | any hn => cases hn

end Introspect
end Dronecan
