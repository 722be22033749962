import Verif.Model.Parser

/-!
# The normalised text of a definition as lines
-/

namespace Dronecan
namespace Parser

open Text

/-- A line: not empty, without newline characters, without white space at the ends. -/
structure IsLine (l : Str) : Prop where
  noNewline : '\n' ∉ l
  head : ∃ c, l.head? = some c ∧ isSpace c = false
  last : ∃ c, l.getLast? = some c ∧ isSpace c = false

/-- Newline characters. -/
def nls (k : Nat) : Str := List.replicate k '\n'

/-- Lines, each after the given number of newline characters. -/
def blocks : List (Nat × Str) → Str
  | [] => []
  | b :: bs => nls b.1 ++ b.2 ++ blocks bs

theorem blocks_append (a b : List (Nat × Str)) : blocks (a ++ b) = blocks a ++ blocks b := by
  induction a with
  | nil => rfl
  | cons x a ih => simp [blocks, ih]

theorem nls_append (a b : Nat) : nls a ++ nls b = nls (a + b) := by simp [nls]

theorem isPrefixOf_nls (j : Nat) : ∀ (k : Nat) (c : Char) (s : Str), c ≠ '\n' →
    (nls j).isPrefixOf (nls k ++ c :: s) = decide (j ≤ k) := by
  induction j with
  | zero => intro k c s _; simp [nls]
  | succ j ih =>
    intro k c s hc
    cases k with
    | zero =>
      have : ('\n' == c) = false := beq_eq_false_iff_ne.2 hc.symm
      simp [nls, List.replicate_succ, List.isPrefixOf, this]
    | succ k =>
      have := ih k c s hc
      simp only [nls] at this
      simp [nls, List.replicate_succ, this]

/-- Text without newline characters is kept. -/
theorem replaceNl_line (j : Nat) (hj : 0 < j) (l : Str) (hl : '\n' ∉ l) : ∀ (n : Nat) (s : Str), l.length ≤ n →
    replaceNl (nls j) n (l ++ s) = l ++ replaceNl (nls j) (n - l.length) s := by
  induction l with
  | nil => intro n s _; simp
  | cons c l ih =>
    intro n s hn
    cases n with
    | zero => simp at hn
    | succ n =>
      have hc : c ≠ '\n' := fun e => hl (e ▸ List.mem_cons_self)
      have := isPrefixOf_nls j 0 c (l ++ s) hc
      simp only [nls, List.replicate_zero, List.nil_append] at this
      have hp : (nls j).isPrefixOf (c :: (l ++ s)) = false := by
        simp only [nls, this, decide_eq_false_iff_not]; omega
      simp only [List.cons_append, replaceNl, hp, Bool.false_eq_true, if_false]
      rw [ih (fun e => hl (List.mem_cons_of_mem _ e)) n s (by simpa using hn)]
      simp

/-- Fewer newline characters are kept. -/
theorem replaceNl_few (j : Nat) (k : Nat) (hk : k < j) (c : Char) (hc : c ≠ '\n') (s : Str) : ∀ n : Nat, k ≤ n →
    replaceNl (nls j) n (nls k ++ c :: s) = nls k ++ replaceNl (nls j) (n - k) (c :: s) := by
  induction k with
  | zero => intro n _; simp [nls]
  | succ k ih =>
    intro n hn
    cases n with
    | zero => omega
    | succ n =>
      have hp := isPrefixOf_nls j (k + 1) c s hc
      have hp' : (nls j).isPrefixOf ('\n' :: (nls k ++ c :: s)) = false := by
        have e : nls (k + 1) ++ c :: s = '\n' :: (nls k ++ c :: s) := by simp [nls, List.replicate_succ]
        rw [← e, hp]
        simpa using hk
      have e : nls (k + 1) = '\n' :: nls k := by simp [nls, List.replicate_succ]
      rw [e]
      simp only [List.cons_append, replaceNl, hp', Bool.false_eq_true, if_false]
      rw [ih (by omega) n (by omega)]
      simp

/-- As many newline characters become one. -/
theorem replaceNl_exact (j : Nat) (hj : 0 < j) (c : Char) (hc : c ≠ '\n') (s : Str) (n : Nat) (hn : 0 < n) :
    replaceNl (nls j) n (nls j ++ c :: s) = '\n' :: replaceNl (nls j) (n - 1) (c :: s) := by
  obtain ⟨i, rfl⟩ : ∃ i, j = i + 1 := ⟨j - 1, by omega⟩
  obtain ⟨m, rfl⟩ : ∃ m, n = m + 1 := ⟨n - 1, by omega⟩
  have hp := isPrefixOf_nls (i + 1) (i + 1) c s hc
  have e : nls (i + 1) ++ c :: s = '\n' :: (nls i ++ c :: s) := by simp [nls, List.replicate_succ]
  rw [e] at hp ⊢
  simp only [replaceNl, hp, Nat.le_refl, decide_true, if_true]
  have hd : List.drop (nls (i + 1)).length ('\n' :: (nls i ++ c :: s)) = c :: s := by
    rw [← e]; simp
  rw [hd, Nat.add_sub_cancel]

theorem replaceNl_blocks (j : Nat) (hj : 0 < j) (bs : List (Nat × Str)) (hk : ∀ b ∈ bs, b.1 ≤ j)
    (hl : ∀ b ∈ bs, IsLine b.2) : ∀ n : Nat, (blocks bs).length ≤ n →
    replaceNl (nls j) n (blocks bs) = blocks (bs.map fun b => (if b.1 = j then 1 else b.1, b.2)) := by
  induction bs with
  | nil =>
    intro n _
    cases n <;> rfl
  | cons b bs ih =>
    intro n hn
    obtain ⟨k, l⟩ := b
    have hb := hl (k, l) List.mem_cons_self
    have hkj : k ≤ j := hk (k, l) List.mem_cons_self
    have ih := ih (fun x hx => hk x (List.mem_cons_of_mem _ hx)) (fun x hx => hl x (List.mem_cons_of_mem _ hx))
    simp only [blocks, List.length_append, List.map_cons] at hn ⊢
    have hnk : (nls k).length = k := by simp [nls]
    rw [hnk] at hn
    obtain ⟨c, hc, hsp⟩ := hb.head
    have hnn : '\n' ∉ l := hb.noNewline
    cases l with
    | nil => simp at hc
    | cons c' l =>
      have hc' : c' ≠ '\n' := fun e => hnn (e ▸ List.mem_cons_self)
      simp only [List.length_cons] at hn
      rw [List.append_assoc, List.cons_append]
      by_cases hkj' : k = j
      · subst hkj'
        rw [replaceNl_exact k hj c' hc' _ n (by omega), ← List.cons_append,
          replaceNl_line k hj (c' :: l) hnn (n - 1) _ (by simp only [List.length_cons]; omega), ih _ (by simp only [List.length_cons]; omega)]
        simp [nls]
      · rw [replaceNl_few j k (by omega) c' hc' _ n (by omega), ← List.cons_append,
          replaceNl_line j hj (c' :: l) hnn (n - k) _ (by simp only [List.length_cons]; omega), ih _ (by simp only [List.length_cons]; omega)]
        simp [hkj']

theorem replaceNl_text (j : Nat) (hj : 0 < j) (l : Str) (hl0 : '\n' ∉ l) (bs : List (Nat × Str)) (hk : ∀ b ∈ bs, b.1 ≤ j)
    (hl : ∀ b ∈ bs, IsLine b.2) :
    replaceNl (nls j) (l ++ blocks bs).length (l ++ blocks bs) =
      l ++ blocks (bs.map fun b => (if b.1 = j then 1 else b.1, b.2)) := by
  rw [replaceNl_line j hj l hl0 _ _ (by simp), replaceNl_blocks j hj bs hk hl _ (by simp)]

theorem strip_spaces (a w : Str) (ha : ∃ c, a.head? = some c ∧ isSpace c = false)
    (hz : ∃ c, a.getLast? = some c ∧ isSpace c = false) (hw : ∀ c ∈ w, isSpace c = true) : strip (a ++ w) = a := by
  obtain ⟨c, hc, hs⟩ := ha
  obtain ⟨z, hz, hzs⟩ := hz
  cases a with
  | nil => cases hc
  | cons x a =>
    injection hc with hc
    subst hc
    unfold strip
    rw [List.cons_append, List.dropWhile_cons, if_neg (by simp [hs]), ← List.cons_append, List.reverse_append,
      List.dropWhile_append_of_pos (by simpa using hw)]
    obtain ⟨i, hi⟩ : ∃ i, x :: a = i ++ [z] := by
      rw [List.getLast?_eq_some_iff] at hz
      exact hz
    rw [hi]
    simp [List.dropWhile_cons, hzs]

theorem last_line (l : Str) (hl : IsLine l) (bs : List (Nat × Str)) (hb : ∀ b ∈ bs, IsLine b.2) :
    ∃ c, (l ++ blocks bs).getLast? = some c ∧ isSpace c = false := by
  induction bs generalizing l with
  | nil => simpa [blocks] using hl.last
  | cons b bs ih =>
    have h1 := hb b List.mem_cons_self
    obtain ⟨c, h2, h3⟩ := ih b.2 h1 (fun x hx => hb x (List.mem_cons_of_mem _ hx))
    refine ⟨c, ?_, h3⟩
    rw [blocks, List.append_assoc, ← List.append_assoc, List.getLast?_append, h2]
    rfl

/-- Runs of one to three newline characters become one, those at the end none. -/
theorem tidy_blocks (l : Str) (hl : IsLine l) (bs : List (Nat × Str)) (hk : ∀ b ∈ bs, 1 ≤ b.1 ∧ b.1 ≤ 3)
    (hb : ∀ b ∈ bs, IsLine b.2) (t : Nat) :
    tidy (l ++ blocks bs ++ nls t) = l ++ blocks (bs.map fun b => (1, b.2)) := by
  have hs : strip (l ++ blocks bs ++ nls t) = l ++ blocks bs := by
    refine strip_spaces _ _ ?_ (last_line l hl bs hb) ?_
    · obtain ⟨c, h1, h2⟩ := hl.head
      exact ⟨c, by rw [List.head?_append, h1]; rfl, h2⟩
    · intro c hc
      rw [List.eq_of_mem_replicate hc]
      decide
  have e3 : lit "\n\n\n" = nls 3 := rfl
  have e2 : lit "\n\n" = nls 2 := rfl
  simp only [tidy, hs, e2, e3]
  rw [replaceNl_text 3 (by omega) l hl.noNewline bs (fun b h => (hk b h).2) hb,
    replaceNl_text 2 (by omega) l hl.noNewline _ ?_ ?_]
  · congr 2
    rw [List.map_map]
    apply List.map_congr_left
    intro b hbm
    have := hk b hbm
    simp only [Function.comp_apply]
    congr 1
    split <;> split <;> omega
  · intro b hbm
    obtain ⟨x, hx, rfl⟩ := List.mem_map.1 hbm
    have := hk x hx
    dsimp only
    split <;> omega
  · intro b hbm
    obtain ⟨x, hx, rfl⟩ := List.mem_map.1 hbm
    exact hb x hx

/-- The lines of one part of a definition. -/
def partLines (isUnion : Bool) (defs : List Str) : List Str := (if isUnion then [lit "@union"] else []) ++ defs

/-- The lines for the response. -/
def responseLines : Option (Bool × List Str) → List Str
  | none => []
  | some (u, ds) => lit "---" :: partLines u ds

theorem joinWith_blocks (d : Str) (ds : List Str) : joinWith (lit "\n") (d :: ds) = d ++ blocks (ds.map fun x => (1, x)) := by
  induction ds generalizing d with
  | nil => simp [joinWith, blocks]
  | cons x ds ih =>
    have e : nls 1 = lit "\n" := rfl
    simp only [joinWith, ih, List.map_cons, blocks, e]
    simp

theorem adjoin_blocks (q : Nat) (hq : q = 1) (defs : List Str) : ∃ bs t, nls q ++ adjoin defs = blocks bs ++ nls t ∧
    bs.map Prod.snd = defs ∧ (∀ b ∈ bs, b.1 = 1) ∧ 1 ≤ t ∧ t ≤ 2 := by
  subst hq
  have e : nls 1 = lit "\n" := rfl
  cases defs with
  | nil => exact ⟨[], 2, rfl, rfl, by simp, by omega, by omega⟩
  | cons d ds =>
    refine ⟨(d :: ds).map fun x => (1, x), 1, ?_, by simp [Function.comp_def], by simp, by omega, by omega⟩
    rw [adjoin, joinWith_blocks, List.map_cons, blocks, e]
    simp

theorem part_blocks (isUnion : Bool) (defs : List Str) : ∃ bs t, nls 1 ++ partText isUnion defs = blocks bs ++ nls t ∧
    bs.map Prod.snd = partLines isUnion defs ∧ (∀ b ∈ bs, 1 ≤ b.1 ∧ b.1 ≤ 2) ∧ 1 ≤ t ∧ t ≤ 2 := by
  obtain ⟨bs, t, h1, h2, h3, h4, h5⟩ := adjoin_blocks 1 rfl defs
  have e : nls 1 = lit "\n" := rfl
  cases isUnion with
  | false => exact ⟨bs, t, by simpa [partText] using h1, by simpa [partLines] using h2, fun b hb => by rw [h3 b hb]; omega, h4, h5⟩
  | true =>
    refine ⟨(2, lit "@union") :: bs, t, ?_, by simp [partLines, h2], ?_, h4, h5⟩
    · have e2 : lit "\n@union\n" = nls 1 ++ lit "@union" ++ nls 1 := rfl
      simp only [partText, if_true, blocks]
      rw [List.append_assoc (nls 2 ++ _), ← h1, e2, show nls 2 = nls 1 ++ nls 1 from rfl]
      simp only [List.append_assoc]
    · intro b hb
      rcases List.mem_cons.1 hb with rfl | hb
      · exact ⟨by decide, by decide⟩
      · rw [h3 b hb]; omega

/-- The normalised text of a definition: its name and one line for each field, and the lines that mark unions and the response. -/
theorem sourceText_lines (fullName : Str) (isUnion : Bool) (defs : List Str) (response : Option (Bool × List Str))
    (hn : IsLine fullName) (hd : ∀ d ∈ defs, IsLine d) (hr : ∀ u ds, response = some (u, ds) → ∀ d ∈ ds, IsLine d) :
    sourceText fullName isUnion defs response =
      joinWith (lit "\n") (fullName :: (partLines isUnion defs ++ responseLines response)) := by
  have hunion : IsLine (lit "@union") := ⟨by decide, ⟨'@', rfl, by decide⟩, ⟨'n', rfl, by decide⟩⟩
  have hdash : IsLine (lit "---") := ⟨by decide, ⟨'-', rfl, by decide⟩, ⟨'-', rfl, by decide⟩⟩
  have hpart : ∀ u ds, (∀ d ∈ ds, IsLine d) → ∀ l ∈ partLines u ds, IsLine l := by
    intro u ds h l hl
    rcases List.mem_append.1 hl with hl | hl
    · split at hl
      · rw [List.mem_singleton.1 hl]; exact hunion
      · cases hl
    · exact h l hl
  have hsnd : ∀ (bs : List (Nat × Str)) (ls : List Str), bs.map Prod.snd = ls → (∀ l ∈ ls, IsLine l) → ∀ b ∈ bs, IsLine b.2 := by
    intro bs ls h h' b hb
    exact h' b.2 (h ▸ List.mem_map_of_mem hb)
  have hone : ∀ (bs : List (Nat × Str)) (ls : List Str), bs.map Prod.snd = ls →
      (bs.map fun b => ((1 : Nat), b.2)) = ls.map fun x => (1, x) := by
    intro bs ls h
    rw [← h, List.map_map]
    rfl
  obtain ⟨bs, t, h1, h2, h3, h4, h5⟩ := part_blocks isUnion defs
  have e : nls 1 = lit "\n" := rfl
  rw [joinWith_blocks]
  cases response with
  | none =>
    have := tidy_blocks fullName hn bs (fun b hb => ⟨(h3 b hb).1, by have := (h3 b hb).2; omega⟩)
      (hsnd bs _ h2 (hpart _ _ hd)) t
    rw [hone bs _ h2] at this
    simp only [sourceText, responseLines, List.append_nil]
    rw [← this, List.append_assoc fullName (blocks bs), ← h1, e]
    simp
  | some r =>
    obtain ⟨u, ds⟩ := r
    obtain ⟨bs', t', h1', h2', h3', h4', h5'⟩ := part_blocks u ds
    have hsn : (bs ++ (t + 1, lit "---") :: bs').map Prod.snd = partLines isUnion defs ++ lit "---" :: partLines u ds := by
      simp [h2, h2']
    have := tidy_blocks fullName hn (bs ++ (t + 1, lit "---") :: bs') ?_ ?_ t'
    · rw [hone _ _ hsn] at this
      rw [responseLines, ← this]
      simp only [sourceText, blocks_append, blocks]
      have e2 : lit "\n---\n" = nls 1 ++ lit "---" ++ nls 1 := rfl
      rw [e2, ← e, ← nls_append]
      have : fullName ++ nls 1 ++ partText isUnion defs ++ (nls 1 ++ lit "---" ++ nls 1 ++ partText u ds) =
          fullName ++ (nls 1 ++ partText isUnion defs) ++ (nls 1 ++ lit "---" ++ (nls 1 ++ partText u ds)) := by
        simp only [List.append_assoc]
      rw [this, h1, h1']
      simp only [List.append_assoc]
    · intro b hb
      rcases List.mem_append.1 hb with hb | hb
      · have := h3 b hb; omega
      · rcases List.mem_cons.1 hb with rfl | hb
        · dsimp only; omega
        · have := h3' b hb; omega
    · refine hsnd _ _ hsn ?_
      intro l hl
      rcases List.mem_append.1 hl with hl | hl
      · exact hpart _ _ hd l hl
      · rcases List.mem_cons.1 hl with rfl | hl
        · exact hdash
        · exact hpart _ _ (hr u ds rfl) l hl

end Parser
end Dronecan
