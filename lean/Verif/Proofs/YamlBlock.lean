import Verif.Proofs.YamlRead

/-!
# Reading blocks
-/

namespace Dronecan
namespace YamlSpec

open Text Parser Display

theorem within_mono (m n : Nat) (ls : List Line) (h : within m ls = false) (hmn : m ≤ n) : within n ls = false := by
  cases ls with
  | nil => rfl
  | cons l ls => simp [within] at h ⊢; omega

theorem within_append (n : Nat) (a b : List Line) (ha : within n a = false) (hb : within n b = false) : within n (a ++ b) = false := by
  cases a with
  | nil => exact hb
  | cons l ls => exact ha

theorem all_of_dropWhile_nil {α : Type} (p : α → Bool) (l : List α) (h : l.dropWhile p = []) : ∀ x ∈ l, p x = true := by
  induction l with
  | nil => simp
  | cons a l ih =>
    rw [List.dropWhile_cons] at h
    split at h
    · rename_i ha
      intro x hx
      rcases List.mem_cons.1 hx with rfl | hx
      · exact ha
      · exact ih h x hx
    · cases h

theorem onlyComment_cons (c : Char) (cs : Str) (hc : c ≠ ' ') : onlyComment (c :: cs) = false := by
  unfold onlyComment
  rw [beforeComment_cons c cs hc, decide_eq_false_iff_not]
  intro h
  unfold trimEnd dropSpaces at h
  rw [List.reverse_eq_nil_iff] at h
  have := all_of_dropWhile_nil _ _ h c (by simp)
  simp at this
  exact hc this

/-- What a text that follows a key or the mark of an item says: `head` is on the same line, the lines `ls` follow. -/
def Follows (level : Nat) (s : Str) (tree : Tree) : Prop :=
  ∃ head ls, s = head ++ flat ls ∧ '\n' ∉ head ∧ (∀ l ∈ ls, Clean l) ∧
    ∀ n rest fuel, n < 2 * level → within (n + 1) rest = false → 3 * (ls.length + rest.length) + 2 ≤ fuel →
      value fuel n (dropSpaces head) (ls ++ rest) = some (tree, rest)

/-- A scalar on the same line. -/
theorem follows_inline (level : Nat) (c : Char) (cs : Str) (tree : Tree) (hn : '\n' ∉ c :: cs) (h1 : c ≠ ' ') (h2 : c ≠ '#') (hi : inline (c :: cs) = some tree) :
    Follows level (c :: cs) tree := by
  refine ⟨c :: cs, [], by simp [flat_nil], hn, by simp, ?_⟩
  intro n rest fuel _ hr hf
  obtain ⟨f, rfl⟩ : ∃ f, fuel = f + 1 := ⟨fuel - 1, by omega⟩
  rw [dropSpaces_cons c cs h1, value, onlyComment_cons c cs h1, List.nil_append, hr, hi]
  simp [h2]

/-- Nothing. -/
theorem follows_nothing (level : Nat) : Follows level [] .null := by
  refine ⟨[], [], rfl, by simp, by simp, ?_⟩
  intro n rest fuel _ hr hf
  obtain ⟨f, rfl⟩ : ∃ f, fuel = f + 1 := ⟨fuel - 1, by omega⟩
  rw [value, List.nil_append, hr]
  rfl

/-- A block on the following lines. -/
theorem follows_block (level : Nat) (ls : List Line) (tree : Tree) (hc : ∀ l ∈ ls, Clean l) (hw : within (2 * level) ls = true)
    (hb : ∀ n rest fuel, n < 2 * level → within (n + 1) rest = false → 3 * (ls.length + rest.length) + 1 ≤ fuel → block fuel (n + 1) (ls ++ rest) = some (tree, rest)) :
    Follows level (flat ls) tree := by
  refine ⟨[], ls, rfl, by simp, hc, ?_⟩
  intro n rest fuel hn hr hf
  obtain ⟨f, rfl⟩ : ∃ f, fuel = f + 1 := ⟨fuel - 1, by omega⟩
  have hw' : within (n + 1) (ls ++ rest) = true := by
    cases ls with
    | nil => simp [within] at hw
    | cons l ls => simp [within] at hw ⊢; omega
  rw [value, hw', hb n rest f hn hr (by omega)]
  rfl

/-- Lines that hold the pairs of a mapping. -/
structure PairLines (n : Nat) (ls : List Line) (kvs : List (Str × Tree)) : Prop where
  clean : ∀ l ∈ ls, Clean l
  stop : within (n + 1) ls = false
  nil : kvs = [] → ls = []
  key : kvs ≠ [] → ∃ l ls', ls = l :: ls' ∧ l.indent = n ∧ itemOf l.text = none ∧ (keyOf l.text).isSome = true
  read : ∀ rest fuel, within n rest = false → 3 * (ls.length + rest.length) ≤ fuel → pairs fuel n (ls ++ rest) = some (kvs, rest)

theorem PairLines.empty (n : Nat) : PairLines n [] [] := by
  refine ⟨by simp, rfl, fun _ => rfl, fun h => absurd rfl h, ?_⟩
  intro rest fuel hr hf
  rw [List.nil_append]
  cases rest with
  | nil => cases fuel <;> simp [pairs]
  | cons l ls =>
    obtain ⟨f, rfl⟩ : ∃ f, fuel = f + 1 := ⟨fuel - 1, by simp at hf; omega⟩
    simp only [within, decide_eq_false_iff_not] at hr
    rw [pairs, if_pos (by omega)]

theorem name_head (name : Str) (hn : name ≠ []) (hk : ∀ c ∈ name, keyChar c = true) : ∃ c cs, name = c :: cs ∧ c ≠ ' ' ∧ c ≠ '#' ∧ c ≠ '-' ∧ '\n' ∉ name := by
  cases name with
  | nil => exact absurd rfl hn
  | cons c cs =>
    have hc := hk c (by simp)
    refine ⟨c, cs, rfl, ?_, ?_, ?_, ?_⟩
    · rintro rfl; exact absurd hc (by decide)
    · rintro rfl; exact absurd hc (by decide)
    · rintro rfl; exact absurd hc (by decide)
    · intro h; exact absurd (hk _ h) (by decide)

/-- One more pair in front. -/
theorem PairLines.cons (level : Nat) (name s : Str) (tree : Tree) (ls : List Line) (kvs : List (Str × Tree)) (hn : name ≠ []) (hk : ∀ c ∈ name, keyChar c = true)
    (hs : Follows (level + 1) s tree) (h : PairLines (2 * level) ls kvs) :
    ∃ ls', PairLines (2 * level) ls' ((name, tree) :: kvs) ∧ flat ls' = newline level ++ name ++ lit ": " ++ s ++ flat ls := by
  obtain ⟨head, lf, rfl, hh, hcl, hv⟩ := hs
  obtain ⟨c, cs, hname, h1, h2, h3, h4⟩ := name_head name hn hk
  refine ⟨⟨2 * level, name ++ lit ": " ++ head⟩ :: (lf ++ ls), ⟨?_, ?_, ?_, ?_, ?_⟩, ?_⟩
  · intro l hl
    rcases List.mem_cons.1 hl with rfl | hl
    · refine ⟨?_, c, cs ++ lit ": " ++ head, by simp [hname], h1, h2⟩
      intro hc
      simp only [List.mem_append] at hc
      rcases hc with (hc | hc) | hc
      · exact h4 hc
      · simp [lit] at hc
      · exact hh hc
    · rcases List.mem_append.1 hl with hl | hl
      · exact hcl l hl
      · exact h.clean l hl
  · simp [within]
  · intro e; cases e
  · intro _
    refine ⟨_, _, rfl, rfl, ?_, ?_⟩
    · simp only [hname, List.cons_append]
      exact itemOf_other _ _ h3
    · simp only [keyOf_field name head hn hk]
      rfl
  · intro rest fuel hr hf
    simp only [List.length_cons, List.length_append] at hf
    obtain ⟨f, rfl⟩ : ∃ f, fuel = f + 1 := ⟨fuel - 1, by omega⟩
    rw [List.cons_append, pairs, if_neg (by simp), if_neg (by simp)]
    simp only [keyOf_field name head hn hk]
    rw [List.append_assoc]
    rw [hv (2 * level) (ls ++ rest) f (by omega) (within_append _ _ _ h.stop (within_mono _ _ _ hr (by omega))) (by simp; omega)]
    simp only
    rw [h.read rest f hr (by omega)]
    rfl
  · rw [flat_cons, flat_append]
    simp [newline]

/-- The mapping as a block. -/
theorem PairLines.block {n : Nat} {ls : List Line} {kvs : List (Str × Tree)} (h : PairLines n ls kvs) (hne : kvs ≠ []) (lo : Nat) (rest : List Line) (fuel : Nat)
    (hr : within n rest = false) (hf : 3 * (ls.length + rest.length) + 1 ≤ fuel) : YamlSpec.block fuel lo (ls ++ rest) = some (.map kvs, rest) := by
  obtain ⟨l, ls', hls, hi, hit, hk⟩ := h.key hne
  obtain ⟨f, rfl⟩ : ∃ f, fuel = f + 1 := ⟨fuel - 1, by omega⟩
  have := h.read rest f hr (by omega)
  rw [hls, List.cons_append] at this ⊢
  rw [YamlSpec.block, hit, hk, hi, this]
  rfl

/-- Lines that hold the items of a sequence. -/
structure ItemLines (n : Nat) (ls : List Line) (xs : List Tree) : Prop where
  clean : ∀ l ∈ ls, Clean l
  stop : within (n + 1) ls = false
  mark : xs ≠ [] → ∃ l ls', ls = l :: ls' ∧ l.indent = n ∧ (itemOf l.text).isSome = true
  read : ∀ rest fuel, within n rest = false → 3 * (ls.length + rest.length) ≤ fuel → items fuel n (ls ++ rest) = some (xs, rest)

theorem ItemLines.empty (n : Nat) : ItemLines n [] [] := by
  refine ⟨by simp, rfl, fun h => absurd rfl h, ?_⟩
  intro rest fuel hr hf
  rw [List.nil_append]
  cases rest with
  | nil => cases fuel <;> simp [items]
  | cons l ls =>
    obtain ⟨f, rfl⟩ : ∃ f, fuel = f + 1 := ⟨fuel - 1, by simp at hf; omega⟩
    simp only [within, decide_eq_false_iff_not] at hr
    rw [items, if_pos (by omega)]

/-- One more item in front. -/
theorem ItemLines.cons (level : Nat) (s : Str) (tree : Tree) (ls : List Line) (xs : List Tree) (hs : Follows (level + 1) s tree) (h : ItemLines (2 * level) ls xs) :
    ∃ ls', ItemLines (2 * level) ls' (tree :: xs) ∧ flat ls' = newline level ++ lit "- " ++ s ++ flat ls := by
  obtain ⟨head, lf, rfl, hh, hcl, hv⟩ := hs
  refine ⟨⟨2 * level, lit "- " ++ head⟩ :: (lf ++ ls), ⟨?_, ?_, ?_, ?_⟩, ?_⟩
  · intro l hl
    rcases List.mem_cons.1 hl with rfl | hl
    · refine ⟨?_, '-', ' ' :: head, rfl, by decide, by decide⟩
      intro hc
      simp only [List.mem_append] at hc
      rcases hc with hc | hc
      · simp [lit] at hc
      · exact hh hc
    · rcases List.mem_append.1 hl with hl | hl
      · exact hcl l hl
      · exact h.clean l hl
  · simp [within]
  · intro _
    exact ⟨_, _, rfl, rfl, by simp only [itemOf_mark]; rfl⟩
  · intro rest fuel hr hf
    simp only [List.length_cons, List.length_append] at hf
    obtain ⟨f, rfl⟩ : ∃ f, fuel = f + 1 := ⟨fuel - 1, by omega⟩
    rw [List.cons_append, items, if_neg (by simp), if_neg (by simp)]
    simp only [itemOf_mark]
    rw [List.append_assoc]
    rw [hv (2 * level) (ls ++ rest) f (by omega) (within_append _ _ _ h.stop (within_mono _ _ _ hr (by omega))) (by simp; omega)]
    simp only
    rw [h.read rest f hr (by omega)]
    rfl
  · rw [flat_cons, flat_append]
    simp [newline]

/-- The sequence as a block. -/
theorem ItemLines.block {n : Nat} {ls : List Line} {xs : List Tree} (h : ItemLines n ls xs) (hne : xs ≠ []) (lo : Nat) (rest : List Line) (fuel : Nat)
    (hr : within n rest = false) (hf : 3 * (ls.length + rest.length) + 1 ≤ fuel) : YamlSpec.block fuel lo (ls ++ rest) = some (.list xs, rest) := by
  obtain ⟨l, ls', hls, hi, hit⟩ := h.mark hne
  obtain ⟨f, rfl⟩ : ∃ f, fuel = f + 1 := ⟨fuel - 1, by omega⟩
  have := h.read rest f hr (by omega)
  rw [hls, List.cons_append] at this ⊢
  rw [YamlSpec.block, hit, hi, this]
  rfl

/-- A document of one block. -/
theorem read_block (s : Str) (ls : List Line) (tree : Tree) (h : docLines s = ls) (hne : ls ≠ []) (hb : block (3 * ls.length + 3) 0 ls = some (tree, [])) : read s = some tree := by
  unfold read
  rw [h]
  cases ls with
  | nil => exact absurd rfl hne
  | cons l ls => simp only [hb]

/-- A document of one scalar. -/
theorem read_inline (c : Char) (cs : Str) (tree : Tree) (hn : '\n' ∉ c :: cs) (h1 : c ≠ ' ') (h2 : c ≠ '#') (hit : itemOf (c :: cs) = none) (hk : keyOf (c :: cs) = none)
    (hi : inline (c :: cs) = some tree) : read (c :: cs) = some tree := by
  refine read_block _ _ tree (docLines_clean _ ⟨hn, c, cs, rfl, h1, h2⟩) (by simp) ?_
  simp only [List.length_cons, List.length_nil]
  rw [block, hit, hk, hi]
  rfl

end YamlSpec
end Dronecan
