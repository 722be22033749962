import Verif.Proofs.YamlText

/-!
# Reading sequences, texts and lines
-/

namespace Dronecan
namespace YamlSpec

open Text Parser Display

/-! ## Flow sequences -/

theorem commas_cons (c : Char) (cs : Str) (h : c ≠ ',') : ∃ a b, commas cs = a :: b ∧ commas (c :: cs) = (c :: a) :: b := by
  have hne : ∀ s, commas s ≠ [] := by
    intro s
    cases s with
    | nil => simp [commas]
    | cons d ds =>
      unfold commas
      split
      · simp_all
      · simp
      · split <;> simp
  cases hc : commas cs with
  | nil => exact absurd hc (hne cs)
  | cons a b =>
    refine ⟨a, b, rfl, ?_⟩
    rw [commas]
    · rw [hc]
    · exact h

theorem commas_plain (s : Str) (h : ∀ c ∈ s, c ≠ ',') : commas s = [s] := by
  induction s with
  | nil => rfl
  | cons c cs ih =>
    obtain ⟨a, b, h1, h2⟩ := commas_cons c cs (h c (by simp))
    rw [ih fun d hd => h d (by simp [hd])] at h1
    cases h1
    exact h2

theorem commas_append (s rest : Str) (h : ∀ c ∈ s, c ≠ ',') : commas (s ++ ',' :: rest) = s :: commas rest := by
  induction s with
  | nil => rfl
  | cons c cs ih =>
    obtain ⟨a, b, h1, h2⟩ := commas_cons c (cs ++ ',' :: rest) (h c (by simp))
    rw [ih fun d hd => h d (by simp [hd])] at h1
    cases h1
    exact h2

theorem trim_spaces (pre s : Str) (hp : ∀ c ∈ pre, c = ' ') (hs : Leaf s) : trimEnd (dropSpaces (pre ++ s)) = s := by
  have : dropSpaces (pre ++ s) = s := by
    obtain ⟨hne, hs⟩ := hs
    cases s with
    | nil => exact absurd rfl hne
    | cons c cs =>
      exact (takeWhile_append_stop (fun c => decide (c = ' ')) pre (c :: cs) (fun x hx => by simp [hp x hx]) (fun x hx => by
        cases hx
        simpa using (hs c (by simp)).ne_space)).2
  rw [this, trimEnd_leaf _ hs.2]

theorem commas_join (ts : List Str) (hne : ts ≠ []) (h : ∀ t ∈ ts, Leaf t) (pre : Str) (hp : ∀ c ∈ pre, c = ' ') :
    (commas (pre ++ joinWith (lit ", ") ts)).map (fun x => trimEnd (dropSpaces x)) = ts := by
  induction ts generalizing pre with
  | nil => exact absurd rfl hne
  | cons t ts ih =>
    have ht := h t (by simp)
    have hc : ∀ c ∈ pre ++ t, c ≠ ',' := by
      intro c hc
      rcases List.mem_append.1 hc with hc | hc
      · rw [hp c hc]; decide
      · exact (ht.2 c hc).ne_comma
    cases ts with
    | nil =>
      simp only [joinWith]
      rw [commas_plain _ hc]
      simp [trim_spaces pre t hp ht]
    | cons t' ts' =>
      have : pre ++ joinWith (lit ", ") (t :: t' :: ts') = (pre ++ t) ++ ',' :: ([' '] ++ joinWith (lit ", ") (t' :: ts')) := by
        simp [joinWith, lit]
      rw [this, commas_append _ _ hc, List.map_cons, trim_spaces pre t hp ht,
        ih (by simp) (fun x hx => h x (by simp [hx])) [' '] (by simp)]

theorem join_chars (ts : List Str) (h : ∀ t ∈ ts, Leaf t) : ∀ c ∈ joinWith (lit ", ") ts, LeafChar c ∨ c = ',' ∨ c = ' ' := by
  induction ts with
  | nil => simp [joinWith]
  | cons t ts ih =>
    cases ts with
    | nil =>
      simp only [joinWith]
      exact fun c hc => .inl ((h t (by simp)).2 c hc)
    | cons t' ts' =>
      intro c hc
      simp only [joinWith, List.mem_append] at hc
      rcases hc with (hc | hc) | hc
      · exact .inl ((h t (by simp)).2 c hc)
      · simp [lit] at hc
        exact .inr hc
      · exact ih (fun x hx => h x (by simp [hx])) c hc

theorem join_head (ts : List Str) (hne : ts ≠ []) (h : ∀ t ∈ ts, Leaf t) : ∃ c cs, joinWith (lit ", ") ts = c :: cs ∧ LeafChar c := by
  cases ts with
  | nil => exact absurd rfl hne
  | cons t ts =>
    obtain ⟨hn, ht⟩ := h t (by simp)
    cases t with
    | nil => exact absurd rfl hn
    | cons c cs =>
      cases ts with
      | nil => exact ⟨c, cs, rfl, ht c (by simp)⟩
      | cons t' ts' => exact ⟨c, cs ++ lit ", " ++ joinWith (lit ", ") (t' :: ts'), by simp [joinWith], ht c (by simp)⟩

theorem inline_flow (ts : List Str) (h : ∀ t ∈ ts, Leaf t) : inline ('[' :: (joinWith (lit ", ") ts ++ [']'])) = some (.list (ts.map resolve)) := by
  have hstop := takeWhile_append_stop (fun c => decide (c ≠ ']')) (joinWith (lit ", ") ts) [']'] (by
    intro c hc
    rcases join_chars ts h c hc with hl | rfl | rfl
    · simpa using hl.ne_bracket
    · decide
    · decide) (by simp)
  rw [inline]
  unfold flow
  simp only [hstop.1, hstop.2]
  rw [if_neg (by decide)]
  by_cases hne : ts = []
  · subst hne
    rfl
  · obtain ⟨c, cs, hj, hc⟩ := join_head ts hne h
    have := commas_join ts hne h [] (by simp)
    rw [List.nil_append] at this
    rw [if_neg (by rw [hj, dropSpaces_cons c cs hc.ne_space]; simp), this, if_neg]
    intro ha
    obtain ⟨t, ht, hb⟩ := List.any_eq_true.1 ha
    rw [Bool.or_eq_true, decide_eq_true_eq] at hb
    rcases hb with hb | hb
    · exact (h t ht).1 hb
    · obtain ⟨d, hd, hi⟩ := List.any_eq_true.1 hb
      rw [((h t ht).2 d hd).not_indicator] at hi
      cases hi

/-! ## Quoted scalars -/

theorem singleQuoted_cons (c : Char) (cs : Str) (h : c ≠ '\'') : singleQuoted (c :: cs) = (singleQuoted cs).map fun (a, b) => (c :: a, b) := by
  rw [singleQuoted]
  · intro _ h1
    exact absurd h1 h
  · exact h

theorem singleQuoted_plain (s rest : Str) (hs : '\'' ∉ s) (hr : rest.head? ≠ some '\'') : singleQuoted (s ++ '\'' :: rest) = some (s, rest) := by
  induction s with
  | nil =>
    cases rest with
    | nil => rfl
    | cons c cs =>
      rw [List.nil_append, singleQuoted]
      intro cs' h
      cases h
      exact hr rfl
  | cons c cs ih =>
    rw [List.cons_append, singleQuoted_cons _ _ (fun e => hs (by simp [e])), ih fun h => hs (by simp [h])]
    rfl

theorem doubleQuoted_char (c : Char) (cs rest s : Str) (hc : c ≠ '"') (h : doubleQuoted cs = some (s, rest)) :
    doubleQuoted (reprChar '"' c ++ cs) = some (c :: s, rest) := by
  unfold reprChar
  by_cases h1 : c = '\\'
  · subst h1
    simp [doubleQuoted, h]
  · rw [if_neg (by simp [hc, h1])]
    by_cases h2 : c = '\n'
    · subst h2
      simp [doubleQuoted, h]
    · rw [if_neg h2]
      by_cases h3 : c = '\r'
      · subst h3
        simp [doubleQuoted, h]
      · rw [if_neg h3]
        by_cases h4 : c = '\t'
        · subst h4
          simp [doubleQuoted, h]
        · rw [if_neg h4, List.singleton_append, doubleQuoted]
          · rw [h]; rfl
          · exact hc
          · intro h5; exact absurd h5 h1
          · intro _ _ h5; exact absurd h5 h1

theorem doubleQuoted_repr (s rest : Str) (hs : '"' ∉ s) : doubleQuoted (s.flatMap (reprChar '"') ++ '"' :: rest) = some (s, rest) := by
  induction s with
  | nil => simp [doubleQuoted]
  | cons c cs ih =>
    rw [List.flatMap_cons, List.append_assoc]
    exact doubleQuoted_char c _ _ _ (fun e => hs (by simp [e])) (ih fun h => hs (by simp [h]))

/-- Texts that are the same in the quotes of Python and of YAML. -/
def QuoteOk (s : Str) : Prop := ('\'' ∈ s ∧ '"' ∉ s) ∨ ('\'' ∉ s ∧ '\\' ∉ s ∧ '\n' ∉ s ∧ '\r' ∉ s ∧ '\t' ∉ s)

theorem flatMap_plain (s : Str) (h : '\'' ∉ s ∧ '\\' ∉ s ∧ '\n' ∉ s ∧ '\r' ∉ s ∧ '\t' ∉ s) : s.flatMap (reprChar '\'') = s := by
  induction s with
  | nil => rfl
  | cons c cs ih =>
    simp only [List.mem_cons, not_or] at h
    rw [List.flatMap_cons, ih ⟨h.1.2, h.2.1.2, h.2.2.1.2, h.2.2.2.1.2, h.2.2.2.2.2⟩]
    have : reprChar '\'' c = [c] := by
      unfold reprChar
      rw [if_neg (by rintro (e | e) <;> simp_all), if_neg (fun e => h.2.2.1.1 e.symm), if_neg (fun e => h.2.2.2.1.1 e.symm), if_neg (fun e => h.2.2.2.2.1 e.symm)]
    rw [this]
    rfl

theorem inline_repr (s note : Str) (hs : QuoteOk s) (hn : Note note) : inline (reprText s ++ note) = some (.str s) := by
  unfold reprText
  rcases hs with hs | hs
  · simp only [hs, not_false_eq_true, and_self, if_true, List.singleton_append, List.append_assoc, List.cons_append]
    rw [inline, List.nil_append, List.nil_append, doubleQuoted_repr s _ hs.2]
    simp only
    rw [if_pos (onlyComment_note note hn)]
  · simp only [hs.1, false_and, if_false, List.singleton_append, List.append_assoc, List.cons_append]
    rw [flatMap_plain s hs, inline, List.nil_append, List.nil_append, singleQuoted_plain s _ hs.1 (by rcases hn with rfl | ⟨x, rfl⟩ <;> simp)]
    simp only
    rw [if_pos (onlyComment_note note hn)]

/-! ## Lines -/

/-- The text of lines. -/
def flat (ls : List Line) : Str := ls.flatMap fun l => '\n' :: (List.replicate l.indent ' ' ++ l.text)

/-- A line that is not blank and not a comment. -/
def Clean (l : Line) : Prop := '\n' ∉ l.text ∧ ∃ c cs, l.text = c :: cs ∧ c ≠ ' ' ∧ c ≠ '#'

theorem flat_nil : flat [] = [] := rfl
theorem flat_cons (l : Line) (ls : List Line) : flat (l :: ls) = '\n' :: (List.replicate l.indent ' ' ++ l.text) ++ flat ls := by simp [flat]
theorem flat_append (a b : List Line) : flat (a ++ b) = flat a ++ flat b := by simp [flat]

theorem breakLines_ne (s : Str) : breakLines s ≠ [] := by
  cases s with
  | nil => simp [breakLines]
  | cons d ds =>
    unfold breakLines
    split
    · simp_all
    · simp
    · split <;> simp

theorem breakLines_cons (c : Char) (cs : Str) (h : c ≠ '\n') : ∃ a b, breakLines cs = a :: b ∧ breakLines (c :: cs) = (c :: a) :: b := by
  cases hc : breakLines cs with
  | nil => exact absurd hc (breakLines_ne cs)
  | cons a b =>
    refine ⟨a, b, rfl, ?_⟩
    rw [breakLines]
    · rw [hc]
    · exact h

theorem breakLines_plain (s : Str) (h : '\n' ∉ s) : breakLines s = [s] := by
  induction s with
  | nil => rfl
  | cons c cs ih =>
    obtain ⟨a, b, h1, h2⟩ := breakLines_cons c cs (fun e => h (by simp [e]))
    rw [ih fun hd => h (by simp [hd])] at h1
    cases h1
    exact h2

theorem breakLines_append (s rest : Str) (h : '\n' ∉ s) : breakLines (s ++ '\n' :: rest) = s :: breakLines rest := by
  induction s with
  | nil => rfl
  | cons c cs ih =>
    obtain ⟨a, b, h1, h2⟩ := breakLines_cons c (cs ++ '\n' :: rest) (fun e => h (by simp [e]))
    rw [ih fun hd => h (by simp [hd])] at h1
    cases h1
    exact h2

theorem breakLines_flat (head : Str) (hh : '\n' ∉ head) (ls : List Line) (h : ∀ l ∈ ls, Clean l) :
    breakLines (head ++ flat ls) = head :: ls.map fun l => List.replicate l.indent ' ' ++ l.text := by
  induction ls generalizing head with
  | nil => rw [flat_nil, List.append_nil, breakLines_plain _ hh]; rfl
  | cons l ls ih =>
    rw [flat_cons, List.cons_append, breakLines_append _ _ hh, ih _ (by
      intro hc
      rcases List.mem_append.1 hc with hc | hc
      · have := List.eq_of_mem_replicate hc; cases this
      · exact (h l (by simp)).1 hc) fun x hx => h x (by simp [hx])]
    rfl

theorem toLine_spaces (n : Nat) (c : Char) (cs : Str) (hc : c ≠ ' ') : toLine (List.replicate n ' ' ++ c :: cs) = ⟨n, c :: cs⟩ := by
  have h := takeWhile_append_stop (fun c => decide (c = ' ')) (List.replicate n ' ') (c :: cs) (fun x hx => by simp [List.eq_of_mem_replicate hx]) (fun x hx => by cases hx; simpa using hc)
  unfold toLine dropSpaces
  rw [h.1, h.2, List.length_replicate]

/-- The lines of a text that is made of clean lines. -/
theorem docLines_flat (head : Str) (hh : '\n' ∉ head) (ls : List Line) (h : ∀ l ∈ ls, Clean l) :
    docLines (head ++ flat ls) = docLines head ++ ls := by
  unfold docLines
  rw [breakLines_flat head hh ls h, breakLines_plain head hh, ← List.singleton_append, List.map_append, List.filter_append]
  congr 1
  induction ls with
  | nil => rfl
  | cons l ls ih =>
    obtain ⟨_, c, cs, hc, h1, h2⟩ := h l (by simp)
    have hl : toLine (List.replicate l.indent ' ' ++ l.text) = l := by
      rw [hc, toLine_spaces _ _ _ h1, ← hc]
    simp only [List.map_cons]
    rw [hl, List.filter_cons, ih fun x hx => h x (by simp [hx]), if_pos]
    rw [hc]
    split
    · simp_all
    · rename_i e; cases e; exact absurd rfl h2
    · rfl

theorem docLines_clean (s : Str) (h : Clean ⟨0, s⟩) : docLines s = [⟨0, s⟩] := by
  have := docLines_flat [] (by simp) [⟨0, s⟩] (by intro l hl; rw [List.mem_singleton] at hl; rw [hl]; exact h)
  obtain ⟨hn, c, cs, rfl, h1, h2⟩ := h
  unfold docLines
  rw [breakLines_plain _ hn]
  have := toLine_spaces 0 c cs h1
  simp only [List.replicate_zero, List.nil_append] at this
  simp only [List.map_cons, List.map_nil, this, List.filter_cons, List.filter_nil]
  rw [if_pos]
  split
  · simp_all
  · rename_i e; cases e; exact absurd rfl h2
  · rfl

/-! ## Keys and items -/

theorem keyOf_field (name head : Str) (hn : name ≠ []) (hk : ∀ c ∈ name, keyChar c = true) : keyOf (name ++ lit ": " ++ head) = some (name, dropSpaces head) := by
  have h := takeWhile_append_stop keyChar name (':' :: ' ' :: head) hk (by intro x hx; cases hx; rfl)
  have e : name ++ lit ": " ++ head = name ++ ':' :: ' ' :: head := by simp [lit]
  unfold keyOf
  rw [e, h.1, h.2]
  simp [hn]

theorem keyOf_other (c : Char) (cs : Str) (hc : keyChar c = false) (h : c ≠ ':') : keyOf (c :: cs) = none := by
  unfold keyOf
  have h1 : List.dropWhile keyChar (c :: cs) = c :: cs := by simp [hc]
  rw [h1]
  split
  · simp_all
  · simp_all
  · rfl

/-- A number or a word is not a key. -/
theorem keyOf_leaf (s note : Str) (hs : Leaf s) (hn : Note note) : keyOf (s ++ note) = none := by
  unfold keyOf
  cases hd : (s ++ note).dropWhile keyChar with
  | nil => rfl
  | cons c cs =>
    have hc : c ≠ ':' := by
      have hmem : c ∈ s ++ note ∧ keyChar c = false := by
        have h1 := List.head?_dropWhile_not keyChar (s ++ note)
        rw [hd] at h1
        refine ⟨(List.dropWhile_sublist keyChar).subset (by rw [hd]; simp), ?_⟩
        simpa using h1
      rintro rfl
      -- the colon would be in the note, after its first blank
      have hall : s.dropWhile keyChar = [] := by
        cases hs' : s.dropWhile keyChar with
        | nil => rfl
        | cons d ds =>
          rw [List.dropWhile_append, hs'] at hd
          simp at hd
          have : d ∈ s := (List.dropWhile_sublist keyChar).subset (by rw [hs']; simp)
          exact absurd (hs.2 d this) (by rw [hd.1]; intro hl; exact hl.ne ':' (by decide) (by decide) (by decide) rfl)
      rw [List.dropWhile_append, hall] at hd
      rcases hn with rfl | ⟨x, rfl⟩
      · simp at hd
      · simp [show keyChar ' ' = false by decide] at hd
    split
    · simp_all
    · simp_all
    · rfl

theorem itemOf_mark (head : Str) : itemOf (lit "- " ++ head) = some (dropSpaces head) := by simp [lit, itemOf]

theorem itemOf_other (c : Char) (cs : Str) (hc : c ≠ '-') : itemOf (c :: cs) = none := by
  unfold itemOf
  split
  · simp_all
  · simp_all
  · rfl

theorem itemOf_minus (c : Char) (cs : Str) (hc : c ≠ ' ') : itemOf ('-' :: c :: cs) = none := by
  unfold itemOf
  split
  · simp_all
  · simp_all
  · rfl

end YamlSpec
end Dronecan
