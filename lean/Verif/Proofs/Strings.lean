import Verif.Model.Parser

/-!
# Splitting and joining strings
-/

namespace Dronecan
namespace Parser

open Text

theorem splitOnAux_count (sep : Char) (a cur : Str) : (splitOnAux sep cur a).length = a.count sep + 1 := by
  induction a generalizing cur with
  | nil => simp [splitOnAux]
  | cons c cs ih =>
    simp only [splitOnAux]
    by_cases h : c = sep
    · subst h
      simp [ih]
    · rw [if_neg h, ih, List.count_cons_of_ne h]

theorem splitOn_ne (sep : Char) (s : Str) : splitOn sep s ≠ [] := by
  intro h
  have := splitOnAux_count sep s []
  rw [splitOn] at h
  rw [h] at this
  simp at this

theorem splitOnAux_no_sep (sep : Char) (a : Str) : ∀ cur : Str, sep ∉ cur → ∀ p ∈ splitOnAux sep cur a, sep ∉ p := by
  induction a with
  | nil =>
    intro cur h p hp
    simp only [splitOnAux, List.mem_singleton] at hp
    subst hp
    simpa using h
  | cons c cs ih =>
    intro cur h p hp
    simp only [splitOnAux] at hp
    split at hp
    · rcases List.mem_cons.1 hp with hp | hp
      · subst hp; simpa using h
      · exact ih [] (by simp) p hp
    · rename_i hc
      refine ih (c :: cur) ?_ p hp
      intro hm
      rcases List.mem_cons.1 hm with hm | hm
      · exact hc hm.symm
      · exact h hm

theorem splitOn_no_sep (sep : Char) (s : Str) : ∀ p ∈ splitOn sep s, sep ∉ p := splitOnAux_no_sep sep s [] (by simp)

theorem splitOnAux_plain (sep : Char) (a : Str) (h : sep ∉ a) : ∀ cur rest : Str,
    splitOnAux sep cur (a ++ sep :: rest) = (cur.reverse ++ a) :: splitOnAux sep [] rest := by
  induction a with
  | nil => intro cur rest; simp [splitOnAux]
  | cons c cs ih =>
    intro cur rest
    have hc : c ≠ sep := fun e => h (e ▸ List.mem_cons_self)
    rw [List.cons_append, splitOnAux, if_neg hc, ih (fun e => h (List.mem_cons_of_mem _ e))]
    simp

theorem splitOnAux_last (sep : Char) (a : Str) (h : sep ∉ a) : ∀ cur : Str, splitOnAux sep cur a = [cur.reverse ++ a] := by
  induction a with
  | nil => intro cur; simp [splitOnAux]
  | cons c cs ih =>
    intro cur
    have hc : c ≠ sep := fun e => h (e ▸ List.mem_cons_self)
    rw [splitOnAux, if_neg hc, ih (fun e => h (List.mem_cons_of_mem _ e))]
    simp

/-- Splitting what was joined gives the parts. -/
theorem splitOn_joinWith (sep : Char) (parts : List Str) (hne : parts ≠ []) (h : ∀ p ∈ parts, sep ∉ p) :
    splitOn sep (joinWith [sep] parts) = parts := by
  induction parts with
  | nil => exact absurd rfl hne
  | cons p ps ih =>
    cases ps with
    | nil =>
      rw [joinWith, splitOn, splitOnAux_last sep p (h p (by simp))]
      rfl
    | cons q qs =>
      rw [joinWith, splitOn]
      · rw [List.append_assoc, List.singleton_append, splitOnAux_plain sep p (h p (by simp))]
        rw [show splitOnAux sep [] (joinWith [sep] (q :: qs)) = q :: qs from
          ih (by simp) (fun x hx => h x (List.mem_cons_of_mem _ hx))]
        rfl
      · simp

/-- Joining what was split gives the string. -/
theorem joinWith_splitOn (sep : Char) (s : Str) : joinWith [sep] (splitOn sep s) = s := by
  have gen : ∀ (a cur : Str), joinWith [sep] (splitOnAux sep cur a) = cur.reverse ++ a := by
    intro a
    induction a with
    | nil => intro cur; simp [splitOnAux, joinWith]
    | cons c cs ih =>
      intro cur
      simp only [splitOnAux]
      by_cases h : c = sep
      · subst h
        rw [if_pos rfl]
        have := ih []
        cases hs : splitOnAux c [] cs with
        | nil => exact absurd hs (splitOn_ne c cs)
        | cons x xs =>
          rw [hs] at this
          simp only [joinWith, this]
          simp
      · rw [if_neg h, ih]
        simp
  exact gen s []

theorem joinWith_append (sep : Str) (a : List Str) (b : Str) (h : a ≠ []) :
    joinWith sep (a ++ [b]) = joinWith sep a ++ sep ++ b := by
  induction a with
  | nil => exact absurd rfl h
  | cons p ps ih =>
    cases ps with
    | nil => simp [joinWith]
    | cons q qs =>
      have := ih (by simp)
      simp only [List.cons_append, joinWith] at this ⊢
      rw [this]
      simp

end Parser
end Dronecan
