import Verif.Model.Dict

/-! Lemmas about dictionaries. -/

namespace Dronecan.Dict
variable {κ ν : Type} [DecidableEq κ]

theorem get?_set (d : Dict κ ν) (k k' : κ) (v : ν) :
    get? (set d k v) k' = if k = k' then some v else get? d k' := by
  induction d with
  | nil => simp [set, get?]
  | cons p d ih =>
    obtain ⟨a, b⟩ := p
    by_cases h : a = k
    · subst h
      simp only [set, if_true, get?]
      split <;> rfl
    · simp only [set, if_neg h, get?, ih]
      by_cases h' : a = k'
      · subst h'; rw [if_pos rfl, if_pos rfl, if_neg (fun e => h e.symm)]
      · rw [if_neg h', if_neg h']

@[simp] theorem get?_set_self (d : Dict κ ν) (k : κ) (v : ν) : get? (set d k v) k = some v := by
  simp [get?_set]

theorem get?_set_ne (d : Dict κ ν) {k k' : κ} (v : ν) (h : k ≠ k') : get? (set d k v) k' = get? d k' := by
  simp [get?_set, h]

/-- Every key occurs once. -/
def Ok (d : Dict κ ν) : Prop := (keys d).Nodup

theorem ok_nil : Ok ([] : Dict κ ν) := List.nodup_nil

theorem mem_keys_iff (d : Dict κ ν) (k : κ) : k ∈ keys d ↔ (get? d k).isSome := by
  induction d with
  | nil => simp [keys, get?]
  | cons p d ih =>
    obtain ⟨a, b⟩ := p
    simp only [keys, List.map_cons, List.mem_cons, get?]
    by_cases h : a = k
    · simp [h]
    · rw [if_neg h, ← ih]
      simp only [keys]
      constructor
      · rintro (e | e)
        · exact absurd e.symm h
        · exact e
      · exact Or.inr

theorem get?_eq_none_iff (d : Dict κ ν) (k : κ) : get? d k = none ↔ k ∉ keys d := by
  rw [mem_keys_iff]; cases get? d k <;> simp

theorem get?_del_ne (d : Dict κ ν) {k k' : κ} (h : k ≠ k') : get? (del d k) k' = get? d k' := by
  induction d with
  | nil => rfl
  | cons p d ih =>
    obtain ⟨a, b⟩ := p
    simp only [del]
    by_cases ha : a = k
    · subst ha
      rw [if_pos rfl, get?, if_neg h]
    · rw [if_neg ha, get?, get?, ih]

theorem keys_del_sublist (d : Dict κ ν) (k : κ) : (keys (del d k)).Sublist (keys d) := by
  induction d with
  | nil => exact List.Sublist.refl _
  | cons p d ih =>
    obtain ⟨a, b⟩ := p
    simp only [del]
    by_cases ha : a = k
    · rw [if_pos ha]; exact List.sublist_cons_self _ _
    · rw [if_neg ha]; exact ih.cons₂ _

theorem ok_del {d : Dict κ ν} (h : Ok d) (k : κ) : Ok (del d k) := (keys_del_sublist d k).nodup h

theorem get?_del_self {d : Dict κ ν} (h : Ok d) (k : κ) : get? (del d k) k = none := by
  induction d with
  | nil => rfl
  | cons p d ih =>
    obtain ⟨a, b⟩ := p
    have hd : a ∉ keys d ∧ Ok d := by simpa [Ok, keys] using h
    simp only [del]
    by_cases ha : a = k
    · subst ha
      rw [if_pos rfl, get?_eq_none_iff]; exact hd.1
    · rw [if_neg ha, get?, if_neg ha]; exact ih hd.2

theorem get?_del {d : Dict κ ν} (h : Ok d) (k k' : κ) :
    get? (del d k) k' = if k = k' then none else get? d k' := by
  by_cases e : k = k'
  · subst e; rw [if_pos rfl]; exact get?_del_self h k
  · rw [if_neg e]; exact get?_del_ne d e

theorem keys_set (d : Dict κ ν) (k : κ) (v : ν) :
    keys (set d k v) = if k ∈ keys d then keys d else keys d ++ [k] := by
  induction d with
  | nil => simp [set, keys]
  | cons p d ih =>
    obtain ⟨a, b⟩ := p
    simp only [set]
    by_cases ha : a = k
    · subst ha; simp [keys]
    · rw [if_neg ha]
      have : keys ((a, b) :: set d k v) = a :: keys (set d k v) := rfl
      rw [this, ih]
      have hk : keys ((a, b) :: d) = a :: keys d := rfl
      rw [hk]
      by_cases hm : k ∈ keys d
      · rw [if_pos hm, if_pos (List.mem_cons_of_mem _ hm)]
      · rw [if_neg hm, if_neg]
        · rfl
        · intro h
          rcases List.mem_cons.1 h with e | e
          · exact ha e.symm
          · exact hm e

theorem ok_set {d : Dict κ ν} (h : Ok d) (k : κ) (v : ν) : Ok (set d k v) := by
  unfold Ok
  rw [keys_set]
  by_cases hm : k ∈ keys d
  · rw [if_pos hm]; exact h
  · rw [if_neg hm, List.nodup_append]
    refine ⟨h, by simp, ?_⟩
    intro a ha b hb e
    rw [List.mem_singleton] at hb
    subst hb; subst e; exact hm ha

theorem mem_iff_get? {d : Dict κ ν} (h : Ok d) (k : κ) (v : ν) : (k, v) ∈ d ↔ get? d k = some v := by
  induction d with
  | nil => simp [get?]
  | cons p d ih =>
    obtain ⟨a, b⟩ := p
    have hd : a ∉ keys d ∧ Ok d := by simpa [Ok, keys] using h
    rw [List.mem_cons, get?]
    by_cases ha : a = k
    · subst ha
      rw [if_pos rfl]
      constructor
      · rintro (e | e)
        · simpa using (congrArg Prod.snd e).symm
        · exact absurd (List.mem_map_of_mem (f := Prod.fst) e) hd.1
      · intro e; left; simpa using e.symm
    · rw [if_neg ha, ← ih hd.2]
      constructor
      · rintro (e | e)
        · exact absurd (congrArg Prod.fst e).symm ha
        · exact e
      · exact Or.inr

end Dronecan.Dict
