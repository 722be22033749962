import Verif.Spec.Container

/-! Lemmas about array containers. -/

namespace Dronecan

theorem pyIndex_some_iff (n : Nat) (i : Int) (j : Nat) :
    pyIndex n i = some j ↔ InRange n i ∧ j = posOf n i := by
  unfold pyIndex InRange posOf
  by_cases h : i < 0
  · have h' : ¬ 0 ≤ i := by omega
    simp only [h, if_true, h', if_false]
    split
    · rename_i hc
      simp only [Option.some.injEq]
      constructor
      · rintro rfl; exact ⟨by omega, by congr 1; omega⟩
      · rintro ⟨_, rfl⟩; congr 1; omega
    · rename_i hc
      simp only [reduceCtorEq, false_iff]
      rintro ⟨⟨h2, h3⟩, -⟩; exact hc ⟨by first | trivial | omega, by omega⟩
  · have h' : 0 ≤ i := by omega
    simp only [h, h', if_false, if_true]
    split
    · simp only [Option.some.injEq]
      constructor
      · rintro rfl; exact ⟨by omega, rfl⟩
      · rintro ⟨_, rfl⟩; rfl
    · rename_i hc
      simp only [reduceCtorEq, false_iff]
      rintro ⟨⟨h2, h3⟩, -⟩; exact hc ⟨by first | trivial | omega, by omega⟩

theorem pyIndex_none_iff (n : Nat) (i : Int) : pyIndex n i = none ↔ ¬ InRange n i := by
  constructor
  · intro h hr
    have := (pyIndex_some_iff n i (posOf n i)).2 ⟨hr, rfl⟩
    rw [h] at this; cases this
  · intro h
    cases hc : pyIndex n i with
    | none => rfl
    | some j => exact absurd ((pyIndex_some_iff n i j).1 hc).1 h

theorem posOf_lt {n : Nat} {i : Int} (h : InRange n i) : posOf n i < n := by
  unfold InRange at h; unfold posOf; split <;> omega

theorem pyClamp_eq (n : Nat) (i : Int) : pyClamp n i = gapOf n i := by
  unfold pyClamp gapOf
  by_cases h : i < 0
  · have h' : ¬ 0 ≤ i := by omega
    simp only [h, if_true, h', if_false]
    split
    · omega
    · split
      · omega
      · congr 1; omega
  · have h' : 0 ≤ i := by omega
    simp only [h, h', if_false, if_true]
    split
    · omega
    · omega

theorem gapOf_le (n : Nat) (i : Int) : gapOf n i ≤ n := by
  unfold gapOf; split <;> omega

theorem insertIdx_eq_take_drop {α : Type} (l : List α) (i : Nat) (x : α) (h : i ≤ l.length) :
    l.insertIdx i x = l.take i ++ x :: l.drop i := by
  induction i generalizing l with
  | zero => simp
  | succ i ih =>
    cases l with
    | nil => simp at h
    | cons a l => simp [ih l (by simpa using h)]

theorem map_eraseIdx {α β : Type} (f : α → β) (l : List α) (i : Nat) :
    (l.eraseIdx i).map f = (l.map f).eraseIdx i := by
  induction l generalizing i with
  | nil => rfl
  | cons a l ih => cases i <;> simp [ih]

/-- The longest storable prefix, cut to the room left. -/
theorem takeWhile_take_eq {α : Type} (p : α → Bool) (vs : List α) (room k : Nat) (hk : k ≤ vs.length) (hr : k ≤ room)
    (h1 : ∀ v ∈ vs.take k, p v = true) (h2 : ∀ v, vs[k]? = some v → ¬ (k < room ∧ p v = true)) :
    (vs.takeWhile p).take room = vs.take k := by
  induction vs generalizing room k with
  | nil => simp
  | cons v vs ih =>
    cases k with
    | zero =>
      have := h2 v rfl
      by_cases hp : p v = true
      · have : room = 0 := by
          by_cases h : room = 0
          · exact h
          · exact absurd ⟨by omega, hp⟩ this
        simp [this]
      · simp [hp]
    | succ k =>
      obtain ⟨room, rfl⟩ : ∃ r, room = r + 1 := ⟨room - 1, by omega⟩
      have hp : p v = true := h1 v (by simp)
      simp only [List.takeWhile_cons, hp, if_true, List.take_succ_cons]
      rw [ih room k (by simpa using hk) (by omega)]
      · intro w hw; exact h1 w (by simp [hw])
      · intro w hw hc; exact h2 w (by simpa using hw) ⟨by omega, hc.2⟩

variable {V S : Type} {ops : ElemOps V S} {maxSize : Nat}

/-- What the setter accepts and what is read back. -/
structure Describes (ops : ElemOps V S) (norm : V → V) (acc : V → Bool) : Prop where
  acc_iff : ∀ v, acc v = true ↔ ∃ x, ops.wr v = .ok x
  norm_eq : ∀ v x, ops.wr v = .ok x → ops.rd x = norm v

instance (n : Nat) (i : Int) : Decidable (InRange n i) := inferInstanceAs (Decidable (_ ∧ _))

/-- The stored item was produced by the setter. -/
def Stored (ops : ElemOps V S) (x : S) : Prop := ∃ v, ops.wr v = .ok x

theorem arrGet_run (i : Int) (l : List S) :
    arrGet ops i l = (match (l.map ops.rd)[posOf l.length i]? with
      | some v => if InRange l.length i then .ok v else .error .indexError
      | none => .error .indexError, l) := by
  unfold arrGet
  cases h : pyIndex l.length i with
  | none =>
    have := (pyIndex_none_iff _ _).1 h
    simp only [this, if_false]
    cases (l.map ops.rd)[posOf l.length i]? <;> rfl
  | some j =>
    obtain ⟨hr, rfl⟩ := (pyIndex_some_iff _ _ _).1 h
    simp only [List.getElem?_map]
    cases hx : l[posOf l.length i]? <;> simp [hr]

theorem arrDel_ok {l : List S} {i : Int} (h : InRange l.length i) :
    arrDel i l = (.ok (), l.eraseIdx (posOf l.length i)) := by
  unfold arrDel
  rw [(pyIndex_some_iff _ _ _).2 ⟨h, rfl⟩]
  simp [List.eraseIdx_eq_take_drop_succ]

theorem arrDel_err {l : List S} {i : Int} (h : ¬ InRange l.length i) :
    arrDel i l = (.error .indexError, l) := by
  unfold arrDel
  rw [(pyIndex_none_iff _ _).2 h]

theorem arrGet_ok {l : List S} {i : Int} (h : InRange l.length i) :
    ∃ v, (l.map ops.rd)[posOf l.length i]? = some v ∧ arrGet ops i l = (.ok v, l) := by
  rw [arrGet_run]
  have hl := posOf_lt h
  refine ⟨(l.map ops.rd)[posOf l.length i]'(by simpa using hl), ?_, ?_⟩
  · rw [List.getElem?_eq_getElem]
  · rw [List.getElem?_eq_getElem (by simpa using hl)]
    simp [h]

theorem arrGet_err {l : List S} {i : Int} (h : ¬ InRange l.length i) :
    arrGet ops i l = (.error .indexError, l) := by
  rw [arrGet_run]
  split <;> simp [h]

theorem arrPop_ok {l : List S} {i : Int} (h : InRange l.length i) :
    ∃ v, (l.map ops.rd)[posOf l.length i]? = some v ∧
      arrPop ops i l = (.ok v, l.eraseIdx (posOf l.length i)) := by
  obtain ⟨v, hv, hg⟩ := arrGet_ok (ops := ops) h
  exact ⟨v, hv, by simp [arrPop, hg, arrDel_ok h]⟩

theorem arrPop_err {l : List S} {i : Int} (h : ¬ InRange l.length i) :
    arrPop ops i l = (.error .indexError, l) := by
  simp [arrPop, arrGet_err h]

theorem arrClearLoop_run (fuel : Nat) (l : List S) (h : l.length < fuel) :
    arrClearLoop ops fuel l = (.ok (), []) := by
  induction fuel generalizing l with
  | zero => omega
  | succ fuel ih =>
    simp only [arrClearLoop]
    by_cases hl : l = []
    · subst hl
      rw [arrPop_err (l := []) (i := -1) (by unfold InRange; simp)]
    · have hpos : 0 < l.length := List.length_pos_iff.2 hl
      have hr : InRange l.length (-1) := by unfold InRange; omega
      obtain ⟨v, -, hp⟩ := arrPop_ok (ops := ops) hr
      rw [hp]
      apply ih
      rw [List.length_eraseIdx, if_pos (posOf_lt hr)]
      omega

theorem arrClear_run (l : List S) : arrClear ops l = (.ok (), []) :=
  arrClearLoop_run _ _ (by omega)

theorem arrInsert_ok {norm : V → V} {acc : V → Bool} (hd : Describes ops norm acc) {l : List S} {i : Int} {v : V}
    (hl : l.length ≤ maxSize) :
    (l.length < maxSize ∧ i < maxSize ∧ acc v →
      ∃ l', arrInsert ops maxSize i v l = (.ok (), l') ∧
        l'.map ops.rd = (l.map ops.rd).insertIdx (gapOf l.length i) (norm v) ∧
        ∀ x ∈ l', x ∈ l ∨ Stored ops x) ∧
    (¬ (l.length < maxSize ∧ i < maxSize ∧ acc v) → ∃ e, arrInsert ops maxSize i v l = (.error e, l)) := by
  constructor
  · rintro ⟨h1, h2, h3⟩
    obtain ⟨x, hx⟩ := (hd.acc_iff v).1 h3
    refine ⟨pyListInsert l i x, ?_, ?_, ?_⟩
    · unfold arrInsert
      rw [if_neg (by omega), if_neg (by omega), hx]
    · unfold pyListInsert
      rw [pyClamp_eq, ← hd.norm_eq v x hx]
      have hg := gapOf_le l.length i
      rw [insertIdx_eq_take_drop _ _ _ (by simpa using hg)]
      simp
    · intro y hy
      unfold pyListInsert at hy
      rw [List.mem_append, List.mem_cons] at hy
      rcases hy with hy | rfl | hy
      · exact Or.inl (List.mem_of_mem_take hy)
      · exact Or.inr ⟨v, hx⟩
      · exact Or.inl (List.mem_of_mem_drop hy)
  · intro h
    unfold arrInsert
    by_cases h1 : i ≥ (maxSize : Int)
    · exact ⟨_, if_pos h1⟩
    · rw [if_neg h1]
      by_cases h2 : l.length = maxSize
      · exact ⟨_, if_pos h2⟩
      · rw [if_neg h2]
        cases hw : ops.wr v with
        | error e => exact ⟨e, rfl⟩
        | ok x => exact absurd ⟨by omega, by omega, (hd.acc_iff v).2 ⟨x, hw⟩⟩ h

theorem arrAppend_spec {norm : V → V} {acc : V → Bool} (hd : Describes ops norm acc) {l : List S} {v : V}
    (hl : l.length ≤ maxSize) :
    (l.length < maxSize ∧ acc v → ∃ x, ops.wr v = .ok x ∧ arrAppend ops maxSize v l = (.ok (), l ++ [x])) ∧
    (¬ (l.length < maxSize ∧ acc v) → ∃ e, arrAppend ops maxSize v l = (.error e, l)) := by
  constructor
  · rintro ⟨h1, h3⟩
    obtain ⟨x, hx⟩ := (hd.acc_iff v).1 h3
    refine ⟨x, hx, ?_⟩
    unfold arrAppend arrInsert pyListInsert
    rw [if_neg (by omega), if_neg (by omega), hx, pyClamp_eq]
    have : gapOf l.length (l.length : Int) = l.length := by unfold gapOf; simp
    simp [this]
  · intro h
    have := (arrInsert_ok hd (i := (l.length : Int)) (v := v) hl).2 (fun hc => h ⟨hc.1, hc.2.2⟩)
    exact this

theorem arrSet_spec {norm : V → V} {acc : V → Bool} (hd : Describes ops norm acc) {l : List S} {i : Int} {v : V}
    (hl : l.length ≤ maxSize) :
    (InRange l.length i ∧ acc v →
      ∃ l', arrSet ops maxSize i v l = (.ok (), l') ∧
        l'.map ops.rd = (l.map ops.rd).set (posOf l.length i) (norm v) ∧
        ∀ x ∈ l', x ∈ l ∨ Stored ops x) ∧
    (¬ (InRange l.length i ∧ acc v) → ∃ e, arrSet ops maxSize i v l = (.error e, l)) := by
  constructor
  · rintro ⟨h1, h3⟩
    obtain ⟨x, hx⟩ := (hd.acc_iff v).1 h3
    have hp := posOf_lt h1
    refine ⟨l.set (posOf l.length i) x, ?_, ?_, ?_⟩
    · unfold arrSet
      rw [if_neg (by unfold InRange at h1; omega), (pyIndex_some_iff _ _ _).2 ⟨h1, rfl⟩, hx]
      simp only [List.set_eq_take_append_cons_drop, if_pos hp]
    · rw [← hd.norm_eq v x hx]
      simp [List.map_set]
    · intro y hy
      rcases List.mem_or_eq_of_mem_set hy with h | rfl
      · exact Or.inl h
      · exact Or.inr ⟨v, hx⟩
  · intro h
    unfold arrSet
    by_cases h1 : i ≥ (maxSize : Int)
    · exact ⟨_, if_pos h1⟩
    · rw [if_neg h1]
      by_cases hr : InRange l.length i
      · rw [(pyIndex_some_iff _ _ _).2 ⟨hr, rfl⟩]
        cases hw : ops.wr v with
        | error e => exact ⟨e, rfl⟩
        | ok x => exact absurd ⟨hr, (hd.acc_iff v).2 ⟨x, hw⟩⟩ h
      · rw [(pyIndex_none_iff _ _).2 hr]
        exact ⟨_, rfl⟩

/-- `del a[:]` empties the array. -/
theorem arrDelSlice_all (l : List S) : arrDelSlice none none l = (.ok (), []) := by
  simp [arrDelSlice]

/-- Appending values one by one: the values that fit are kept even when a later one fails. -/
theorem arrExtend_spec {norm : V → V} {acc : V → Bool} (hd : Describes ops norm acc) (vs : List V) (l : List S)
    (hl : l.length ≤ maxSize) :
    ∃ k, k ≤ vs.length ∧ ∃ l' r, arrExtend ops maxSize vs l = (r, l') ∧
      l'.map ops.rd = l.map ops.rd ++ (vs.take k).map norm ∧
      (∀ x ∈ l', x ∈ l ∨ Stored ops x) ∧
      (r = .ok () ↔ k = vs.length) ∧ l'.length ≤ maxSize ∧ (∀ v ∈ vs.take k, acc v) ∧
      (∀ v, vs[k]? = some v → ¬ (l.length + k < maxSize ∧ acc v)) := by
  induction vs generalizing l with
  | nil =>
    refine ⟨0, Nat.le_refl _, l, .ok (), rfl, by simp, fun x hx => Or.inl hx, by simp, hl, by simp, by simp⟩
  | cons v vs ih =>
    unfold arrExtend PyM.forEach PyM.bind
    by_cases h : l.length < maxSize ∧ acc v
    · obtain ⟨x, hx, ha⟩ := (arrAppend_spec hd hl).1 h
      obtain ⟨k, hk, l', r, h1, h2, h3, h4, h5, h6, h7⟩ := ih (l ++ [x]) (by simp; omega)
      refine ⟨k + 1, by simpa using hk, l', r, ?_, ?_, ?_, ?_, h5, ?_, ?_⟩
      · rw [ha]; exact h1
      · rw [h2]; simp [hd.norm_eq v x hx]
      · intro y hy
        rcases h3 y hy with hy | hy
        · rw [List.mem_append, List.mem_singleton] at hy
          rcases hy with hy | rfl
          · exact Or.inl hy
          · exact Or.inr ⟨v, hx⟩
        · exact Or.inr hy
      · rw [h4]; simp
      · intro w hw
        simp only [List.take_succ_cons, List.mem_cons] at hw
        rcases hw with rfl | hw
        · exact h.2
        · exact h6 w hw
      · intro w hw hc
        refine h7 w (by simpa using hw) ⟨?_, hc.2⟩
        simp only [List.length_append, List.length_singleton]; omega
    · obtain ⟨e, ha⟩ := (arrAppend_spec hd hl).2 h
      refine ⟨0, by simp, l, .error e, ?_, by simp, fun x hx => Or.inl hx, by simp, hl, by simp, ?_⟩
      · rw [ha]
      · intro w hw
        simp only [List.getElem?_cons_zero, Option.some.injEq] at hw
        subst hw
        simpa using h

theorem arrExtend_ok_iff {norm : V → V} {acc : V → Bool} (hd : Describes ops norm acc) (vs : List V) (l : List S)
    (hl : l.length ≤ maxSize) :
    (arrExtend ops maxSize vs l).1 = .ok () ↔ l.length + vs.length ≤ maxSize ∧ ∀ v ∈ vs, acc v := by
  obtain ⟨k, hk, l', r, h1, h2, -, h4, h5, h6, h7⟩ := arrExtend_spec hd vs l hl
  rw [h1]
  have hlen := congrArg List.length h2
  simp only [List.length_map, List.length_append, List.length_take] at hlen
  constructor
  · intro hr
    have hk' := h4.1 hr
    subst hk'
    rw [List.take_length] at h6
    exact ⟨by omega, h6⟩
  · rintro ⟨h8, h9⟩
    by_cases hkk : k = vs.length
    · exact h4.2 hkk
    · exfalso
      have hlt : k < vs.length := by omega
      refine h7 vs[k] (List.getElem?_eq_getElem hlt) ⟨by omega, h9 _ (List.getElem_mem hlt)⟩

theorem arrIndexFrom_spec [DecidableEq V] (v : V) (l : List S) (fuel i : Nat) (hf : l.length < fuel + i)
    (hi : i ≤ l.length) :
    arrIndexFrom ops v fuel i l =
      (if v ∈ (l.map ops.rd).drop i then .ok (i + ((l.map ops.rd).drop i).idxOf v) else .error .valueError, l) := by
  induction fuel generalizing i with
  | zero => omega
  | succ fuel ih =>
    simp only [arrIndexFrom]
    by_cases hlt : i < l.length
    · have hr : InRange l.length (i : Int) := by unfold InRange; omega
      obtain ⟨w, hw, hg⟩ := arrGet_ok (ops := ops) hr
      rw [hg]
      have hp : posOf l.length (i : Int) = i := by unfold posOf; simp
      rw [hp] at hw
      have hd : (l.map ops.rd).drop i = w :: (l.map ops.rd).drop (i + 1) := by
        have hlt' : i < (l.map ops.rd).length := by simpa using hlt
        rw [List.drop_eq_getElem_cons hlt']
        rw [List.getElem?_eq_getElem hlt'] at hw
        simp only [Option.some.injEq] at hw
        rw [hw]
      rw [hd]
      by_cases hwv : w = v
      · subst hwv
        simp
      · simp only [hwv, if_false]
        rw [ih (i + 1) (by omega) (by omega)]
        have hne : ¬ v = w := fun e => hwv e.symm
        simp only [List.mem_cons, hne, false_or]
        rw [List.idxOf_cons, beq_false_of_ne hwv]
        simp only [cond_false]
        have : i + 1 + ((l.map ops.rd).drop (i + 1)).idxOf v = i + (((l.map ops.rd).drop (i + 1)).idxOf v + 1) := by omega
        rw [this]
    · have : i = l.length := by omega
      subst this
      rw [arrGet_err (l := l) (i := (l.length : Int)) (by unfold InRange; omega)]
      rw [List.drop_eq_nil_of_le (by simp)]
      simp

theorem arrRemove_spec [DecidableEq V] (v : V) (l : List S) :
    (v ∈ l.map ops.rd → ∃ l', arrRemove ops v l = (.ok (), l') ∧ l'.map ops.rd = (l.map ops.rd).erase v ∧
      ∀ x ∈ l', x ∈ l) ∧
    (v ∉ l.map ops.rd → arrRemove ops v l = (.error .valueError, l)) := by
  have h := arrIndexFrom_spec (ops := ops) v l (l.length + 1) 0 (by omega) (by omega)
  simp only [List.drop_zero, Nat.zero_add] at h
  constructor
  · intro hm
    rw [if_pos hm] at h
    have hlt : (l.map ops.rd).idxOf v < l.length := by
      have := List.idxOf_lt_length_of_mem hm
      simpa using this
    have hr : InRange l.length ((l.map ops.rd).idxOf v : Int) := by unfold InRange; omega
    refine ⟨l.eraseIdx ((l.map ops.rd).idxOf v), ?_, ?_, fun x hx => List.mem_of_mem_eraseIdx hx⟩
    · unfold arrRemove
      rw [h]
      simp only
      rw [arrDel_ok hr]
      have : posOf l.length ((l.map ops.rd).idxOf v : Int) = (l.map ops.rd).idxOf v := by unfold posOf; simp
      rw [this]
    · rw [List.erase_eq_eraseIdx_of_idxOf rfl]
      rw [map_eraseIdx]
  · intro hm
    rw [if_neg hm] at h
    unfold arrRemove
    rw [h]

/-- One swap of `reverse`. -/
theorem arrReverse_swap {norm : V → V} {acc : V → Bool} (hd : Describes ops norm acc)
    (hid : ∀ x, Stored ops x → acc (ops.rd x) ∧ norm (ops.rd x) = ops.rd x)
    (l : List S) (hs : ∀ x ∈ l, Stored ops x) (hl : l.length ≤ maxSize) (i : Nat) (hi : 2 * i + 1 < l.length) (k : Nat) :
    ∃ l', l'.length = l.length ∧ (∀ x ∈ l', Stored ops x) ∧
      arrReverseFrom ops maxSize l.length (k + 1) i l = arrReverseFrom ops maxSize l.length k (i + 1) l' ∧
      ∃ h1 : i < (l.map ops.rd).length, ∃ h2 : l.length - 1 - i < (l.map ops.rd).length,
      l'.map ops.rd = ((l.map ops.rd).set i ((l.map ops.rd)[l.length - 1 - i])).set (l.length - 1 - i)
        ((l.map ops.rd)[i]) := by
  have hlen : (l.map ops.rd).length = l.length := List.length_map ..
  have hr1 : InRange l.length ((l.length : Int) - i - 1) := by unfold InRange; omega
  have hr2 : InRange l.length (i : Int) := by unfold InRange; omega
  have hp1 : posOf l.length ((l.length : Int) - i - 1) = l.length - 1 - i := by
    unfold posOf; rw [if_pos (by omega)]; omega
  have hp2 : posOf l.length (i : Int) = i := by unfold posOf; simp
  obtain ⟨a, ha, hga⟩ := arrGet_ok (ops := ops) hr1
  obtain ⟨b, hb, hgb⟩ := arrGet_ok (ops := ops) hr2
  rw [hp1] at ha
  rw [hp2] at hb
  have hma : ∃ x ∈ l, ops.rd x = a := by
    have := List.mem_of_getElem? ha
    rw [List.mem_map] at this
    obtain ⟨x, hx, e⟩ := this
    exact ⟨x, hx, e⟩
  have hmb : ∃ x ∈ l, ops.rd x = b := by
    have := List.mem_of_getElem? hb
    rw [List.mem_map] at this
    obtain ⟨x, hx, e⟩ := this
    exact ⟨x, hx, e⟩
  obtain ⟨xa, hxa, rfl⟩ := hma
  obtain ⟨xb, hxb, rfl⟩ := hmb
  obtain ⟨aa, na⟩ := hid xa (hs xa hxa)
  obtain ⟨ab, nb⟩ := hid xb (hs xb hxb)
  obtain ⟨l1, hs1, hm1, hst1⟩ := (arrSet_spec hd (i := (i : Int)) (v := ops.rd xa) hl).1 ⟨hr2, aa⟩
  rw [hp2, na] at hm1
  have hl1 : l1.length = l.length := by simpa using congrArg List.length hm1
  obtain ⟨l2, hs2, hm2, hst2⟩ :=
    (arrSet_spec (maxSize := maxSize) hd (l := l1) (i := (l.length : Int) - i - 1) (v := ops.rd xb) (by omega)).1 ⟨by rw [hl1]; exact hr1, ab⟩
  rw [hl1, hp1, nb] at hm2
  have hl2 : l2.length = l.length := by
    have := congrArg List.length hm2
    simp only [List.length_map, List.length_set] at this
    omega
  have hst : ∀ x ∈ l1, Stored ops x := fun x hx => (hst1 x hx).elim (hs x) id
  refine ⟨l2, hl2, fun x hx => (hst2 x hx).elim (hst x) id, ?_, by omega, by omega, ?_⟩
  · rw [arrReverseFrom]
    simp [hga, hgb, hs1, hs2]
  · rw [hm2, hm1]
    have e1 : (l.map ops.rd)[l.length - 1 - i]'(by omega) = ops.rd xa := by
      rw [List.getElem?_eq_getElem (by omega)] at ha
      exact Option.some.inj ha
    have e2 : (l.map ops.rd)[i]'(by omega) = ops.rd xb := by
      rw [List.getElem?_eq_getElem (by omega)] at hb
      exact Option.some.inj hb
    rw [e1, e2]

theorem arrReverseFrom_spec {norm : V → V} {acc : V → Bool} (hd : Describes ops norm acc)
    (hid : ∀ x, Stored ops x → acc (ops.rd x) ∧ norm (ops.rd x) = ops.rd x)
    (k i : Nat) (l : List S) (hs : ∀ x ∈ l, Stored ops x) (hl : l.length ≤ maxSize) (hk : i + k = l.length / 2)
    (orig : List V) (ho : orig.length = l.length)
    (hinv : ∀ j, (l.map ops.rd)[j]? = if j < i ∨ l.length ≤ j + i then orig.reverse[j]? else orig[j]?) :
    ∃ l', arrReverseFrom ops maxSize l.length k i l = (.ok (), l') ∧ l'.map ops.rd = orig.reverse ∧
      (∀ x ∈ l', Stored ops x) ∧ l'.length = l.length := by
  induction k generalizing i l with
  | zero =>
    refine ⟨l, rfl, ?_, hs, rfl⟩
    apply List.ext_getElem?
    intro j
    rw [hinv j]
    split
    · rfl
    · rename_i hc
      have hj : 2 * j + 1 = l.length := by omega
      rw [List.getElem?_reverse (by omega)]
      congr 1; omega
  | succ k ih =>
    obtain ⟨l', hl', hs', he, h1, h2, hm⟩ := arrReverse_swap hd hid l hs hl i (by omega) k
    rw [he]
    have key := ih (i + 1) l' hs' (by omega) (by omega) (by omega) ?_
    · rw [hl'] at key
      exact key
    · intro j
      have hlen : (l.map ops.rd).length = l.length := List.length_map ..
      have hg : ∀ m, (h : m < (l.map ops.rd).length) → i ≤ m → m + i < l.length →
          (l.map ops.rd)[m]'h = orig[m]'(by omega) := by
        intro m h ha hb
        have := hinv m
        rw [List.getElem?_eq_getElem h, if_neg (by omega), List.getElem?_eq_getElem (by omega)] at this
        exact Option.some.inj this
      rw [hm, hl', hg i h1 (by omega) (by omega), hg (l.length - 1 - i) h2 (by omega) (by omega)]
      rw [List.getElem?_set]
      by_cases hj1 : l.length - 1 - i = j
      · subst hj1
        rw [if_pos rfl, if_pos (by simp; omega), if_pos (by omega)]
        rw [List.getElem?_reverse (by omega)]
        have : orig.length - 1 - (l.length - 1 - i) = i := by omega
        rw [this, List.getElem?_eq_getElem]
      · rw [if_neg hj1, List.getElem?_set]
        by_cases hj2 : i = j
        · subst hj2
          rw [if_pos rfl, if_pos (by omega), if_pos (by omega), List.getElem?_reverse (by omega)]
          have : orig.length - 1 - i = l.length - 1 - i := by omega
          rw [this, List.getElem?_eq_getElem]
        · rw [if_neg hj2, hinv j]
          by_cases hc : j < i ∨ l.length ≤ j + i
          · rw [if_pos hc, if_pos (by omega)]
          · by_cases hjl : l.length ≤ j + (i + 1)
            · omega
            · rw [if_neg hc, if_neg (by omega)]

theorem arrReverse_spec {norm : V → V} {acc : V → Bool} (hd : Describes ops norm acc)
    (hid : ∀ x, Stored ops x → acc (ops.rd x) ∧ norm (ops.rd x) = ops.rd x)
    (l : List S) (hs : ∀ x ∈ l, Stored ops x) (hl : l.length ≤ maxSize) :
    ∃ l', arrReverse ops maxSize l = (.ok (), l') ∧ l'.map ops.rd = (l.map ops.rd).reverse ∧
      (∀ x ∈ l', Stored ops x) ∧ l'.length = l.length := by
  refine arrReverseFrom_spec hd hid (l.length / 2) 0 l hs hl (by omega) (l.map ops.rd) (by simp) ?_
  intro j
  split
  · rename_i h
    have : l.length ≤ j := by omega
    rw [List.getElem?_eq_none (by simpa using this), List.getElem?_eq_none (by simpa using this)]
  · rfl

end Dronecan
