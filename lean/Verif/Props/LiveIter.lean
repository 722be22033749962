import Verif.Model.LiveIter

/-!
# C135: going through the nodes while they come and go
-/

namespace Dronecan
namespace LiveIter

variable {κ ν : Type} [DecidableEq κ]

/-! ## Slots and dictionaries -/

/-- No key twice. -/
def Ok (s : Slots κ ν) : Prop := ((live s).map (·.1)).Nodup

theorem live_nil : live ([] : Slots κ ν) = [] := rfl

theorem live_none (s : Slots κ ν) : live (none :: s) = live s := rfl

theorem live_some (x : κ × ν) (s : Slots κ ν) : live (some x :: s) = x :: live s := rfl

theorem live_append (s t : Slots κ ν) : live (s ++ t) = live s ++ live t := List.filterMap_append

theorem live_map_some (d : Dict κ ν) : live (d.map some) = d := by
  induction d with
  | nil => rfl
  | cons x d ih => rw [List.map_cons, live_some, ih]

theorem mem_live {s : Slots κ ν} {x : κ × ν} : x ∈ live s ↔ some x ∈ s := by
  simp [live]

theorem contains_iff {d : Dict κ ν} {k : κ} : d.contains k = true ↔ k ∈ d.map (·.1) := by
  induction d with
  | nil => simp [Dict.contains, Dict.get?]
  | cons x d ih =>
    obtain ⟨k', v⟩ := x
    simp only [Dict.contains, Dict.get?] at ih ⊢
    by_cases h : k' = k
    · subst h; simp
    · rw [if_neg h, ih]
      simp only [List.map_cons, List.mem_cons]
      exact ⟨.inr, fun hh => hh.resolve_left fun e => h e.symm⟩

theorem set_new (d : Dict κ ν) (k : κ) (v : ν) (h : k ∉ d.map (·.1)) : d.set k v = d ++ [(k, v)] := by
  induction d with
  | nil => rfl
  | cons x d ih =>
    obtain ⟨k', v'⟩ := x
    simp only [List.map_cons, List.mem_cons, not_or] at h
    simp only [Dict.set, if_neg (Ne.symm h.1), ih h.2, List.cons_append]

theorem over_absent (s : Slots κ ν) (k : κ) (v : ν) (h : k ∉ (live s).map (·.1)) : s.map (over k v) = s := by
  induction s with
  | nil => rfl
  | cons x s ih =>
    cases x with
    | none => rw [List.map_cons, ih (by rwa [live_none] at h)]; rfl
    | some x =>
      rw [live_some, List.map_cons, List.mem_cons, not_or] at h
      rw [List.map_cons, ih h.2]
      simp only [over, if_neg (Ne.symm h.1)]

theorem cut_absent (s : Slots κ ν) (k : κ) (h : k ∉ (live s).map (·.1)) : s.map (cut k) = s := by
  induction s with
  | nil => rfl
  | cons x s ih =>
    cases x with
    | none => rw [List.map_cons, ih (by rwa [live_none] at h)]; rfl
    | some x =>
      rw [live_some, List.map_cons, List.mem_cons, not_or] at h
      rw [List.map_cons, ih h.2]
      simp only [cut, if_neg (Ne.symm h.1)]

theorem live_over (s : Slots κ ν) (k : κ) (v : ν) (hok : Ok s) (h : k ∈ (live s).map (·.1)) : live (s.map (over k v)) = (live s).set k v := by
  induction s with
  | nil => simp [live] at h
  | cons x s ih =>
    cases x with
    | none => exact ih hok h
    | some x =>
      obtain ⟨k', v'⟩ := x
      simp only [Ok, live_some, List.map_cons, List.nodup_cons] at hok
      rw [List.map_cons, live_some]
      by_cases e : k' = k
      · subst e
        rw [over_absent s k' v hok.1]
        simp only [over, Dict.set, if_true, live_some]
      · rw [live_some, List.map_cons, List.mem_cons] at h
        simp only [over, Dict.set, if_neg e, live_some]
        rw [ih hok.2 (h.resolve_left fun hh => e hh.symm)]

theorem live_cut (s : Slots κ ν) (k : κ) (hok : Ok s) : live (s.map (cut k)) = (live s).del k := by
  induction s with
  | nil => rfl
  | cons x s ih =>
    cases x with
    | none => exact ih hok
    | some x =>
      obtain ⟨k', v'⟩ := x
      simp only [Ok, live_some, List.map_cons, List.nodup_cons] at hok
      rw [List.map_cons, live_some]
      by_cases e : k' = k
      · subst e
        rw [cut_absent s k' hok.1]
        simp only [cut, Dict.del, if_true, live_none]
      · simp only [cut, Dict.del, if_neg e, live_some]
        rw [ih hok.2]

/-- The slots are those of the dictionary of the other models: a change is `d[k] = v` or `del d[k]` there. -/
theorem live_change (s : Slots κ ν) (hok : Ok s) (c : Change κ ν) :
    live (change s c) = match c with
      | .set k v _ => (live s).set k v
      | .del k => (live s).del k := by
  cases c with
  | set k v compact =>
    simp only [change]
    split
    · rename_i h
      exact live_over s k v hok (contains_iff.1 h)
    · rename_i h
      have hn : k ∉ (live s).map (·.1) := fun hh => h (contains_iff.2 hh)
      rw [set_new _ _ _ hn, live_append]
      cases compact
      · rfl
      · simp only [if_true, live_map_some]; rfl
  | del k => exact live_cut s k hok

theorem keys_set (d : Dict κ ν) (k : κ) (v : ν) : (d.set k v).map (·.1) = if k ∈ d.map (·.1) then d.map (·.1) else d.map (·.1) ++ [k] := by
  induction d with
  | nil => rfl
  | cons x d ih =>
    obtain ⟨k', v'⟩ := x
    simp only [Dict.set]
    by_cases e : k' = k
    · subst e; simp
    · rw [if_neg e, List.map_cons, ih]
      have : (k ∈ List.map (·.1) ((k', v') :: d)) ↔ k ∈ d.map (·.1) := by
        rw [List.map_cons, List.mem_cons]; exact ⟨fun h => h.resolve_left fun hh => e hh.symm, .inr⟩
      by_cases hk : k ∈ d.map (·.1)
      · rw [if_pos hk, if_pos (this.2 hk)]; rfl
      · rw [if_neg hk, if_neg fun hh => hk (this.1 hh)]; rfl

theorem keys_del (d : Dict κ ν) (k : κ) : (d.del k).map (·.1) = (d.map (·.1)).erase k := by
  induction d with
  | nil => rfl
  | cons x d ih =>
    obtain ⟨k', v'⟩ := x
    simp only [Dict.del]
    by_cases e : k' = k
    · subst e; simp
    · rw [if_neg e, List.map_cons, ih, List.map_cons, List.erase_cons_tail (by simpa using e)]

theorem ok_change {s : Slots κ ν} (hok : Ok s) (c : Change κ ν) : Ok (change s c) := by
  unfold Ok
  rw [live_change s hok c]
  cases c with
  | set k v compact =>
    simp only []
    rw [keys_set]
    split
    · exact hok
    · rename_i h
      rw [List.nodup_append]
      exact ⟨hok, by simp, fun a ha b hb => by rw [List.mem_singleton.1 hb]; exact fun e => h (e ▸ ha)⟩
  | del k => simp only []; rw [keys_del]; exact hok.erase k

/-! ## The iterator -/

theorem seek_some {s : Slots κ ν} {i j : Nat} {k : κ} {v : ν} (h : seek s i = some (j, k, v)) :
    i ≤ j ∧ s[j - i]? = some (some (k, v)) ∧ live s = (k, v) :: live (s.drop (j - i + 1)) ∧ ∀ m, m < j - i → s[m]? = some none := by
  induction s generalizing i with
  | nil => cases h
  | cons x s ih =>
    cases x with
    | none =>
      obtain ⟨h1, h2, h3, h4⟩ := ih h
      have e : j - i = (j - (i + 1)) + 1 := by omega
      refine ⟨by omega, by rw [e]; exact h2, ?_, ?_⟩
      · rw [live_none, e]; exact h3
      · intro m hm
        cases m with
        | zero => rfl
        | succ m => exact h4 m (by omega)
    | some x =>
      obtain ⟨k', v'⟩ := x
      simp only [seek, Option.some.injEq, Prod.mk.injEq] at h
      obtain ⟨rfl, rfl, rfl⟩ := h
      refine ⟨Nat.le_refl _, ?_, ?_, ?_⟩
      · rw [Nat.sub_self]; rfl
      · rw [Nat.sub_self]; rfl
      · intro m hm; omega

theorem seek_none {s : Slots κ ν} {i : Nat} : seek s i = none ↔ live s = [] := by
  induction s generalizing i with
  | nil => exact ⟨fun _ => rfl, fun _ => rfl⟩
  | cons x s ih =>
    cases x with
    | none => exact ih
    | some x =>
      obtain ⟨k', v'⟩ := x
      exact ⟨(fun h => nomatch h), (fun h => nomatch h)⟩

theorem get?_of_mem {d : Dict κ ν} {k : κ} {v : ν} (hn : (d.map (·.1)).Nodup) (h : (k, v) ∈ d) : d.get? k = some v := by
  induction d with
  | nil => cases h
  | cons x d ih =>
    obtain ⟨k', v'⟩ := x
    rw [List.map_cons, List.nodup_cons] at hn
    rcases List.mem_cons.1 h with h | h
    · cases h; simp [Dict.get?]
    · have : k' ≠ k := fun e => hn.1 (e ▸ List.mem_map.2 ⟨_, h, rfl⟩)
      simp only [Dict.get?, if_neg this]
      exact ih hn.2 h

/-- What the generator looks at, and so what it hands out, is an entry that is in the registry at that moment, one at a time. -/
theorem C135_sound (s : State κ ν) (hok : Ok s.slots) :
    (advance s).slots = s.slots ∧
    ((advance s).visited = s.visited ∨ ∃ k v, (advance s).visited = s.visited ++ [(k, v)] ∧ (live s.slots).get? k = some v) := by
  have key : ∀ it, (next it s).slots = s.slots ∧
      ((next it s).visited = s.visited ∨ ∃ k v, (next it s).visited = s.visited ++ [(k, v)] ∧ (live s.slots).get? k = some v) := by
    intro it
    unfold next
    split
    · exact ⟨rfl, .inl rfl⟩
    · split
      · exact ⟨rfl, .inl rfl⟩
      · rename_i i k v hs
        split
        · exact ⟨rfl, .inl rfl⟩
        · refine ⟨rfl, .inr ⟨k, v, rfl, get?_of_mem hok ?_⟩⟩
          obtain ⟨-, h2, -⟩ := seek_some hs
          exact mem_live.2 (List.mem_of_mem_drop (List.mem_of_getElem? h2))
  unfold advance
  split
  · exact key _
  · exact key _
  · exact ⟨rfl, .inl rfl⟩

/-! ## It ends -/

/-- The number of steps of the generator. -/
def advances : List (Step κ ν) → Nat
  | [] => 0
  | .advance :: l => advances l + 1
  | .change _ :: l => advances l

/-- The generator has ended or raised. -/
def Over (s : State κ ν) : Prop := s.phase = .done ∨ s.phase = .failed

theorem over_step {s : State κ ν} (h : Over s) (x : Step κ ν) : Over (step s x) ∧ (step s x).visited = s.visited := by
  cases x with
  | change c => exact ⟨h, rfl⟩
  | advance =>
    have : step s .advance = s := by
      simp only [step, advance]
      rcases h with h | h <;> rw [h]
    rw [this]; exact ⟨h, rfl⟩

theorem over_run {s : State κ ν} (h : Over s) (steps : List (Step κ ν)) : Over (run steps s) ∧ (run steps s).visited = s.visited := by
  induction steps generalizing s with
  | nil => exact ⟨h, rfl⟩
  | cons x xs ih =>
    obtain ⟨h1, h2⟩ := over_step h x
    obtain ⟨h3, h4⟩ := ih h1
    exact ⟨h3, h4.trans h2⟩

theorem next_cases (it : Iter) (s : State κ ν) :
    (Over (next it s) ∧ (next it s).visited = s.visited) ∨
      ∃ it', (next it s).phase = .running it' ∧ it'.left + 1 = it.left ∧ (next it s).visited.length = s.visited.length + 1 := by
  unfold next
  split
  · exact .inl ⟨.inr rfl, rfl⟩
  · split
    · exact .inl ⟨.inl rfl, rfl⟩
    · split
      · exact .inl ⟨.inr rfl, rfl⟩
      · rename_i hl
        exact .inr ⟨_, rfl, by simp only; omega, by simp⟩

theorem running_run (steps : List (Step κ ν)) (s : State κ ν) (it : Iter) (h : s.phase = .running it) :
    (run steps s).visited.length ≤ s.visited.length + it.left ∧ (it.left < advances steps → Over (run steps s)) := by
  induction steps generalizing s it with
  | nil => exact ⟨Nat.le_add_right _ _, fun hh => absurd hh (Nat.not_lt_zero _)⟩
  | cons x xs ih =>
    cases x with
    | change c => exact ih { s with slots := change s.slots c } it h
    | advance =>
      have e : step s .advance = next it s := by simp only [step, advance, h]
      show (run xs (step s .advance)).visited.length ≤ _ ∧ (_ < advances xs + 1 → Over (run xs (step s .advance)))
      rw [e]
      rcases next_cases it s with ⟨h1, h2⟩ | ⟨it', h1, h2, h3⟩
      · obtain ⟨h3, h4⟩ := over_run h1 xs
        exact ⟨by rw [h4, h2]; omega, fun _ => h3⟩
      · obtain ⟨h4, h5⟩ := ih (next it s) it' h1
        exact ⟨by omega, fun hh => h5 (by omega)⟩

/-- Whatever happens meanwhile, the generator looks at no more entries than there were when it began, and then ends or raises. -/
theorem C135_ends (s : State κ ν) (hf : s.phase = .fresh) (steps : List (Step κ ν)) :
    (run (.advance :: steps) s).visited.length ≤ s.visited.length + (live s.slots).length ∧
      ((live s.slots).length ≤ advances steps → Over (run (.advance :: steps) s)) := by
  have e : step s .advance = next { pos := 0, left := (live s.slots).length, used := (live s.slots).length } s := by
    simp only [step, advance, hf]
  show (run steps (step s .advance)).visited.length ≤ _ ∧ (_ → Over (run steps (step s .advance)))
  rw [e]
  rcases next_cases { pos := 0, left := (live s.slots).length, used := (live s.slots).length } s with ⟨h1, h2⟩ | ⟨it', h1, h2, h3⟩
  · obtain ⟨h3, h4⟩ := over_run h1 steps
    exact ⟨by rw [h4, h2]; omega, fun _ => h3⟩
  · obtain ⟨h4, h5⟩ := running_run steps _ it' h1
    simp only at h2
    exact ⟨by omega, fun hh => h5 (by omega)⟩

/-! ## If no node comes or goes -/

/-- The change concerns an entry that is there. -/
def InPlace (s : Slots κ ν) : Change κ ν → Prop
  | .set k _ _ => k ∈ (live s).map (·.1)
  | .del _ => False

/-- All changes do. -/
def Steady : List (Step κ ν) → State κ ν → Prop
  | [], _ => True
  | .advance :: l, s => Steady l (step s .advance)
  | .change c :: l, s => InPlace s.slots c ∧ Steady l (step s (.change c))

/-- The keys, slot by slot. -/
def pattern (s : Slots κ ν) : List (Option κ) := s.map (Option.map (·.1))

theorem pattern_over (s : Slots κ ν) (k : κ) (v : ν) : pattern (s.map (over k v)) = pattern s := by
  unfold pattern
  rw [List.map_map]
  refine List.map_congr_left fun x _ => ?_
  cases x with
  | none => rfl
  | some x =>
    simp only [Function.comp, over]
    split
    · rename_i e; simp [e]
    · rfl

theorem pattern_keys (s : Slots κ ν) : (live s).map (·.1) = (pattern s).filterMap id := by
  induction s with
  | nil => rfl
  | cons x s ih =>
    cases x with
    | none => exact ih
    | some x => rw [live_some, List.map_cons, ih]; rfl

theorem pattern_drop (s : Slots κ ν) (n : Nat) : pattern (s.drop n) = (pattern s).drop n := by
  unfold pattern; rw [List.map_drop]

/-- The iterator has looked at the first `a` of the keys `ks`. -/
structure At (ks : List κ) (a : Nat) (s : State κ ν) : Prop where
  keys : (live s.slots).map (·.1) = ks
  seen : s.visited.map (·.1) = ks.take a
  phase : (∃ it, s.phase = .running it ∧ it.used = ks.length ∧ it.left + a = ks.length ∧ (live (s.slots.drop it.pos)).map (·.1) = ks.drop a) ∨
    (s.phase = .done ∧ ks.length < a)

theorem at_next {ks : List κ} {a : Nat} {s : State κ ν} (it : Iter) (h1 : (live s.slots).map (·.1) = ks) (h2 : s.visited.map (·.1) = ks.take a)
    (h3 : it.used = ks.length) (h4 : it.left + a = ks.length) (h5 : (live (s.slots.drop it.pos)).map (·.1) = ks.drop a) : At ks (a + 1) (next it s) := by
  have hlen : (live s.slots).length = ks.length := by rw [← h1, List.length_map]
  unfold next
  rw [if_neg (by rw [h3, hlen]; simp)]
  split
  · rename_i hs
    rw [seek_none.1 hs] at h5
    have ha : ks.length ≤ a := List.drop_eq_nil_iff.1 h5.symm
    refine ⟨h1, ?_, .inr ⟨rfl, by omega⟩⟩
    show s.visited.map (·.1) = _
    rw [h2, List.take_of_length_le ha, List.take_of_length_le (by omega)]
  · rename_i i k v hs
    obtain ⟨g1, g2, g3, -⟩ := seek_some hs
    rw [g3, List.map_cons] at h5
    have ha : a < ks.length := by
      refine Nat.lt_of_not_le fun hh => ?_
      rw [List.drop_of_length_le hh] at h5; cases h5
    rw [List.drop_eq_getElem_cons ha] at h5
    simp only [List.cons.injEq] at h5
    rw [if_neg (by omega)]
    refine ⟨h1, ?_, .inl ⟨_, rfl, h3, by simp only; omega, ?_⟩⟩
    · show (s.visited ++ [(k, v)]).map (·.1) = _
      rw [List.map_append, h2, List.take_add_one, List.getElem?_eq_getElem ha, ← h5.1]; rfl
    · show (live (s.slots.drop (i + 1))).map (·.1) = _
      rw [← h5.2, List.drop_drop]
      congr 3
      omega

theorem at_advance {ks : List κ} {a : Nat} {s : State κ ν} (h : At ks a s) : At ks (a + 1) (step s .advance) := by
  simp only [step, advance]
  rcases h.phase with ⟨it, hp, h3, h4, h5⟩ | ⟨hp, h3⟩
  · rw [hp]; exact at_next it h.keys h.seen h3 h4 h5
  · rw [hp]
    refine ⟨h.keys, ?_, .inr ⟨hp, by omega⟩⟩
    rw [h.seen, List.take_of_length_le (by omega), List.take_of_length_le (by omega)]

theorem at_change {ks : List κ} {a : Nat} {s : State κ ν} (h : At ks a s) (c : Change κ ν) (hc : InPlace s.slots c) : At ks a (step s (.change c)) := by
  cases c with
  | del k => exact absurd hc id
  | set k v compact =>
    have e : change s.slots (.set k v compact) = s.slots.map (over k v) := by
      simp only [change]; rw [if_pos (contains_iff.2 hc)]
    have hk : ∀ n, (live ((change s.slots (.set k v compact)).drop n)).map (·.1) = (live (s.slots.drop n)).map (·.1) := by
      intro n; rw [pattern_keys, pattern_keys, pattern_drop, pattern_drop, e, pattern_over]
    refine ⟨?_, h.seen, ?_⟩
    · have := hk 0; simp only [List.drop_zero] at this; exact this.trans h.keys
    · rcases h.phase with ⟨it, hp, h3, h4, h5⟩ | hp
      · exact .inl ⟨it, hp, h3, h4, (hk it.pos).trans h5⟩
      · exact .inr hp

theorem at_run {ks : List κ} (steps : List (Step κ ν)) {a : Nat} {s : State κ ν} (h : At ks a s) (hq : Steady steps s) :
    At ks (a + advances steps) (run steps s) := by
  induction steps generalizing a s with
  | nil => exact h
  | cons x xs ih =>
    cases x with
    | advance =>
      have := ih (at_advance h) hq
      rwa [show a + 1 + advances xs = a + advances (.advance :: xs) by simp only [advances]; omega] at this
    | change c => exact ih (at_change h c hq.1) hq.2

/-- If no node comes or goes meanwhile, the generator goes through all entries, in order, and ends; entries may be updated meanwhile. -/
theorem C135_partial (s : State κ ν) (hf : s.phase = .fresh) (hv : s.visited = []) (steps : List (Step κ ν)) (hq : Steady (.advance :: steps) s) :
    (run (.advance :: steps) s).visited.map (·.1) = ((live s.slots).map (·.1)).take (advances steps + 1) ∧
      ((live s.slots).length ≤ advances steps → (run (.advance :: steps) s).phase = .done) := by
  have h0 : At ((live s.slots).map (·.1)) 1 (step s .advance) := by
    simp only [step, advance, hf]
    exact at_next (a := 0) _ rfl (by simp [hv]) (by simp) (by simp) (by simp)
  have h := at_run steps h0 hq
  refine ⟨by rw [Nat.add_comm]; exact h.seen, fun hl => ?_⟩
  rcases h.phase with ⟨it, -, -, h4, -⟩ | ⟨hp, -⟩
  · rw [List.length_map] at h4; omega
  · exact hp

/-! ## If nothing is moved -/

/-- No holes are closed. -/
def Unmoved : List (Step κ ν) → Prop
  | [] => True
  | .change (.set _ _ true) :: _ => False
  | _ :: l => Unmoved l

/-- The key is not removed. -/
def Kept (k : κ) : List (Step κ ν) → Prop
  | [] => True
  | .change (.del k') :: l => k' ≠ k ∧ Kept k l
  | _ :: l => Kept k l

theorem same_slot {s : Slots κ ν} (hok : Ok s) {i j : Nat} {k : κ} {v w : ν} (hi : s[i]? = some (some (k, v))) (hj : s[j]? = some (some (k, w))) : i = j := by
  induction s generalizing i j with
  | nil => cases hi
  | cons x s ih =>
    have hmem : ∀ {n : Nat} {u : ν}, s[n]? = some (some (k, u)) → k ∈ (live s).map (·.1) := fun h =>
      List.mem_map.2 ⟨_, mem_live.2 (List.mem_of_getElem? h), rfl⟩
    have hok' : Ok s := by
      cases x with
      | none => exact hok
      | some x => rw [Ok, live_some, List.map_cons, List.nodup_cons] at hok; exact hok.2
    cases i with
    | zero =>
      cases j with
      | zero => rfl
      | succ j =>
        simp only [List.getElem?_cons_zero, Option.some.injEq] at hi
        subst hi
        rw [Ok, live_some, List.map_cons, List.nodup_cons] at hok
        exact absurd (hmem hj) hok.1
    | succ i =>
      cases j with
      | zero =>
        simp only [List.getElem?_cons_zero, Option.some.injEq] at hj
        subst hj
        rw [Ok, live_some, List.map_cons, List.nodup_cons] at hok
        exact absurd (hmem hi) hok.1
      | succ j => rw [ih hok' hi hj]

/-- The key is in slot `i`, and the iterator has looked at it once if it has passed it. -/
structure Seen (k : κ) (i : Nat) (s : State κ ν) : Prop where
  ok : Ok s.slots
  here : ∃ v, s.slots[i]? = some (some (k, v))
  running : ∀ it, s.phase = .running it → (s.visited.map (·.1)).count k = if i < it.pos then 1 else 0
  done : s.phase = .done → (s.visited.map (·.1)).count k = 1
  begun : s.phase ≠ .fresh

theorem seen_next {k : κ} {i : Nat} {s : State κ ν} (it : Iter) (hok : Ok s.slots) (h : ∃ v, s.slots[i]? = some (some (k, v)))
    (hc : (s.visited.map (·.1)).count k = if i < it.pos then 1 else 0) : Seen k i (next it s) := by
  obtain ⟨w, hw⟩ := h
  unfold next
  split
  · exact ⟨hok, ⟨w, hw⟩, (fun _ hh => nomatch hh), (fun hh => nomatch hh), (fun hh => nomatch hh)⟩
  · split
    · rename_i hs
      refine ⟨hok, ⟨w, hw⟩, (fun _ hh => nomatch hh), fun _ => ?_, (fun hh => nomatch hh)⟩
      show (s.visited.map (·.1)).count k = 1
      rw [hc, if_pos]
      refine Nat.lt_of_not_le fun hle => ?_
      have hm : (k, w) ∈ live (s.slots.drop it.pos) := by
        refine mem_live.2 (List.mem_of_getElem? (i := i - it.pos) ?_)
        rw [List.getElem?_drop, show it.pos + (i - it.pos) = i by omega]; exact hw
      rw [seek_none.1 hs] at hm; cases hm
    · rename_i j k' v' hs
      obtain ⟨g1, g2, -, g4⟩ := seek_some hs
      rw [List.getElem?_drop, show it.pos + (j - it.pos) = j by omega] at g2
      split
      · exact ⟨hok, ⟨w, hw⟩, (fun _ hh => nomatch hh), (fun hh => nomatch hh), (fun hh => nomatch hh)⟩
      · refine ⟨hok, ⟨w, hw⟩, ?_, (fun hh => nomatch hh), (fun hh => nomatch hh)⟩
        intro it' hit
        cases hit
        show ((s.visited ++ [(k', v')]).map (·.1)).count k = if i < j + 1 then 1 else 0
        rw [List.map_append, List.count_append, hc]
        by_cases e : k' = k
        · subst e
          have : i = j := same_slot hok hw g2
          subst this
          rw [if_neg (by omega), if_pos (by omega)]
          simp
        · have hne : i ≠ j := fun hh => by subst hh; rw [hw] at g2; simp only [Option.some.injEq, Prod.mk.injEq] at g2; exact e g2.1.symm
          have hz : ([(k', v')].map (·.1)).count k = 0 := by simp [e]
          rw [hz]
          by_cases hlt : i < it.pos
          · rw [if_pos hlt, if_pos (by omega)]
          · have hji : j < i := by
              refine Nat.lt_of_not_le fun hle => ?_
              have := g4 (i - it.pos) (by omega)
              rw [List.getElem?_drop, show it.pos + (i - it.pos) = i by omega, hw] at this
              cases this
            rw [if_neg hlt, if_neg (by omega)]

theorem seen_change {k : κ} {i : Nat} {s : State κ ν} (h : Seen k i s) (c : Change κ ν) (hm : ∀ a b, c ≠ .set a b true) (hk : c ≠ .del k) :
    Seen k i (step s (.change c)) := by
  obtain ⟨v, hv⟩ := h.here
  refine ⟨ok_change h.ok c, ?_, h.running, h.done, h.begun⟩
  cases c with
  | set a b compact =>
    cases compact with
    | true => exact absurd rfl (hm a b)
    | false =>
      show ∃ v, (change s.slots (.set a b false))[i]? = some (some (k, v))
      simp only [change]
      split
      · rw [List.getElem?_map, hv]
        simp only [Option.map_some, over]
        split
        · rename_i e; exact ⟨b, by rw [e]⟩
        · exact ⟨v, rfl⟩
      · refine ⟨v, ?_⟩
        rw [if_neg (by simp), List.getElem?_append_left]
        · exact hv
        · exact (List.getElem?_eq_some_iff.1 hv).1
  | del a =>
    refine ⟨v, ?_⟩
    show (change s.slots (.del a))[i]? = _
    simp only [change]
    rw [List.getElem?_map, hv]
    simp only [Option.map_some, cut]
    rw [if_neg fun e => hk (by rw [e])]

theorem seen_run {k : κ} {i : Nat} (steps : List (Step κ ν)) {s : State κ ν} (h : Seen k i s) (hm : Unmoved steps) (hk : Kept k steps) :
    Seen k i (run steps s) := by
  induction steps generalizing s with
  | nil => exact h
  | cons x xs ih =>
    cases x with
    | advance =>
      refine ih ?_ hm hk
      simp only [step, advance]
      cases hp : s.phase with
      | fresh => exact absurd hp h.begun
      | running it => exact seen_next it h.ok h.here (h.running it hp)
      | done => exact h
      | failed => exact h
    | change c =>
      cases c with
      | set a b compact =>
        cases compact with
        | true => exact absurd hm id
        | false => exact ih (seen_change h _ (fun _ _ => by simp) (by simp)) hm hk
      | del a =>
        have hk' : a ≠ k ∧ Kept k xs := hk
        exact ih (seen_change h _ (fun _ _ => by simp) (by simpa using hk'.1)) hm hk'.2

/-- Nodes may come and go: as long as the array of the dictionary is not rebuilt, a generator that ends without raising has looked exactly once at every entry
that was there all the time. -/
theorem C135_complete_partial (s : State κ ν) (hok : Ok s.slots) (hf : s.phase = .fresh) (hv : s.visited = []) (steps : List (Step κ ν)) (hm : Unmoved steps)
    (k : κ) (hk : k ∈ (live s.slots).map (·.1)) (hkept : Kept k steps) (hd : (run (.advance :: steps) s).phase = .done) :
    ((run (.advance :: steps) s).visited.map (·.1)).count k = 1 := by
  obtain ⟨⟨k', v⟩, hx, rfl⟩ := List.mem_map.1 hk
  obtain ⟨i, hi⟩ := List.getElem?_of_mem (mem_live.1 hx)
  have h0 : Seen k' i (step s .advance) := by
    simp only [step, advance, hf]
    exact seen_next _ hok ⟨v, hi⟩ (by simp [hv])
  exact (seen_run steps h0 hm hkept).done hd

/-! ## If something is -/

/-- The full claim: going through the entries does not raise, and finds each entry that is there all the time exactly once, whatever nodes come and go. -/
def C135_statement : Prop :=
  ∀ (s : State Nat Nat) (steps : List (Step Nat Nat)), Ok s.slots → s.phase = .fresh → s.visited = [] →
    (run (.advance :: steps) s).phase ≠ .failed ∧
    ∀ k ∈ (live s.slots).map (·.1), Kept k steps → (run (.advance :: steps) s).phase = .done → ((run (.advance :: steps) s).visited.map (·.1)).count k = 1

/-- A node that comes or goes without another doing the opposite makes the generator raise RuntimeError. -/
theorem C135_raises (s : State κ ν) (it : Iter) (hp : s.phase = .running it) (h : (live s.slots).length ≠ it.used) : (advance s).phase = .failed := by
  simp only [advance, hp, next]
  rw [if_pos fun e => h e.symm]

/-- As when a node appears while the application goes through the others. -/
theorem C135_counterexample : ¬ C135_statement := by
  intro h
  have := (h { slots := [some (1, 10)] } [.change (.set 2 20 false), .advance] (by unfold Ok; decide +kernel) rfl rfl).1
  exact this (by decide +kernel)

/-- Worse, if a node that has been silent for too long is heard from again between two sweeps (it is deleted and inserted, node_monitor.py:165-171), the generator may end without
raising, having handed out that node twice, and the other, which was there all the time, not at all. -/
theorem C135_skips_counterexample :
    ∃ (s : State Nat Nat) (steps : List (Step Nat Nat)), Ok s.slots ∧ (live s.slots).map (·.1) = [1, 2] ∧ Kept 2 steps ∧
      (run (.advance :: steps) s).phase = .done ∧ (run (.advance :: steps) s).visited = [(1, 10), (1, 11)] ∧
      (live (run (.advance :: steps) s).slots).map (·.1) = [2, 1] :=
  ⟨{ slots := [some (1, 10), some (2, 20)] }, [.change (.del 1), .change (.set 1 11 true), .advance, .advance], by unfold Ok; decide +kernel, by decide +kernel,
    ⟨by decide, trivial⟩, by decide +kernel, by decide +kernel, by decide +kernel⟩

/-! ## Going through all at once -/

theorem pure_run (rest : Dict κ ν) (s : State κ ν) (it : Iter) (hp : s.phase = .running it) (hu : it.used = (live s.slots).length)
    (hl : it.left = rest.length) (hr : live (s.slots.drop it.pos) = rest) :
    (run (List.replicate (rest.length + 1) .advance) s).visited = s.visited ++ rest ∧ (run (List.replicate (rest.length + 1) .advance) s).phase = .done := by
  induction rest generalizing s it with
  | nil =>
    have e : step s .advance = { s with phase := .done } := by
      simp only [step, advance, hp, next]
      rw [if_neg (by simp [hu]), seek_none.2 hr]
    show (step s .advance).visited = _ ∧ (step s .advance).phase = .done
    rw [e]; simp
  | cons x rest ih =>
    obtain ⟨k, v⟩ := x
    have hs : ∃ j, seek (s.slots.drop it.pos) it.pos = some (j, k, v) ∧ live (s.slots.drop (j + 1)) = rest := by
      cases hs : seek (s.slots.drop it.pos) it.pos with
      | none => rw [seek_none.1 hs] at hr; cases hr
      | some x =>
        obtain ⟨j, k', v'⟩ := x
        obtain ⟨g1, -, g3, -⟩ := seek_some hs
        rw [hr] at g3
        simp only [List.cons.injEq, Prod.mk.injEq] at g3
        obtain ⟨⟨rfl, rfl⟩, g3⟩ := g3
        refine ⟨j, rfl, ?_⟩
        rw [g3, List.drop_drop]
        congr 2
        omega
    obtain ⟨j, hs, hd⟩ := hs
    have e : step s .advance = { s with phase := .running { it with pos := j + 1, left := it.left - 1 }, visited := s.visited ++ [(k, v)] } := by
      simp only [step, advance, hp, next]
      rw [if_neg (by simp [hu]), hs]
      simp only []
      rw [if_neg (by rw [hl]; simp)]
    obtain ⟨h1, h2⟩ := ih (step s .advance) { it with pos := j + 1, left := it.left - 1 } (by rw [e]) (by rw [e]; exact hu) (by simp [hl]) (by rw [e]; exact hd)
    show (run (List.replicate (rest.length + 1) .advance) (step s .advance)).visited = _ ∧ (run (List.replicate (rest.length + 1) .advance) (step s .advance)).phase = .done
    refine ⟨?_, h2⟩
    rw [h1, e]
    simp

/-- `list(monitor.find_all(predicate))` is the list of the entries that satisfy the predicate, in the order in which the nodes appeared. -/
theorem C135_list (slots : Slots κ ν) (pred : ν → Bool) :
    yielded pred (run (List.replicate ((live slots).length + 1) .advance) { slots }) = ((live slots).map (·.2)).filter pred ∧
      (run (List.replicate ((live slots).length + 1) .advance) { slots }).phase = .done := by
  have key : (run (List.replicate ((live slots).length + 1) .advance) { slots }).visited = live slots ∧
      (run (List.replicate ((live slots).length + 1) .advance) { slots }).phase = .done := by
    cases hl : live slots with
    | nil =>
      have e : step { slots } (.advance : Step κ ν) = { slots, phase := .done } := by
        simp only [step, advance, next]
        rw [if_neg (by simp), List.drop_zero, seek_none.2 hl]
      show (step { slots } .advance).visited = _ ∧ (step { slots } .advance).phase = .done
      rw [e]; simp
    | cons x rest =>
      have h := pure_run (live slots) { slots, phase := .running { pos := 0, left := (live slots).length, used := (live slots).length } } _ rfl rfl rfl rfl
      have e : step { slots, phase := .running { pos := 0, left := (live slots).length, used := (live slots).length } } (.advance : Step κ ν) =
          step { slots } .advance := by
        simp only [step, advance, next]
      rw [hl] at h e
      rw [List.replicate_succ] at h ⊢
      have h' : (run (List.replicate (x :: rest).length .advance) (step { slots } .advance)).visited = x :: rest ∧
          (run (List.replicate (x :: rest).length .advance) (step { slots } .advance)).phase = .done := by
        rw [← e]; exact h
      exact h'
  exact ⟨by unfold yielded; rw [key.1], key.2⟩

/-- `are_all_nodes_discovered` tells whether all entries are; it agrees with the model of the monitor (C68). -/
theorem C135_discovered (s : Monitor.Mon) (slots : Slots Nat Monitor.Entry) (h : live slots = s.registry) :
    allDiscovered slots = Monitor.allDiscovered s ∧ (allDiscovered slots = true ↔ ∀ x ∈ s.registry, x.2.discovered = true) := by
  have e : allDiscovered slots = ((s.registry.filter fun x => !x.2.discovered).length == 0) := by
    unfold allDiscovered
    rw [(C135_list slots _).1, h, List.filter_map, List.length_map]
    rfl
  refine ⟨e, ?_⟩
  rw [e]
  simp

/-! ## The monitor -/

/-- The dictionary develops by assignments and deletions; if `b` is set, by assignments to keys that are there. -/
inductive Evolves {κ ν : Type} [DecidableEq κ] (b : Bool) (d : Dict κ ν) : Dict κ ν → Prop where
  | refl : Evolves b d d
  | set (d' : Dict κ ν) (k : κ) (v : ν) : Evolves b d d' → (b = true → k ∈ d'.map (·.1)) → Evolves b d (d'.set k v)
  | del (d' : Dict κ ν) (k : κ) : Evolves b d d' → b = false → Evolves b d (d'.del k)

theorem Evolves.trans {b : Bool} {d e f : Dict κ ν} (h : Evolves b d e) (g : Evolves b e f) : Evolves b d f := by
  induction g with
  | refl => exact h
  | set d' k v _ hk ih => exact ih.set d' k v hk
  | del d' k _ hb ih => exact ih.del d' k hb

/-- Such a development is one of the slots, whenever holes are closed. -/
theorem evolves_changes {b : Bool} {s : Slots κ ν} {d : Dict κ ν} (hok : Ok s) (h : Evolves b (live s) d) (compact : Nat → Bool) :
    ∃ cs : List (Change κ ν), live (cs.foldl change s) = d ∧ Ok (cs.foldl change s) ∧ (b = true → ∀ st : State κ ν, st.slots = s → Steady (cs.map .change) st) := by
  have steady_append : ∀ (cs : List (Change κ ν)) (c : Change κ ν) (st : State κ ν), Steady (cs.map .change) st → InPlace (cs.foldl change st.slots) c →
      Steady ((cs ++ [c]).map .change) st := by
    intro cs
    induction cs with
    | nil => intro c st _ h; exact ⟨h, trivial⟩
    | cons x xs ih => intro c st h1 h2; exact ⟨h1.1, ih c _ h1.2 h2⟩
  induction h with
  | refl => exact ⟨[], rfl, hok, fun _ _ _ => trivial⟩
  | set d' k v _ hk ih =>
    obtain ⟨cs, h1, h2, h3⟩ := ih
    refine ⟨cs ++ [.set k v (compact cs.length)], ?_, ?_, ?_⟩
    · simp only [List.foldl_append, List.foldl_cons, List.foldl_nil]
      rw [live_change _ h2, h1]
    · simp only [List.foldl_append, List.foldl_cons, List.foldl_nil]
      exact ok_change h2 _
    · rintro hb st rfl
      refine steady_append _ _ _ (h3 hb st rfl) ?_
      show k ∈ (live (cs.foldl change st.slots)).map (·.1)
      rw [h1]; exact hk hb
  | del d' k _ hb ih =>
    obtain ⟨cs, h1, h2, h3⟩ := ih
    refine ⟨cs ++ [.del k], ?_, ?_, ?_⟩
    · simp only [List.foldl_append, List.foldl_cons, List.foldl_nil]
      rw [live_change _ h2, h1]
    · simp only [List.foldl_append, List.foldl_cons, List.foldl_nil]
      exact ok_change h2 _
    · intro hb'; rw [hb] at hb'; cases hb'

open PyM Monitor

/-- The registry develops so. -/
def Chg {α : Type} (m : PyM Mon α) : Prop := ∀ s, Evolves false s.registry (m s).2.registry

theorem chg_bind {α β : Type} {m : PyM Mon α} {f : α → PyM Mon β} (hm : Chg m) (hf : ∀ a, Chg (f a)) : Chg (PyM.bind m f) := by
  intro s
  have h1 := hm s
  simp only [PyM.bind]
  cases hr : m s with
  | mk r s' =>
    rw [hr] at h1
    cases r with
    | ok a => exact h1.trans (hf a s')
    | error e => exact h1

theorem chg_same {α : Type} {m : PyM Mon α} (h : ∀ s, (m s).2.registry = s.registry) : Chg m := fun s => by rw [h]; exact .refl

theorem chg_forEach {β : Type} {f : β → PyM Mon Unit} (hf : ∀ x, Chg (f x)) (l : List β) : Chg (forEach l f) := by
  induction l with
  | nil => exact chg_same fun _ => rfl
  | cons x l ih => exact chg_bind (hf x) fun _ => ih

theorem chg_try {α : Type} {m : PyM Mon α} {h : Err → PyM Mon α} (hm : Chg m) (hh : ∀ e, Chg (h e)) : Chg (PyM.tryCatch m h) := by
  intro s
  have h1 := hm s
  simp only [PyM.tryCatch]
  cases hr : m s with
  | mk r s' =>
    rw [hr] at h1
    cases r with
    | ok a => exact h1
    | error e => exact h1.trans (hh e s')

theorem callHandlers_registry (env : MEnv) (kind : Kind) (e : Entry) (s : Mon) : (callHandlers env kind e s).2.registry = s.registry := by
  have hone : ∀ cb (s : Mon), (callOne env kind e cb s).2.registry = s.registry := by
    intro cb s
    simp only [callOne, Monitor.log, PyM.bind, PyM.modify, PyM.get]
    cases env.raises cb (s.trace ++ [MEv.called cb kind e]) <;> rfl
  have hall : ∀ (l : List Nat) (s : Mon), (forEach l (callOne env kind e) s).2.registry = s.registry := by
    intro l
    induction l with
    | nil => intro s; rfl
    | cons x l ih =>
      intro s
      have := hone x s
      simp only [forEach, PyM.bind]
      cases hr : callOne env kind e x s with
      | mk r s' =>
        rw [hr] at this
        cases r with
        | ok a => exact (ih s').trans this
        | error e => exact this
  exact hall s.callbacks s

theorem chg_call (env : MEnv) (kind : Kind) (e : Entry) : Chg (callHandlers env kind e) := chg_same (callHandlers_registry env kind e)

theorem chg_lookup (nid : Nat) : Chg (Monitor.lookup nid) := chg_same fun s => by unfold Monitor.lookup; split <;> rfl

theorem chg_monotonic (env : MEnv) : Chg (monotonic env) := chg_same fun _ => rfl

theorem chg_store (nid : Nat) (e : Entry) : Chg (store nid e) := fun s => Evolves.set s.registry nid e .refl (fun h => nomatch h)

theorem chg_remove (nid : Nat) : Chg (remove nid) := by
  intro s
  unfold remove
  split
  · exact Evolves.del s.registry nid .refl rfl
  · exact .refl

theorem chg_pure {α : Type} (a : α) : Chg (PyM.pure a) := chg_same fun _ => rfl

theorem chg_raise {α : Type} (e : Err) : Chg (raise e : PyM Mon α) := chg_same fun _ => rfl

theorem chg_get (env : MEnv) (nid : Nat) : Chg (getEntry env nid) := by
  unfold getEntry
  refine chg_bind (chg_lookup _) fun e => chg_bind (chg_monotonic env) fun now => chg_bind ?_ fun _ => chg_lookup _
  split
  · exact chg_bind (chg_call env _ _) fun _ => chg_remove _
  · exact chg_pure _

theorem chg_entryFor (env : MEnv) (nid : Nat) : Chg (entryFor env nid) := by
  unfold entryFor
  refine chg_try (chg_bind (chg_get env nid) fun _ => chg_pure _) fun err => ?_
  split
  · refine chg_bind ?_ fun _ => chg_pure _
    intro s
    exact Evolves.set s.registry nid _ .refl (fun h => nomatch h)
  · exact chg_raise _

theorem chg_ask (env : MEnv) (anonymous : Bool) (nid : Nat) (e : Entry) : Chg (askInfo env anonymous nid e) := by
  unfold askInfo
  split
  · split
    · simp only []
      refine chg_bind (chg_store _ _) fun _ => ?_
      split
      · exact chg_raise _
      · refine chg_bind (chg_store _ _) fun _ => chg_bind (chg_same fun _ => rfl) fun _ => chg_bind (chg_same fun _ => rfl) fun s => ?_
        split
        · exact chg_raise _
        · exact chg_pure _
    · exact chg_pure _
  · exact chg_pure _

/-- All that happens to the registry, by status messages, node info, sweeps and look-ups, is a sequence of such changes, whenever the dictionary closes its holes: what is said above
about changes applies to a node that spins while the application goes through the entries. -/
theorem C135_monitor (env : MEnv) (s : Mon) (slots : Slots Nat Entry) (hok : Ok slots) (h : live slots = s.registry) (op : Op) (compact : Nat → Bool) :
    ∃ cs : List (Change Nat Entry), live (cs.foldl change slots) = (Monitor.step env s op).registry ∧ Ok (cs.foldl change slots) := by
  have key : Evolves false s.registry (Monitor.step env s op).registry := by
    cases op with
    | status m a =>
      refine (?_ : Chg (onNodeStatus env m a)) s
      unfold onNodeStatus
      refine chg_bind (chg_entryFor env _) fun r => chg_bind (chg_store _ _) fun _ => chg_bind ?_ fun _ => chg_ask env _ _ _
      split
      · exact chg_call env _ _
      · exact chg_pure _
    | info m =>
      refine (?_ : Chg (onInfoResponse env m)) s
      unfold onInfoResponse
      refine chg_bind (chg_entryFor env _) fun r => chg_bind (chg_store _ _) fun _ => ?_
      split
      · exact chg_raise _
      · refine chg_bind (chg_store _ _) fun _ => ?_
        split
        · exact chg_call env _ _
        · exact chg_raise _
    | infoTimeout => exact .refl
    | sweep =>
      refine (?_ : Chg (removeStale env)) s
      unfold removeStale
      refine chg_bind (chg_same fun _ => rfl) fun s => chg_forEach (fun x => ?_) _
      unfold sweepOne
      refine chg_bind (chg_monotonic env) fun now => ?_
      split
      · exact chg_bind (chg_remove _) fun _ => chg_call env _ _
      · exact chg_pure _
    | get nid => exact chg_get env nid s
    | addHandler cb => exact .refl
    | removeHandler cb => exact .refl
  obtain ⟨cs, h1, h2, -⟩ := evolves_changes hok (by rw [h]; exact key) compact
  exact ⟨cs, h1, h2⟩

theorem reg_keys {d : Dict Nat Entry} {k : Nat} {v : Entry} (h : k ∈ d.map (·.1)) : (d.set k v).map (·.1) = d.map (·.1) := by
  induction d with
  | nil => cases h
  | cons x d ih =>
    obtain ⟨a, w⟩ := x
    simp only [Dict.set]
    split
    · next he => subst he; rfl
    · next he =>
      rw [List.map_cons, List.mem_cons] at h
      rw [List.map_cons, List.map_cons, ih (h.resolve_left fun e => he e.symm)]

theorem evolves_keys {d d' : Dict Nat Entry} (h : Evolves true d d') : d'.map (·.1) = d.map (·.1) := by
  induction h with
  | refl => rfl
  | set d' k v _ hk ih => rw [reg_keys (hk rfl), ih]
  | del _ _ _ hb => cases hb

/-- The registry develops in place, if the node is listed. -/
def Upd {α : Type} (nid : Nat) (m : PyM Mon α) : Prop := ∀ s, nid ∈ s.registry.map (·.1) → Evolves true s.registry (m s).2.registry

theorem upd_bind {α β : Type} {nid : Nat} {m : PyM Mon α} {f : α → PyM Mon β} (hm : Upd nid m) (hf : ∀ a, Upd nid (f a)) : Upd nid (PyM.bind m f) := by
  intro s hs
  have h1 := hm s hs
  simp only [PyM.bind]
  cases hr : m s with
  | mk r s' =>
    rw [hr] at h1
    cases r with
    | ok a => exact h1.trans (hf a s' (by rw [evolves_keys h1]; exact hs))
    | error e => exact h1

theorem upd_same {α : Type} {nid : Nat} {m : PyM Mon α} (h : ∀ s, (m s).2.registry = s.registry) : Upd nid m := fun s _ => by rw [h]; exact .refl

theorem upd_store (nid : Nat) (e : Entry) : Upd nid (store nid e) := fun s hs => Evolves.set s.registry nid e .refl (fun _ => hs)

theorem upd_ask (env : MEnv) (anonymous : Bool) (nid : Nat) (e : Entry) : Upd nid (askInfo env anonymous nid e) := by
  unfold askInfo
  split
  · split
    · simp only []
      refine upd_bind (upd_store _ _) fun _ => ?_
      split
      · exact upd_same fun _ => rfl
      · refine upd_bind (upd_store _ _) fun _ => upd_bind (upd_same fun _ => rfl) fun _ => upd_bind (upd_same fun _ => rfl) fun s => ?_
        split
        · exact upd_same fun _ => rfl
        · exact upd_same fun _ => rfl
    · exact upd_same fun _ => rfl
  · exact upd_same fun _ => rfl

/-- The time of the next reading of the clock. -/
def soon (env : MEnv) (s : Mon) : Int := (s.clock.tick env.adv).now

theorem entryFor_listed (env : MEnv) (s : Mon) (nid : Nat) (e : Entry) (h : s.registry.get? nid = some e) (hfresh : soon env s ≤ e.ts + env.offline) :
    entryFor env nid s = (.ok (e, false), { s with clock := s.clock.tick env.adv }) := by
  have hn : ¬ e.ts + env.offline < (s.clock.tick env.adv).now := Int.not_lt.2 hfresh
  simp only [entryFor, PyM.tryCatch, getEntry, PyM.bind, Monitor.lookup, h, monotonic, if_neg hn, PyM.pure]

theorem mem_of_get {d : Dict Nat Entry} {k : Nat} {v : Entry} (h : d.get? k = some v) : k ∈ d.map (·.1) := by
  induction d with
  | nil => cases h
  | cons x d ih =>
    obtain ⟨a, w⟩ := x
    simp only [Dict.get?] at h
    split at h
    · next he => rw [he]; exact List.mem_cons_self
    · exact List.mem_cons_of_mem _ (ih h)

/-- Status messages and node info of a node that is listed and not stale only replace its entry: going through the entries meanwhile is as C135_partial says. -/
theorem C135_heard (env : MEnv) (s : Mon) (slots : Slots Nat Entry) (hok : Ok slots) (h : live slots = s.registry) (nid : Nat) (e : Entry)
    (hl : s.registry.get? nid = some e) (hfresh : soon env s ≤ e.ts + env.offline) (op : Op)
    (hop : (∃ m a, op = .status m a ∧ m.src = nid) ∨ ∃ m, op = .info m ∧ m.src = nid) (compact : Nat → Bool) :
    ∃ cs : List (Change Nat Entry), live (cs.foldl change slots) = (Monitor.step env s op).registry ∧
      ∀ st : State Nat Entry, st.slots = slots → Steady (cs.map .change) st := by
  have hmem := mem_of_get hl
  have key : Evolves true s.registry (Monitor.step env s op).registry := by
    have he := entryFor_listed env s nid e hl hfresh
    rcases hop with ⟨m, a, rfl, rfl⟩ | ⟨m, rfl, rfl⟩
    · have : Upd m.src (fun st => (store m.src (e.updateFromStatus m) >>- fun _ => PyM.pure () >>- fun _ => askInfo env a m.src (e.updateFromStatus m)) st) :=
        upd_bind (upd_store _ _) fun _ => upd_bind (upd_same fun _ => rfl) fun _ => upd_ask env _ _ _
      have := this { s with clock := s.clock.tick env.adv } hmem
      simp only [Monitor.step, onNodeStatus, PyM.bind, he, Bool.false_eq_true, if_false]
      exact this
    · have : Upd m.src (fun st => (store m.src (e.updateFromInfo1 m) >>- fun _ => match m.body with
          | none => raise .attributeError
          | some (uptime, uid) =>
            store m.src { e.updateFromInfo1 m with uptime := some uptime, info := some uid } >>- fun _ =>
            if m.nameOk then callHandlers env .infoUpdate { e.updateFromInfo1 m with uptime := some uptime, info := some uid } else raise .valueError) st) := by
        refine upd_bind (upd_store _ _) fun _ => ?_
        split
        · exact upd_same fun _ => rfl
        · refine upd_bind (upd_store _ _) fun _ => ?_
          split
          · exact upd_same fun s => callHandlers_registry env _ _ s
          · exact upd_same fun _ => rfl
      have := this { s with clock := s.clock.tick env.adv } hmem
      simp only [Monitor.step, onInfoResponse, PyM.bind, he]
      exact this
  obtain ⟨cs, h1, -, h3⟩ := evolves_changes hok (by rw [h]; exact key) compact
  exact ⟨cs, h1, h3 rfl⟩

/-! ## Concrete cases -/

/-- Three entries, of which the second has been deleted. -/
def some3 : Slots Nat Nat := [some (1, 10), none, some (3, 30), some (4, 40)]

example : Ok some3 := by unfold Ok; decide +kernel

/-- An entry is replaced between two steps: the new one is seen. -/
example : Steady [.advance, .change (.set 3 31 false), .advance, .advance, .advance] ({ slots := some3 } : State Nat Nat) := by
  simp only [Steady, InPlace, step, and_true, true_and]; decide +kernel

example : (run [.advance, .change (.set 3 31 false), .advance, .advance, .advance] ({ slots := some3 } : State Nat Nat)).visited = [(1, 10), (3, 31), (4, 40)] := by
  decide +kernel

/-- One node goes and another comes, in the same array: the generator ends, and nodes 1 and 4 have been seen once. -/
example : (run [.advance, .change (.del 3), .change (.set 5 50 false), .advance, .advance, .advance] ({ slots := some3 } : State Nat Nat)).phase = .done ∧
    (run [.advance, .change (.del 3), .change (.set 5 50 false), .advance, .advance, .advance] ({ slots := some3 } : State Nat Nat)).visited =
      [(1, 10), (4, 40), (5, 50)] := by decide +kernel

/-- A monitor with two nodes, the first of which has been silent for too long. -/
def two : Mon := { registry := [(1, { serial := 0, ts := 0, nodeId := 1 }), (2, { serial := 1, ts := 95, nodeId := 2 })], clock := { now := 100 }, nextSerial := 2 }

def calm : MEnv := { adv := fun _ => 1, offline := 50 }

/-- It is heard of again: it is deleted and inserted, and so comes after the other. -/
example : (Monitor.step calm two (.status { src := 1, ts := 101, uptime := 7 } true)).registry.map (·.1) = [2, 1] := by decide +kernel

/-- The other is heard of: in place. -/
example : soon calm two ≤ 95 + calm.offline ∧ (Monitor.step calm two (.status { src := 2, ts := 101, uptime := 7 } true)).registry.map (·.1) = [1, 2] := by decide +kernel

end LiveIter
end Dronecan
