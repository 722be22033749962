import Verif.Model.Scheduler

/-! Lemmas about the event queue. -/

namespace Dronecan
variable {α : Type}

theorem before_trans {a b c : TEvent α} (h : a.before b = true) (h' : b.before c = true) : a.before c = true := by
  simp only [TEvent.before, Bool.or_eq_true, Bool.and_eq_true, decide_eq_true_eq] at *
  omega

theorem before_irrefl (a : TEvent α) : a.before a = false := by
  simp [TEvent.before]

theorem before_asymm {a b : TEvent α} (h : a.before b = true) : b.before a = false := by
  cases hb : b.before a with
  | false => rfl
  | true => exact absurd (before_trans h hb) (by simp [before_irrefl])

theorem before_total {a b : TEvent α} (h : a.seq ≠ b.seq) (hn : a.before b = false) : b.before a = true := by
  simp only [TEvent.before, Bool.or_eq_false_iff, Bool.and_eq_false_iff, decide_eq_false_iff_not, Bool.or_eq_true,
    Bool.and_eq_true, decide_eq_true_eq] at *
  omega

theorem mem_insertEvent {e x : TEvent α} {q : List (TEvent α)} : x ∈ insertEvent e q ↔ x = e ∨ x ∈ q := by
  induction q with
  | nil => simp [insertEvent]
  | cons y q ih =>
    simp only [insertEvent]
    split
    · simp only [List.mem_cons, ih]
      constructor
      · rintro (h | h | h)
        · exact .inr (.inl h)
        · exact .inl h
        · exact .inr (.inr h)
      · rintro (h | h | h)
        · exact .inr (.inl h)
        · exact .inl h
        · exact .inr (.inr h)
    · simp only [List.mem_cons]

/-- The queue is strictly ascending. -/
def SortedQ (q : List (TEvent α)) : Prop := q.Pairwise fun a b => a.before b = true

theorem sorted_insert {e : TEvent α} {q : List (TEvent α)} (h : SortedQ q) (hs : ∀ x ∈ q, x.seq ≠ e.seq) :
    SortedQ (insertEvent e q) := by
  induction q with
  | nil => simp [insertEvent, SortedQ]
  | cons y q ih =>
    simp only [SortedQ, List.pairwise_cons] at h
    simp only [insertEvent]
    split
    · rename_i hb
      refine List.pairwise_cons.2 ⟨?_, ih h.2 fun x hx => hs x (List.mem_cons_of_mem y hx)⟩
      intro x hx
      rcases mem_insertEvent.1 hx with rfl | hx
      · exact hb
      · exact h.1 x hx
    · rename_i hb
      have hye : e.before y = true := before_total (hs y List.mem_cons_self) (by simpa using hb)
      refine List.pairwise_cons.2 ⟨?_, List.pairwise_cons.2 h⟩
      intro x hx
      rcases List.mem_cons.1 hx with rfl | hx
      · exact hye
      · exact before_trans hye (h.1 x hx)

theorem sorted_eraseP {q : List (TEvent α)} (p : TEvent α → Bool) (h : SortedQ q) : SortedQ (q.eraseP p) :=
  List.Pairwise.sublist List.eraseP_sublist h

/-- State of the queue: ascending, sequence numbers already given out, and distinct. -/
structure Sched.Ok (s : Sched α) : Prop where
  sorted : SortedQ s.queue
  lt : ∀ e ∈ s.queue, e.seq < s.nextSeq
  inj : ∀ e ∈ s.queue, ∀ e' ∈ s.queue, e.seq = e'.seq → e = e'

theorem Sched.Ok.enterabs {s : Sched α} (h : s.Ok) (t : Int) (p : Nat) (a : α) : (s.enterabs t p a).2.Ok := by
  refine ⟨sorted_insert h.sorted ?_, ?_, ?_⟩
  · intro x hx hxs
    exact Nat.lt_irrefl _ (hxs ▸ h.lt x hx)
  · intro e he
    rcases mem_insertEvent.1 he with rfl | he
    · exact Nat.lt_succ_self _
    · exact Nat.lt_succ_of_lt (h.lt e he)
  · intro e he e' he' heq
    rcases mem_insertEvent.1 he with rfl | he
    · rcases mem_insertEvent.1 he' with rfl | he'
      · rfl
      · exact absurd (h.lt e' he') (by simp only at heq; omega)
    · rcases mem_insertEvent.1 he' with rfl | he'
      · exact absurd (h.lt e he) (by simp only at heq; omega)
      · exact h.inj e he e' he' heq

theorem mem_enterabs {s : Sched α} {t : Int} {p : Nat} {a : α} {x : TEvent α} :
    x ∈ (s.enterabs t p a).2.queue ↔ x = { time := t, prio := p, seq := s.nextSeq, action := a } ∨ x ∈ s.queue :=
  mem_insertEvent

theorem Sched.Ok.sub {s : Sched α} (h : s.Ok) {q : List (TEvent α)} (hq : q.Sublist s.queue) :
    ({ s with queue := q } : Sched α).Ok :=
  ⟨List.Pairwise.sublist hq h.sorted, fun e he => h.lt e (hq.subset he),
    fun e he e' he' heq => h.inj e (hq.subset he) e' (hq.subset he') heq⟩

theorem Sched.Ok.mem_erase {s : Sched α} (h : s.Ok) (n : Nat) (x : TEvent α) :
    x ∈ s.queue.eraseP (·.seq == n) ↔ x ∈ s.queue ∧ x.seq ≠ n := by
  have hnd : s.queue.Pairwise fun a b => a.seq ≠ b.seq := by
    have hs := h.sorted
    have hi := h.inj
    clear h
    generalize s.queue = q at hs hi
    induction q with
    | nil => exact .nil
    | cons y q ih =>
      simp only [SortedQ, List.pairwise_cons] at hs
      refine List.pairwise_cons.2 ⟨?_, ih hs.2 fun e he e' he' => hi e (List.mem_cons_of_mem _ he) e' (List.mem_cons_of_mem _ he')⟩
      intro x hx heq
      have := hi y List.mem_cons_self x (List.mem_cons_of_mem _ hx) heq
      subst this
      exact absurd (hs.1 y hx) (by simp [before_irrefl])
  clear h
  generalize s.queue = q at hnd
  induction q with
  | nil => simp
  | cons y q ih =>
    have hnd' := List.pairwise_cons.1 hnd
    rw [List.eraseP_cons]
    cases hy : (y.seq == n) with
    | true =>
      have hy' : y.seq = n := by simpa using hy
      simp only [cond_true, List.mem_cons]
      constructor
      · intro hx
        exact ⟨.inr hx, fun e => hnd'.1 x hx (hy'.trans e.symm)⟩
      · rintro ⟨rfl | hx, hne⟩
        · exact absurd hy' hne
        · exact hx
    | false =>
      have hy' : y.seq ≠ n := by simpa using hy
      simp only [cond_false, List.mem_cons, ih hnd'.2]
      constructor
      · rintro (rfl | ⟨hx, hne⟩)
        · exact ⟨.inl rfl, hy'⟩
        · exact ⟨.inr hx, hne⟩
      · rintro ⟨rfl | hx, hne⟩
        · exact .inl rfl
        · exact .inr ⟨hx, hne⟩

theorem cancel_some {s s' : Sched α} {n : Nat} (h : s.cancel n = some s') :
    (∃ e ∈ s.queue, e.seq = n) ∧ s' = { s with queue := s.queue.eraseP (·.seq == n) } := by
  unfold Sched.cancel at h
  split at h
  · rename_i ha
    obtain ⟨e, he, hn⟩ := List.any_eq_true.1 ha
    injection h with h
    exact ⟨⟨e, he, by simpa using hn⟩, h.symm⟩
  · cases h

theorem cancel_none {s : Sched α} {n : Nat} (h : s.cancel n = none) : ∀ e ∈ s.queue, e.seq ≠ n := by
  unfold Sched.cancel at h
  split at h
  · cases h
  · rename_i ha
    intro e he hn
    exact ha (List.any_eq_true.2 ⟨e, he, by simpa using hn⟩)

theorem Sched.Ok.cancel {s s' : Sched α} (h : s.Ok) {n : Nat} (hc : s.cancel n = some s') : s'.Ok := by
  obtain ⟨-, rfl⟩ := cancel_some hc
  exact h.sub List.eraseP_sublist

end Dronecan
