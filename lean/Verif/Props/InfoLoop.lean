import Verif.Model.InfoLoop

/-!
# The example that asks a node for its information (C167)
-/

namespace Dronecan
namespace InfoLoop

/-! ## Specification -/

/-- The times at which requests were sent. -/
def times (t : List Ev) : List Int := t.filterMap fun e => match e with | .asked _ x => some x | _ => none

/-- Each is at least `p` after the one before. -/
def Spaced (p : Int) : List Int → Prop
  | a :: b :: l => a + p ≤ b ∧ Spaced p (b :: l)
  | _ => True

/-- How often something has been printed about a request. -/
def reports (n : Nat) (t : List Ev) : Nat := t.countP fun e => match e with | .printed m _ => m = n | .failed m _ => m = n | _ => false

/-- A request without an answer is reported when the time given in the example is over (`timeout_sec`), if `spin` runs the scheduler then; a second is
`second` ticks. -/
def C167_timeout_statement (second : Int) : Prop := ∀ (c : Config) (now : Int) (steps : List Step) (n : Nat) (a : Int), c.timeout = second →
  .asked n a ∈ (run c now steps).trace → (∀ t, .printed n t ∉ (run c now steps).trace) → a + second / 2 ≤ (run c now steps).now →
  ∃ m, .failed n m ∈ (run c now (steps ++ List.replicate (steps.length + 1) .poll)).trace

/-- A node that does not answer is asked with the rate given: in a run in which nothing is late, there are `k` requests within `k` periods. -/
def C167_rate_statement : Prop := ∀ (c : Config) (rounds k : Nat), 0 < c.period → 0 < c.timeout → c.last < 0 →
  c.period * k ≤ (ideal c rounds (start c 0)).now → k ≤ (times (ideal c rounds (start c 0)).trace).length + 1

/-! ## Invariant -/

theorem times_append (t : List Ev) (e : Ev) : times (t ++ [e]) = times t ++ (match e with | .asked _ x => [x] | _ => []) := by
  cases e <;> simp [times, List.filterMap_append]

theorem reports_append (n : Nat) (t : List Ev) (e : Ev) :
    reports n (t ++ [e]) = reports n t + (match e with | .printed m _ => if m = n then 1 else 0 | .failed m _ => if m = n then 1 else 0 | _ => 0) := by
  cases e <;> simp [reports, List.countP_append, List.countP_cons]

theorem spaced_append {p : Int} {l : List Int} {x : Int} (h : Spaced p l) (hx : ∀ t ∈ l, t + p ≤ x) : Spaced p (l ++ [x]) := by
  induction l with
  | nil => trivial
  | cons a l ih =>
    cases l with
    | nil => exact ⟨hx a (by simp), trivial⟩
    | cons b l => exact ⟨h.1, ih h.2 (fun t ht => hx t (List.mem_cons_of_mem _ ht))⟩

structure Inv (c : Config) (now₀ : Int) (s : State) : Prop where
  begun : now₀ ≤ s.now
  start : now₀ + c.period ≤ s.deadline
  first : ∀ t ∈ times s.trace, now₀ + c.period ≤ t
  after : ∀ t ∈ times s.trace, t + c.period ≤ s.deadline
  past : ∀ t ∈ times s.trace, t ≤ s.now
  spaced : Spaced c.period (times s.trace)
  count : (times s.trace).length = s.asked
  known : ∀ n t, .asked n t ∈ s.trace → n < s.asked
  pending : ∀ n d, (n, d) ∈ s.pending → n < s.asked ∧ .asked n (d - c.timeout) ∈ s.trace ∧ reports n s.trace = 0
  gone : ∀ n, n < s.asked → (∃ d, (n, d) ∈ s.pending) ∨ reports n s.trace = 1
  failed : ∀ n t, .failed n t ∈ s.trace → ∃ a, .asked n a ∈ s.trace ∧ a + c.timeout ≤ t
  never : ∀ n, s.asked ≤ n → reports n s.trace = 0

theorem inv_start (c : Config) (now₀ : Int) (hp : 0 ≤ c.period) : Inv c now₀ (start c now₀) := by
  constructor <;> simp [InfoLoop.start, times, reports, Spaced]

theorem due_spec {s : State} {n : Nat} {d : Int} (h : due s = some (n, d)) : (n, d) ∈ s.pending ∧ d ≤ s.now := by
  have := List.mem_of_mem_head? h
  simpa using this

theorem inv_step (c : Config) (now₀ : Int) (hp : 0 ≤ c.period) (s : State) (st : Step) (h : Inv c now₀ s) : Inv c now₀ (step c s st) := by
  obtain ⟨h1, h2, h3, h4, h4', h5, h6, h6', h7, h8, h9, h10⟩ := h
  cases st with
  | wait d =>
    simp only [step]
    constructor <;> grind
  | poll =>
    simp only [step]
    split
    · constructor <;> assumption
    · rename_i n d hd
      obtain ⟨m1, m2⟩ := due_spec hd
      obtain ⟨p1, p2, p3⟩ := h7 n d m1
      clear hd
      have hg : ∀ m, m < s.asked → (∃ d, (m, d) ∈ s.pending.filter fun x => x.1 ≠ n) ∨ reports m (s.trace ++ [.failed n s.now]) = 1 := by
        intro m hm
        by_cases e : m = n
        · right
          rw [reports_append, e, p3]
          simp
        · refine (h8 m hm).imp (fun ⟨d, hd⟩ => ⟨d, by simp [hd, e]⟩) (fun hr => ?_)
          rw [reports_append, hr]
          simp [Ne.symm e]
      constructor <;> simp only [spin, emit] <;> (try exact hg) <;> grind [times_append, reports_append]
  | answer n =>
    simp only [step]
    split
    · rename_i hd
      obtain ⟨d, m1⟩ : ∃ d, (n, d) ∈ s.pending := by
        simp only [List.any_eq_true, decide_eq_true_eq] at hd
        obtain ⟨⟨n', d⟩, hx, rfl⟩ := hd
        exact ⟨d, hx⟩
      obtain ⟨p1, p2, p3⟩ := h7 n d m1
      clear hd
      have hg : ∀ m, m < s.asked → (∃ d, (m, d) ∈ s.pending.filter fun x => x.1 ≠ n) ∨ reports m (s.trace ++ [.printed n s.now]) = 1 := by
        intro m hm
        by_cases e : m = n
        · right
          rw [reports_append, e, p3]
          simp
        · refine (h8 m hm).imp (fun ⟨d, hd⟩ => ⟨d, by simp [hd, e]⟩) (fun hr => ?_)
          rw [reports_append, hr]
          simp [Ne.symm e]
      constructor <;> simp only [spin, emit] <;> (try exact hg) <;> grind [times_append, reports_append]
    · constructor <;> assumption
  | check wall =>
    simp only [step]
    split
    · constructor <;> assumption
    · rename_i hd
      split
      · have hsp : Spaced c.period (times (s.trace ++ [.asked s.asked s.now])) := by
          rw [times_append]
          exact spaced_append h5 (fun t ht => by have := h4 t ht; omega)
        have hg : ∀ m, m < s.asked + 1 → (∃ d, (m, d) ∈ s.pending ++ [(s.asked, s.now + c.timeout)]) ∨ reports m (s.trace ++ [.asked s.asked s.now]) = 1 := by
          intro m hm
          by_cases e : m = s.asked
          · exact .inl ⟨s.now + c.timeout, by simp [e]⟩
          · refine (h8 m (by omega)).imp (fun ⟨d, hd⟩ => ⟨d, by simp [hd]⟩) (fun hr => ?_)
            simp [reports_append, hr]
        constructor <;> simp only [spin, emit] <;> (try exact hg) <;> (try exact hsp) <;> grind [times_append, reports_append]
      · constructor <;> simp only [spin] <;> grind

theorem inv_run (c : Config) (now₀ : Int) (hp : 0 ≤ c.period) (steps : List Step) : Inv c now₀ (run c now₀ steps) := by
  simp only [run]
  generalize hs : start c now₀ = s
  have h : Inv c now₀ s := hs ▸ inv_start c now₀ hp
  clear hs
  induction steps generalizing s with
  | nil => exact h
  | cons st rest ih => exact ih _ (inv_step c now₀ hp s st h)

/-- **C167** (not too fast): the first request is sent a period after the start or later, and every other one a period after the one before or later. -/
theorem C167_spacing (c : Config) (now : Int) (hp : 0 ≤ c.period) (steps : List Step) :
    Spaced c.period (times (run c now steps).trace) ∧ ∀ t ∈ times (run c now steps).trace, now + c.period ≤ t :=
  ⟨(inv_run c now hp steps).spaced, (inv_run c now hp steps).first⟩

/-- **C167** (outcome): about a request something is printed at most once, about anything else nothing; nothing has been printed just if its timer is still set. -/
theorem C167_outcome (c : Config) (now : Int) (hp : 0 ≤ c.period) (steps : List Step) (n : Nat) :
    reports n (run c now steps).trace ≤ 1 ∧ ((times (run c now steps).trace).length ≤ n → reports n (run c now steps).trace = 0) ∧
    (n < (times (run c now steps).trace).length → (reports n (run c now steps).trace = 0 ↔ ∃ d, (n, d) ∈ (run c now steps).pending)) := by
  have v := inv_run c now hp steps
  have g := v.gone n
  have nv := v.never n
  have p := v.pending n
  rw [v.count]
  refine ⟨?_, nv, ?_⟩
  · by_cases h : n < (run c now steps).asked
    · rcases g h with ⟨d, hd⟩ | h1
      · have := (p d hd).2.2; omega
      · omega
    · have := nv (by omega); omega
  · intro h
    constructor
    · intro h0
      rcases g h with hd | h1
      · exact hd
      · omega
    · rintro ⟨d, hd⟩
      exact (p d hd).2.2

/-- **C167** (not answered): an error is printed only when the timeout of `request` is over, counted from the request. -/
theorem C167_late (c : Config) (now : Int) (hp : 0 ≤ c.period) (steps : List Step) (n : Nat) (t : Int) (h : .failed n t ∈ (run c now steps).trace) :
    ∃ a, .asked n a ∈ (run c now steps).trace ∧ a + c.timeout ≤ t := (inv_run c now hp steps).failed n t h

/-- **C167** (asks): when `spin` returns after its period and the time has come, the node is asked; the next `spin` lasts another period. -/
theorem C167_asks (c : Config) (now : Int) (steps : List Step) (wall : Int) (hd : (run c now steps).deadline ≤ (run c now steps).now)
    (hw : c.last + c.period < wall) : ∃ n, (run c now (steps ++ [.check wall])).trace = (run c now steps).trace ++ [.asked n (run c now steps).now] ∧
      (n, (run c now steps).now + c.timeout) ∈ (run c now (steps ++ [.check wall])).pending ∧
      (run c now (steps ++ [.check wall])).deadline = (run c now steps).now + c.period := by
  refine ⟨(run c now steps).asked, ?_⟩
  rw [show run c now (steps ++ [.check wall]) = step c (run c now steps) (.check wall) by simp [run]]
  simp only [step]
  rw [if_neg (by omega), if_pos (by omega)]
  simp [spin, emit]

/-- **C167** (answered): the response to a request whose timer is set is printed, and its timer is gone. -/
theorem C167_answered (c : Config) (now : Int) (steps : List Step) (n : Nat) (d : Int) (h : (n, d) ∈ (run c now steps).pending) :
    (run c now (steps ++ [.answer n])).trace = (run c now steps).trace ++ [.printed n (run c now steps).now] ∧
    (∀ d', (n, d') ∉ (run c now (steps ++ [.answer n])).pending) ∧ (run c now (steps ++ [.answer n])).deadline = (run c now steps).deadline := by
  rw [show run c now (steps ++ [.answer n]) = step c (run c now steps) (.answer n) by simp [run]]
  simp only [step]
  rw [if_pos (by simp; exact ⟨d, h⟩)]
  simp [emit]

/-- **C167** (timer): when a timer is due and the scheduler is run, an error is printed for a request that is due, and `spin` begins anew: the next request is sent a
period later or later still. -/
theorem C167_restarts (c : Config) (now : Int) (steps : List Step) (n : Nat) (d : Int) (h : (n, d) ∈ (run c now steps).pending) (hd : d ≤ (run c now steps).now) :
    ∃ m, (run c now (steps ++ [.poll])).trace = (run c now steps).trace ++ [.failed m (run c now steps).now] ∧
      (run c now (steps ++ [.poll])).deadline = (run c now steps).now + c.period := by
  rw [show run c now (steps ++ [.poll]) = step c (run c now steps) .poll by simp [run]]
  simp only [step]
  cases hx : due (run c now steps) with
  | none =>
    simp only [due, List.head?_eq_none_iff, List.filter_eq_nil_iff] at hx
    have := hx _ h
    simp at this
    omega
  | some x => exact ⟨x.1, rfl, rfl⟩

/-! ## Counterexamples -/

/-- Half a second after the request nothing is reported, though the scheduler is run: the argument `timeout_sec` has no effect. -/
theorem C167_timeout_counterexample : ¬ C167_timeout_statement 10 := by
  intro h
  obtain ⟨m, hm⟩ := h ⟨10, 10, -1⟩ 0 [.wait 10, .check 10, .wait 5] 0 10 rfl (by decide +kernel) (by intro t; simp [run, step, start, emit, spin]) (by decide +kernel)
  have e : (run ⟨10, 10, -1⟩ 0 ([.wait 10, .check 10, .wait 5] ++ List.replicate ([.wait 10, .check 10, .wait 5] : List Step).length.succ .poll)).trace = [.asked 0 10] := by
    decide +kernel
  rw [show ([.wait 10, .check 10, .wait 5] : List Step).length + 1 = ([.wait 10, .check 10, .wait 5] : List Step).length.succ from rfl, e] at hm
  simp at hm

/-- Every timer that runs begins the period anew: with a period of 0.3 s and no answers, requests are left out. -/
theorem C167_rate_counterexample : ¬ C167_rate_statement := by
  intro h
  exact absurd (h ⟨3, 10, -1⟩ 40 ((ideal ⟨3, 10, -1⟩ 40 (start ⟨3, 10, -1⟩ 0)).now / 3).toNat (by decide) (by decide) (by decide) (by decide +kernel)) (by decide +kernel)

/-- Non-vacuity: two requests, one answered, one not. -/
example : (run ⟨3, 10, -1⟩ 0 [.wait 3, .check 3, .wait 1, .answer 0, .wait 2, .poll, .check 6, .wait 10, .poll]).trace =
    [.asked 0 3, .printed 0 4, .asked 1 6, .failed 1 16] := by decide +kernel

end InfoLoop
end Dronecan
