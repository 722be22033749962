import Verif.Model.DriverClose

/-!
# Closing the drivers that have an I/O process (C129)

The theorems are about every interleaving of the application, the I/O process, the logging thread and the passing of time.
-/

namespace Dronecan
namespace DriverClose

/-! ## Specification -/

/-- C129 for MAVLink: `close` does not raise; it can return without the application doing anything else; when it has returned, the process is dead. -/
def MavGood (cap : Nat) (h : List Mav.Step) : Prop :=
  .full ∉ (Mav.run cap {} h).trace ∧
  ((Mav.run cap {} h).joining = true → ∃ h', (Mav.run cap {} (h ++ h')).joining = false) ∧
  (.returned ∈ (Mav.run cap {} h).trace → (Mav.run cap {} h).phase = .dead)

/-- The process is dead or `close` has tried to kill it. -/
def Dealt (s : Sl.State) : Prop := s.alive = false ∨ ∃ t r, .kill t r ∈ s.trace

/-- C129 for SLCAN: `close` can return without the application doing anything else; when it has returned, the process is dead or has been killed. -/
def SlGood (h : List Sl.Step) : Prop :=
  ((Sl.run {} h).phase ≠ .idle → ∃ h', (Sl.run {} (h ++ h')).phase = .idle) ∧
  (.returned ∈ (Sl.run {} h).trace → Dealt (Sl.run {} h))

/-- C129 for multicast. -/
def McGood (h : List Mc.Step) : Prop := .returned ∈ (Mc.run {} h).trace → (Mc.run {} h).alive = false

/-- C129 in full. -/
def C129_statement : Prop := (∀ cap h, MavGood cap h) ∧ (∀ h, SlGood h) ∧ (∀ h, McGood h)

/-! ## MAVLink -/

namespace Mav

theorem run_append (cap : Nat) (s : State) (h h' : List Step) : run cap s (h ++ h') = run cap (run cap s h) h' := List.foldl_append ..

/-- What each step keeps is kept by a history. -/
theorem run_keeps {cap : Nat} {P : State → Prop} (hP : ∀ s x, P s → P (step cap s x)) {s : State} (h : P s) (l : List Step) : P (run cap s l) := by
  induction l generalizing s with
  | nil => exact h
  | cons x l ih => exact ih (hP s x h)

/-- A history with a step that leads from `P` to `Q`. -/
theorem run_leads {cap : Nat} {P Q : State → Prop} {x : Step} (hP : ∀ s x, P s → P (step cap s x)) (hQ : ∀ s x, Q s → Q (step cap s x))
    (hx : ∀ s, P s → Q (step cap s x)) {s : State} (h : P s) {l : List Step} (hl : x ∈ l) : Q (run cap s l) := by
  obtain ⟨a, b, rfl⟩ := List.append_of_mem hl
  rw [run_append]
  exact run_keeps hQ (hx _ (run_keeps hP h a)) b

/-- What holds in every state. -/
structure Inv (cap : Nat) (s : State) : Prop where
  pipe : s.pipe ≤ cap
  dead : s.phase = .dead → s.buffer = 0
  returned : .returned ∈ s.trace → s.phase = .dead
  took : s.trace.count .took ≤ 1
  running : s.phase = .running → s.trace.count .took = 0
  quit : s.trace.count .closing = s.trace.count .full + s.trace.count .took + if s.quit then 1 else 0

theorem inv_step (cap : Nat) (s : State) (x : Step) (i : Inv cap s) : Inv cap (step cap s x) := by
  obtain ⟨h₁, h₂, h₃, h₄, h₅, h₆⟩ := i
  cases x with
  | close =>
    simp only [step, close]
    split
    · exact ⟨h₁, h₂, h₃, h₄, h₅, h₆⟩
    · split
      · rename_i hq
        refine ⟨h₁, h₂, ?_, ?_, ?_, ?_⟩ <;> simp [emit, hq] at * <;> first | assumption | omega
      · rename_i hq
        refine ⟨h₁, h₂, ?_, ?_, ?_, ?_⟩ <;> simp [emit, hq] at * <;> first | assumption | omega
  | ret =>
    simp only [step, ret]
    split
    · rename_i hq
      refine ⟨h₁, h₂, ?_, ?_, ?_, ?_⟩ <;> simp [emit, hq] at * <;> first | assumption | omega
    · exact ⟨h₁, h₂, h₃, h₄, h₅, h₆⟩
  | receive =>
    simp only [step, receive]
    split
    · exact ⟨h₁, h₂, h₃, h₄, h₅, h₆⟩
    · exact ⟨Nat.le_trans (Nat.sub_le ..) h₁, h₂, h₃, h₄, h₅, h₆⟩
  | frame =>
    simp only [step, frame]
    split
    · rename_i hr
      exact ⟨h₁, fun hd => (by rw [hr] at hd; exact nomatch hd), h₃, h₄, h₅, h₆⟩
    · exact ⟨h₁, h₂, h₃, h₄, h₅, h₆⟩
  | check b =>
    simp only [step, check]
    split
    · rename_i hr
      have h0 := h₅ hr.1
      refine ⟨h₁, (fun hd => nomatch hd), ?_, ?_, (fun hd => nomatch hd), ?_⟩
      · intro hm
        have := h₃ (by simpa [emit] using hm)
        rw [hr.1] at this
        exact nomatch this
      · simp [emit, h0]
      · simp only [hr.2.1] at h₆
        simp [emit, h0] at *
        omega
    · exact ⟨h₁, h₂, h₃, h₄, h₅, h₆⟩
  | fail =>
    simp only [step, fail]
    split
    · rename_i hr
      refine ⟨h₁, (fun hd => nomatch hd), ?_, h₄, (fun hd => nomatch hd), h₆⟩
      intro hm
      have := h₃ hm
      rw [hr] at this
      exact nomatch this
    · exact ⟨h₁, h₂, h₃, h₄, h₅, h₆⟩
  | flush =>
    simp only [step, flush]
    split
    · rename_i hr
      exact ⟨hr.2.2, fun hd => absurd hd hr.1, h₃, h₄, h₅, h₆⟩
    · exact ⟨h₁, h₂, h₃, h₄, h₅, h₆⟩
  | exit =>
    simp only [step, exit]
    split
    · rename_i hr
      exact ⟨h₁, fun _ => hr.2, fun _ => rfl, h₄, (fun hd => nomatch hd), h₆⟩
    · exact ⟨h₁, h₂, h₃, h₄, h₅, h₆⟩

theorem inv (cap : Nat) (h : List Step) : Inv cap (run cap {} h) :=
  run_keeps (inv_step cap) ⟨Nat.zero_le _, by simp, by simp, by simp, by simp, by simp⟩ h

end Mav

/-- When `MAVCAN.close` has returned, the process is dead. -/
theorem C129_mav_dead (cap : Nat) (h : List Mav.Step) (hr : .returned ∈ (Mav.run cap {} h).trace) : (Mav.run cap {} h).phase = .dead :=
  (Mav.inv cap h).returned hr

/-- Every call of `MAVCAN.close` has raised `queue.Full`, or has returned, or is the one waiting for the process, which is the last one. -/
theorem C129_mav_calls (cap : Nat) (h : List Mav.Step) :
    let s := Mav.run cap {} h
    s.trace.count .closing = s.trace.count .full + s.trace.count .returned + (if s.joining then 1 else 0) := by
  refine Mav.run_keeps (P := fun s => s.trace.count .closing = s.trace.count .full + s.trace.count .returned + (if s.joining then 1 else 0))
    (fun s x hs => ?_) (by simp) h
  cases x <;> simp only [Mav.step, Mav.close, Mav.ret, Mav.receive, Mav.frame, Mav.check, Mav.fail, Mav.flush, Mav.exit] <;> (repeat' split) <;>
    simp_all [Mav.emit]
  all_goals omega

/-- `MAVCAN.close` raises `queue.Full` just if there is a "QUIT" that the process has not taken: the first call does not raise, the second does if
the process ended otherwise, and of any number of calls at most two do not. -/
theorem C129_mav_full (cap : Nat) (h : List Mav.Step) (hj : (Mav.run cap {} h).joining = false) :
    let s := Mav.run cap {} h
    let s' := Mav.run cap {} (h ++ [.close])
    (s'.trace = s.trace ++ [.closing, .full] ↔ s.trace.count .took < s.trace.count .closing - s.trace.count .full) ∧
    (s'.trace = s.trace ++ [.closing] ↔ s.trace.count .took = s.trace.count .closing - s.trace.count .full) ∧
    s.trace.count .closing ≤ s.trace.count .full + 2 := by
  simp only [Mav.run_append]
  have i := Mav.inv cap h
  generalize Mav.run cap {} h = s at *
  obtain ⟨_, _, _, h₄, _, h₆⟩ := i
  have hs : Mav.run cap s [.close] = if s.quit then Mav.emit .full (Mav.emit .closing s)
      else Mav.emit .closing { s with quit := true, joining := true } := by
    simp [Mav.run, Mav.step, Mav.close, hj]
  rw [hs]
  cases hq : s.quit with
  | true =>
    rw [hq] at h₆
    simp only [if_true] at h₆ ⊢
    refine ⟨?_, ?_, by omega⟩
    · simp only [Mav.emit, List.append_assoc, List.singleton_append, true_iff]; omega
    · simp only [Mav.emit, List.append_assoc, List.singleton_append, List.append_cancel_left_eq]
      constructor
      · intro hh; exact nomatch hh
      · intro hh; omega
  | false =>
    rw [hq] at h₆
    simp only [Bool.false_eq_true, if_false] at h₆ ⊢
    refine ⟨?_, ?_, by omega⟩
    · simp only [Mav.emit, List.append_cancel_left_eq]
      constructor
      · intro hh; exact nomatch hh
      · intro hh; omega
    · simp only [Mav.emit, true_iff]; omega

namespace Mav

/-- `n` times returned, or more. -/
def Back (n : Nat) (s : State) : Prop := n < s.trace.count .returned

theorem back_step {cap n : Nat} (s : State) (x : Step) (h : Back n s) : Back n (step cap s x) := by
  unfold Back at *
  cases x <;> simp only [step, close, ret, receive, frame, check, fail, flush, exit] <;> repeat' split
  all_goals first | exact h | (simp only [emit, List.count_append]; omega)

/-- In `join`, the process on its way to the end with at most `e` frames to be written, for which there is room. -/
def Way (cap e n : Nat) (s : State) : Prop :=
  Back n s ∨ (s.joining = true ∧ n = s.trace.count .returned ∧ s.phase ≠ .running ∧ s.buffer + s.pipe ≤ cap ∧ s.buffer ≤ e ∧
    (s.phase = .dead → s.buffer = 0))

/-- The process is dead. -/
def Over (n : Nat) (s : State) : Prop := Back n s ∨ (s.joining = true ∧ n = s.trace.count .returned ∧ s.phase = .dead)

theorem over_step {cap n : Nat} (s : State) (x : Step) (h : Over n s) : Over n (step cap s x) := by
  rcases h with h | ⟨h₁, h₂, h₃⟩
  · exact .inl (back_step s x h)
  · cases x with
    | ret =>
      left
      simp [Back, step, ret, h₁, h₃, emit, h₂]
    | _ => right; simp [step, close, receive, frame, check, fail, flush, exit, h₁, h₂, h₃]

theorem way_step {cap e n : Nat} (s : State) (x : Step) (h : Way cap e n s) : Way cap e n (step cap s x) := by
  rcases h with h | ⟨h₁, h₂, h₃, h₄, h₅, h₆⟩
  · exact .inl (back_step s x h)
  · cases x with
    | ret =>
      simp only [step, ret]
      split
      · left; simp [Back, emit, h₂]
      · exact .inr ⟨h₁, h₂, h₃, h₄, h₅, h₆⟩
    | flush =>
      right
      simp only [step, flush]
      split
      · rename_i hr
        exact ⟨h₁, h₂, h₃, by simp only; omega, by simp only; omega, fun hd => absurd hd hr.1⟩
      · exact ⟨h₁, h₂, h₃, h₄, h₅, h₆⟩
    | exit =>
      right
      simp only [step, exit]
      split
      · rename_i hr
        exact ⟨h₁, h₂, by simp, h₄, h₅, fun _ => hr.2⟩
      · exact ⟨h₁, h₂, h₃, h₄, h₅, h₆⟩
    | _ =>
      right
      simpa only [step, close, receive, frame, check, fail, h₁, h₃, if_true, if_false, false_and, true_and, ne_eq, not_false_eq_true]
        using ⟨h₂, h₄, h₅, h₆⟩

theorem way_flush {cap e n : Nat} {s : State} (h : Way cap (e + 1) n s) : Way cap e n (step cap s .flush) := by
  rcases h with h | ⟨h₁, h₂, h₃, h₄, h₅, h₆⟩
  · exact .inl (back_step s _ h)
  · right
    simp only [step, flush]
    split
    · rename_i hr
      exact ⟨h₁, h₂, h₃, by simp only; omega, by simp only; omega, fun hd => absurd hd hr.1⟩
    · rename_i hr
      refine ⟨h₁, h₂, h₃, h₄, ?_, h₆⟩
      by_cases hd : s.phase = .dead
      · have := h₆ hd; omega
      · by_cases hb : 0 < s.buffer
        · exact absurd ⟨hd, hb, by omega⟩ hr
        · omega

theorem way_flushes {cap e n : Nat} {s : State} (h : Way cap e n s) (l : List Step) (hl : e ≤ l.count .flush) : Way cap 0 n (run cap s l) := by
  induction l generalizing s e with
  | nil =>
    simp only [List.count_nil, Nat.le_zero] at hl
    exact hl ▸ h
  | cons x l ih =>
    by_cases hx : x = .flush
    · subst hx
      rw [List.count_cons_self] at hl
      cases e with
      | zero => exact ih (way_step s _ h) (Nat.zero_le _)
      | succ e => exact ih (way_flush h) (by omega)
    · rw [List.count_cons_of_ne hx] at hl
      exact ih (way_step s x h) hl

end Mav

/-- In `close`, when the process is ending and what it still has to write has room in the pipe: when it has written it and ended, `close`
returns. -/
theorem C129_mav_returns (cap : Nat) (s : Mav.State) (hj : s.joining = true) (hp : s.phase = .ending) (hroom : s.buffer + s.pipe ≤ cap)
    (h₁ h₂ h₃ : List Mav.Step) (hf : s.buffer ≤ h₁.count .flush) (he : .exit ∈ h₂) (hr : .ret ∈ h₃) :
    s.trace.count .returned < (Mav.run cap s (h₁ ++ h₂ ++ h₃)).trace.count .returned := by
  rw [Mav.run_append, Mav.run_append]
  have w : Mav.Way cap s.buffer (s.trace.count .returned) s :=
    .inr ⟨hj, rfl, by rw [hp]; exact (fun h => nomatch h), hroom, Nat.le_refl _, fun hd => by rw [hp] at hd; exact nomatch hd⟩
  have w := Mav.way_flushes w h₁ hf
  have w := Mav.run_leads (Q := Mav.Over (s.trace.count .returned)) Mav.way_step Mav.over_step (x := .exit) (fun t ht => by
    rcases ht with ht | ⟨a₁, a₂, a₃, _, a₅, _⟩
    · exact .inl (Mav.back_step t _ ht)
    · right
      have hb : t.buffer = 0 := by omega
      simp only [Mav.step, Mav.exit, hb]
      cases hph : t.phase with
      | running => exact absurd hph a₃
      | ending => exact ⟨a₁, a₂, rfl⟩
      | dead => exact ⟨a₁, a₂, hph⟩) w he
  exact Mav.run_leads (Q := Mav.Back (s.trace.count .returned)) Mav.over_step Mav.back_step (x := .ret) (cap := cap) (fun t ht => by
    rcases ht with ht | ⟨a₁, a₂, a₃⟩
    · exact Mav.back_step t _ ht
    · simp [Mav.Back, Mav.step, Mav.ret, a₁, a₃, Mav.emit, a₂]) w hr

/-- The frames that wait in the buffer or in the pipe: one more for each that the running process gets, one less for each that the application takes, which it can
only do outside of `close`. -/
theorem C129_mav_waiting (cap : Nat) (s : Mav.State) (x : Mav.Step) : (Mav.step cap s x).buffer + (Mav.step cap s x).pipe =
    s.buffer + s.pipe + (if x = .frame ∧ s.phase = .running then 1 else 0) - (if x = .receive ∧ s.joining = false ∧ 0 < s.pipe then 1 else 0) := by
  cases x <;> simp only [Mav.step, Mav.close, Mav.ret, Mav.receive, Mav.frame, Mav.check, Mav.fail, Mav.flush, Mav.exit] <;> grind [Mav.emit]

/-- In `close`, a running process begins to end when it sees the request. -/
theorem C129_mav_asked (cap : Nat) (h : List Mav.Step) (hj : (Mav.run cap {} h).joining = true) (hp : (Mav.run cap {} h).phase = .running) :
    (Mav.run cap {} (h ++ [.check true])).phase = .ending ∧ (Mav.run cap {} (h ++ [.check true])).joining = true := by
  have i : ∀ l, (Mav.run cap {} l).joining = true → (Mav.run cap {} l).phase = .running → (Mav.run cap {} l).quit = true := by
    intro l
    refine Mav.run_keeps (P := fun s => s.joining = true → s.phase = .running → s.quit = true) (fun s x hs => ?_) (by simp) l
    cases x <;> simp only [Mav.step, Mav.close, Mav.ret, Mav.receive, Mav.frame, Mav.check, Mav.fail, Mav.flush, Mav.exit] <;> repeat' split
    all_goals simp_all [Mav.emit]
  rw [Mav.run_append]
  simp [Mav.run, Mav.step, Mav.check] at *
  simp [Mav.run, Mav.step, Mav.check, hp, i h hj hp, Mav.emit, hj]

/-- In `close`, when there is more to be written than there is room for: `close` does not return, whatever happens. -/
theorem C129_mav_hangs (cap : Nat) (s : Mav.State) (hj : s.joining = true) (hp : s.phase ≠ .dead) (hroom : cap < s.buffer + s.pipe)
    (hpipe : s.pipe ≤ cap) (h : List Mav.Step) : (Mav.run cap s h).joining = true ∧ (Mav.run cap s h).phase ≠ .dead := by
  have := Mav.run_keeps (cap := cap) (P := fun t => t.joining = true ∧ t.phase ≠ .dead ∧ cap < t.buffer + t.pipe ∧ t.pipe ≤ cap) (fun t x ht => by
    obtain ⟨a, b, c, d⟩ := ht
    cases x with
    | exit =>
      have : t.buffer ≠ 0 := by omega
      simp only [Mav.step, Mav.exit, this, and_false, if_false]
      exact ⟨a, b, c, d⟩
    | flush =>
      simp only [Mav.step, Mav.flush]
      split
      · exact ⟨a, b, by simp only; omega, by simp only; omega⟩
      · exact ⟨a, b, c, d⟩
    | frame =>
      simp only [Mav.step, Mav.frame]
      split
      · exact ⟨a, b, by simp only; omega, d⟩
      · exact ⟨a, b, c, d⟩
    | ret => simp only [Mav.step, Mav.ret, b, and_false, if_false]; exact ⟨a, b, c, d⟩
    | close =>
      have e : Mav.step cap t .close = t := by simp [Mav.step, Mav.close, a]
      rw [e]; exact ⟨a, b, c, d⟩
    | receive =>
      have e : Mav.step cap t .receive = t := by simp [Mav.step, Mav.receive, a]
      rw [e]; exact ⟨a, b, c, d⟩
    | check v =>
      simp only [Mav.step, Mav.check]
      split
      · exact ⟨a, fun hh => (nomatch hh), c, d⟩
      · exact ⟨a, b, c, d⟩
    | fail =>
      simp only [Mav.step, Mav.fail]
      split
      · exact ⟨a, fun hh => (nomatch hh), c, d⟩
      · exact ⟨a, b, c, d⟩) ⟨hj, hp, hroom, hpipe⟩ h
  exact ⟨this.1, this.2.1⟩

/-- Five frames that nobody takes, with room for three in the pipe: `close` does not return. -/
theorem C129_mav_counterexample : ¬ MavGood 3 [.frame, .frame, .frame, .frame, .frame, .close] := by
  intro ⟨_, h, _⟩
  obtain ⟨h', e⟩ := h (by decide)
  have := (C129_mav_hangs 3 (Mav.run 3 {} [.frame, .frame, .frame, .frame, .frame, .close]) (by decide) (by decide) (by decide) (by decide) h').1
  rw [Mav.run_append] at e
  exact Bool.noConfusion (this.symm.trans e)

/-- The connection could not be established; the second `close` (that of `__del__`) raises. -/
theorem C129_full_counterexample : ¬ MavGood 3 [.fail, .exit, .close, .ret, .close] := by
  intro ⟨h, _⟩
  exact h (by decide)

/-! ## SLCAN -/

namespace Sl

theorem run_append (s : State) (h h' : List Step) : run s (h ++ h') = run (run s h) h' := List.foldl_append ..

theorem run_keeps {P : State → Prop} (hP : ∀ s x, P s → P (step s x)) {s : State} (h : P s) (l : List Step) : P (run s l) := by
  induction l generalizing s with
  | nil => exact h
  | cons x l ih => exact ih (hP s x h)

theorem run_leads {P Q : State → Prop} {X : Step → Prop} (hP : ∀ s x, P s → P (step s x)) (hQ : ∀ s x, Q s → Q (step s x))
    (hx : ∀ s x, X x → P s → Q (step s x)) {s : State} (h : P s) {l : List Step} (hl : ∃ x ∈ l, X x) : Q (run s l) := by
  obtain ⟨x, hm, hX⟩ := hl
  obtain ⟨a, b, rfl⟩ := List.append_of_mem hm
  rw [run_append]
  exact run_keeps hQ (hx _ _ hX (run_keeps hP h a)) b

/-- What holds in every state. -/
structure Inv (s : State) : Prop where
  queue : s.queue ≤ 1000
  logging : s.phase = .logging → Dealt s ∧ s.stopping = true
  returned : .returned ∈ s.trace → Dealt s
  deadline : ∀ t, s.phase = .joining t → t ≤ s.now + 10000 ∧ ∃ t₀, .told t₀ ∈ s.trace ∧ t₀ + 10000 = t
  term : ∀ t r, .term t r ∈ s.trace → ∃ t₀, .told t₀ ∈ s.trace ∧ t₀ + 10000 ≤ t
  kill : ∀ t r, .kill t r ∈ s.trace → ∃ r', .term t r' ∈ s.trace

end Sl

/-- The steps of `close` itself. -/
def Sl.Goes : Sl.Step → Prop
  | .proceed _ _ _ => True
  | _ => False

/-- The time that passes in a history. -/
def Sl.waited : List Sl.Step → Nat
  | [] => 0
  | .wait d :: l => d + waited l
  | _ :: l => waited l

namespace Sl

theorem Dealt.mono {s s' : State} (h : Dealt s) (ha : s.alive = false → s'.alive = false) (ht : ∀ e, e ∈ s.trace → e ∈ s'.trace) : Dealt s' := by
  rcases h with h | ⟨t, r, h⟩
  · exact .inl (ha h)
  · exact .inr ⟨t, r, ht _ h⟩

/-- The invariant for a step that changes none of what it is about. -/
theorem Inv.keep {s s' : State} (i : Inv s) (hq : s'.queue ≤ 1000) (hp : s'.phase = s.phase) (ha : s.alive = false → s'.alive = false)
    (hn : s.now ≤ s'.now) (hs : s'.stopping = s.stopping) (ht : s'.trace = s.trace) : Inv s' where
  queue := hq
  logging := fun h => ⟨Dealt.mono (i.logging (hp ▸ h)).1 ha (fun _ he => ht ▸ he), hs ▸ (i.logging (hp ▸ h)).2⟩
  returned := fun h => Dealt.mono (i.returned (ht ▸ h)) ha (fun _ he => ht ▸ he)
  deadline := fun t h => by
    obtain ⟨a, b⟩ := i.deadline t (hp ▸ h)
    exact ⟨by omega, ht ▸ b⟩
  term := fun t r h => by rw [ht] at h ⊢; exact i.term t r h
  kill := fun t r h => by rw [ht] at h ⊢; exact i.kill t r h

theorem inv_step (s : State) (x : Step) (i : Inv s) : Inv (step s x) := by
  cases x with
  | send =>
    simp only [step]
    split
    · rename_i h
      exact i.keep (by have : queueSize = 1000 := rfl; simp only; omega) rfl id (Nat.le_refl _) rfl rfl
    · exact i
  | take =>
    simp only [step]
    split
    · exact i.keep (Nat.le_trans (Nat.sub_le ..) i.queue) rfl id (Nat.le_refl _) rfl rfl
    · exact i
  | die => exact i.keep i.queue rfl (fun _ => rfl) (Nat.le_refl _) rfl rfl
  | wait d => exact i.keep i.queue rfl id (Nat.le_add_right ..) rfl rfl
  | log =>
    simp only [step, log]
    split
    · exact i
    · exact i.keep i.queue rfl id (Nat.le_refl _) rfl rfl
  | close =>
    simp only [step, close]
    split
    · split
      · refine ⟨i.queue, fun h => (nomatch h), ?_, fun _ h => (nomatch h), ?_, ?_⟩
        · intro h
          exact Dealt.mono (i.returned (by simpa [emit] using h)) id (fun e he => List.mem_append_left _ he)
        · intro t r h
          obtain ⟨t₀, h₀, h₁⟩ := i.term t r (by simpa [emit] using h)
          exact ⟨t₀, List.mem_append_left _ h₀, h₁⟩
        · intro t r h
          obtain ⟨r', h₀⟩ := i.kill t r (by simpa [emit] using h)
          exact ⟨r', List.mem_append_left _ h₀⟩
      · rename_i ha
        have ha : s.alive = false := by simpa using ha
        refine ⟨i.queue, fun _ => ⟨.inl ha, rfl⟩, fun _ => .inl ha, fun _ h => (nomatch h), ?_, ?_⟩
        · intro t r h
          obtain ⟨t₀, h₀, h₁⟩ := i.term t r (by simpa [stop, emit] using h)
          exact ⟨t₀, List.mem_append_left _ h₀, h₁⟩
        · intro t r h
          obtain ⟨r', h₀⟩ := i.kill t r (by simpa [stop, emit] using h)
          exact ⟨r', List.mem_append_left _ h₀⟩
    · exact i
  | proceed a b c =>
    simp only [step, proceed]
    split
    · exact i
    · split
      · rename_i hq
        refine ⟨?_, fun h => (nomatch h), ?_, ?_, ?_, ?_⟩
        · have : queueSize = 1000 := rfl
          simp only [emit]; omega
        · intro h
          exact Dealt.mono (i.returned (by simpa [emit] using h)) id (fun e he => List.mem_append_left _ he)
        · intro t h
          cases h
          exact ⟨Nat.le_refl _, s.now, by simp [emit], rfl⟩
        · intro t r h
          obtain ⟨t₀, h₀, h₁⟩ := i.term t r (by simpa [emit] using h)
          exact ⟨t₀, List.mem_append_left _ h₀, h₁⟩
        · intro t r h
          obtain ⟨r', h₀⟩ := i.kill t r (by simpa [emit] using h)
          exact ⟨r', List.mem_append_left _ h₀⟩
      · exact i
    · rename_i t hph
      obtain ⟨hd, t₀, ht₀, he⟩ := i.deadline t hph
      split
      · rename_i ha
        split
        · rename_i hn
          cases c with
          | true =>
            have hf : force a b true s = { s with trace := s.trace ++ [.term s.now a], alive := false } := by simp [force, emit, ha]
            rw [hf]
            refine ⟨i.queue, fun _ => ⟨.inl rfl, rfl⟩, fun _ => .inl rfl, fun _ h => (nomatch h), ?_, ?_⟩
            · intro u r h
              simp only [stop, List.mem_append, List.mem_singleton] at h
              rcases h with h | h
              · obtain ⟨u₀, h₀, h₁⟩ := i.term u r h
                exact ⟨u₀, List.mem_append_left _ h₀, h₁⟩
              · cases h
                exact ⟨t₀, List.mem_append_left _ ht₀, by omega⟩
            · intro u r h
              obtain ⟨r', h₀⟩ := i.kill u r (by simpa [stop] using h)
              exact ⟨r', List.mem_append_left _ h₀⟩
          | false =>
            have hf : force a b false s = { s with trace := s.trace ++ [.term s.now a, .kill s.now b] } := by simp [force, emit, ha]
            rw [hf]
            have hk : ∃ t r, Ev.kill t r ∈ s.trace ++ [.term s.now a, .kill s.now b] := ⟨s.now, b, by simp⟩
            refine ⟨i.queue, fun _ => ⟨.inr hk, rfl⟩, fun _ => .inr hk, fun _ h => (nomatch h), ?_, ?_⟩
            · intro u r h
              simp only [stop, List.mem_append, List.mem_cons, List.not_mem_nil, or_false] at h
              rcases h with h | h | h
              · obtain ⟨u₀, h₀, h₁⟩ := i.term u r h
                exact ⟨u₀, List.mem_append_left _ h₀, h₁⟩
              · cases h
                exact ⟨t₀, List.mem_append_left _ ht₀, by omega⟩
              · exact nomatch h
            · intro u r h
              simp only [stop, List.mem_append, List.mem_cons, List.not_mem_nil, or_false] at h
              rcases h with h | h | h
              · obtain ⟨r', h₀⟩ := i.kill u r h
                exact ⟨r', List.mem_append_left _ h₀⟩
              · exact nomatch h
              · cases h
                exact ⟨a, List.mem_append_right _ (List.mem_cons_self ..)⟩
        · exact i
      · rename_i ha
        have ha : s.alive = false := by simpa using ha
        exact ⟨i.queue, fun _ => ⟨.inl ha, rfl⟩, fun _ => .inl ha, fun _ h => (nomatch h), i.term, i.kill⟩
    · rename_i hph
      split
      · exact i
      · refine ⟨i.queue, fun h => (nomatch h), fun _ => Dealt.mono (i.logging hph).1 id (fun e he => List.mem_append_left _ he),
          fun _ h => (nomatch h), ?_, ?_⟩
        · intro t r h
          obtain ⟨t₀, h₀, h₁⟩ := i.term t r (by simpa [emit] using h)
          exact ⟨t₀, List.mem_append_left _ h₀, h₁⟩
        · intro t r h
          obtain ⟨r', h₀⟩ := i.kill t r (by simpa [emit] using h)
          exact ⟨r', List.mem_append_left _ h₀⟩

theorem inv (h : List Step) : Inv (run {} h) :=
  run_keeps inv_step ⟨Nat.zero_le _, by simp, by simp, by simp, by simp, by simp⟩ h

end Sl

/-- When `SLCAN.close` has returned, the process is dead or `close` has tried to kill it, and the logging thread has ended. -/
theorem C129_sl_dead (h : List Sl.Step) (hr : .returned ∈ (Sl.run {} h).trace) : Dealt (Sl.run {} h) ∧ (Sl.run {} h).logger = false := by
  refine ⟨(Sl.inv h).returned hr, ?_⟩
  refine Sl.run_keeps (P := fun s => .returned ∈ s.trace → s.logger = false) (fun s x hs => ?_) (by simp) h hr
  cases x <;> simp only [Sl.step, Sl.close, Sl.proceed, Sl.log, Sl.stop, Sl.force] <;> repeat' split
  all_goals simp_all [Sl.emit]

/-- The process is not terminated by force, let alone killed, before it has had ten seconds to obey. -/
theorem C129_sl_polite (h : List Sl.Step) :
    (∀ t r, .term t r ∈ (Sl.run {} h).trace → ∃ t₀, .told t₀ ∈ (Sl.run {} h).trace ∧ t₀ + 10000 ≤ t) ∧
    (∀ t r, .kill t r ∈ (Sl.run {} h).trace → ∃ r', .term t r' ∈ (Sl.run {} h).trace) :=
  ⟨(Sl.inv h).term, (Sl.inv h).kill⟩

/-- The number of times that `close` has put the command to stop into the transmission queue. -/
def told (t : List Sl.Ev) : Nat := t.countP fun e => match e with
  | .told _ => true
  | _ => false

/-- What `SLCAN.close` puts into the transmission queue stays there until the process takes it. -/
theorem C129_sl_command (s : Sl.State) (h : List Sl.Step) :
    told (Sl.run s h).trace + s.queue ≤ (Sl.run s h).queue + told s.trace + h.count .take := by
  induction h generalizing s with
  | nil => simp [Sl.run]; omega
  | cons x xs ih =>
    have h1 := ih (Sl.step s x)
    have h2 : told (Sl.step s x).trace + s.queue ≤ (Sl.step s x).queue + told s.trace + [x].count .take := by
      clear h1 ih
      cases x <;> simp only [Sl.step, Sl.close, Sl.proceed, Sl.log, Sl.stop, Sl.force] <;> repeat' split
      all_goals simp [Sl.emit, told, List.countP_append] <;> omega
    have h3 : (x :: xs).count Sl.Step.take = [x].count .take + xs.count .take := by
      rw [← List.count_append]; rfl
    rw [h3]
    show told (Sl.run (Sl.step s x) xs).trace + s.queue ≤ (Sl.run (Sl.step s x) xs).queue + _ + _
    omega

namespace Sl

/-- `close` has returned once more than `n` times. -/
def Back (n : Nat) (s : State) : Prop := n < s.trace.count .returned

theorem back_step {n : Nat} (s : State) (x : Step) (h : Back n s) : Back n (step s x) := by
  unfold Back at *
  cases x <;> simp only [step, close, proceed, log, stop, force] <;> repeat' split
  all_goals first | exact h | (simp only [emit, List.count_append]; omega)

def Last (n : Nat) (s : State) : Prop := Back n s ∨ (s.phase = .logging ∧ n = s.trace.count .returned ∧ s.logger = false)

def Logs (n : Nat) (s : State) : Prop := Back n s ∨ (s.phase = .logging ∧ n = s.trace.count .returned ∧ s.stopping = true)

def Joins (e n : Nat) (s : State) : Prop :=
  Back n s ∨ (∃ t, s.phase = .joining t ∧ n = s.trace.count .returned ∧ t ≤ s.now + e) ∨ (s.phase = .logging ∧ n = s.trace.count .returned ∧ s.stopping = true)

def Puts (n : Nat) (s : State) : Prop :=
  (s.phase = .putting ∧ n = s.trace.count .returned ∧ s.queue < 1000) ∨ Joins 10000 n s

theorem last_step {n : Nat} (s : State) (x : Step) (h : Last n s) : Last n (step s x) := by
  rcases h with h | ⟨h₁, h₂, h₃⟩
  · exact .inl (back_step s x h)
  · cases x with
    | proceed a b c => left; simp [Back, step, proceed, h₁, h₃, emit, h₂]
    | _ => right; simp only [step, close, h₁, log] <;> (repeat' split) <;> simp_all

theorem logs_step {n : Nat} (s : State) (x : Step) (h : Logs n s) : Logs n (step s x) := by
  rcases h with h | ⟨h₁, h₂, h₃⟩
  · exact .inl (back_step s x h)
  · cases x with
    | proceed a b c =>
      simp only [step, proceed, h₁]
      split
      · exact .inr ⟨h₁, h₂, h₃⟩
      · left; simp [Back, emit, h₂]
    | _ => right; simp only [step, close, h₁, log] <;> (repeat' split) <;> simp_all

theorem joins_step {e n : Nat} (s : State) (x : Step) (h : Joins e n s) : Joins e n (step s x) := by
  rcases h with h | ⟨t, h₁, h₂, h₃⟩ | h
  · exact .inl (back_step s x h)
  · cases x with
    | proceed a b c =>
      right
      simp only [step, proceed, h₁]
      split
      · split
        · right
          refine ⟨rfl, ?_, rfl⟩
          simp only [stop, force]
          split <;> simp [emit, h₂]
        · exact .inl ⟨t, h₁, h₂, h₃⟩
      · exact .inr ⟨rfl, h₂, rfl⟩
    | wait d => exact .inr (.inl ⟨t, h₁, h₂, by simp only [step]; omega⟩)
    | _ => right; left; refine ⟨t, ?_⟩; simp only [step, close, h₁, log] <;> (repeat' split) <;> simp_all
  · rcases logs_step s x (.inr h) with h | h
    · exact .inl h
    · exact .inr (.inr h)

theorem puts_step {n : Nat} (s : State) (x : Step) (h : Puts n s) : Puts n (step s x) := by
  rcases h with ⟨h₁, h₂, h₃⟩ | h
  · cases x with
    | proceed a b c =>
      right; right; left
      have : s.queue < queueSize := h₃
      simp only [step, proceed, h₁, this, if_true]
      exact ⟨_, rfl, by simp [emit, h₂], Nat.le_refl _⟩
    | take =>
      left
      simp only [step]
      split
      · exact ⟨h₁, h₂, by simp only; omega⟩
      · exact ⟨h₁, h₂, h₃⟩
    | _ => left; simp only [step, close, h₁, log] <;> (repeat' split) <;> simp_all
  · exact .inr (joins_step s x h)

theorem joins_wait {n : Nat} (l : List Step) {e : Nat} {s : State} (h : Joins e n s) (hl : e ≤ waited l) : Joins 0 n (run s l) := by
  induction l generalizing e s with
  | nil =>
    simp only [waited, Nat.le_zero] at hl
    exact hl ▸ h
  | cons x l ih =>
    cases x with
    | wait d =>
      simp only [waited] at hl
      refine ih (e := e - d) ?_ (by omega)
      rcases h with h | ⟨t, h₁, h₂, h₃⟩ | h
      · exact .inl (back_step s _ h)
      · exact .inr (.inl ⟨t, h₁, h₂, by simp only [step]; omega⟩)
      · exact .inr (.inr h)
    | _ => exact ih (joins_step s _ h) (by simpa only [waited] using hl)

end Sl

/-- `close` returns, whatever the process does, if there is room in the transmission queue for the command to stop: it puts the command, ten seconds
pass, it goes on, the logging thread looks at its condition, `close` goes on. -/
theorem C129_sl_returns (h : List Sl.Step) (hc : (Sl.run {} h).phase ≠ .idle) (hroom : (Sl.run {} h).phase = .putting → (Sl.run {} h).queue < 1000)
    (h₁ h₂ h₃ h₄ h₅ : List Sl.Step) (g₁ : ∃ x ∈ h₁, Sl.Goes x) (g₂ : 10000 ≤ Sl.waited h₂) (g₃ : ∃ x ∈ h₃, Sl.Goes x) (g₄ : .log ∈ h₄)
    (g₅ : ∃ x ∈ h₅, Sl.Goes x) :
    (Sl.run {} h).trace.count .returned < (Sl.run {} (h ++ h₁ ++ h₂ ++ h₃ ++ h₄ ++ h₅)).trace.count .returned := by
  simp only [Sl.run_append]
  have i := Sl.inv h
  generalize Sl.run {} h = s at *
  have w : Sl.Puts (s.trace.count .returned) s := by
    cases hp : s.phase with
    | idle => exact absurd hp hc
    | putting => exact .inl ⟨hp, rfl, hroom hp⟩
    | joining t => exact .inr (.inr (.inl ⟨t, hp, rfl, (i.deadline t hp).1⟩))
    | logging => exact .inr (.inr (.inr ⟨hp, rfl, (i.logging hp).2⟩))
  have w := Sl.run_leads (Q := Sl.Joins 10000 (s.trace.count .returned)) (X := Sl.Goes) Sl.puts_step Sl.joins_step (fun t x hx ht => by
    rcases ht with ⟨a₁, a₂, a₃⟩ | ht
    · cases x with
      | proceed a b c =>
        right; left
        have : t.queue < Sl.queueSize := a₃
        simp only [Sl.step, Sl.proceed, a₁, this, if_true]
        exact ⟨_, rfl, by simp [Sl.emit, a₂], Nat.le_refl _⟩
      | _ => exact hx.elim
    · exact Sl.joins_step t x ht) w g₁
  have w := Sl.joins_wait h₂ w g₂
  have w := Sl.run_leads (Q := Sl.Logs (s.trace.count .returned)) (X := Sl.Goes) Sl.joins_step Sl.logs_step (fun t x hx ht => by
    rcases ht with ht | ⟨u, a₁, a₂, a₃⟩ | ht
    · exact .inl (Sl.back_step t x ht)
    · cases x with
      | proceed a b c =>
        right
        have : u ≤ t.now := a₃
        simp only [Sl.step, Sl.proceed, a₁, this, if_true]
        split
        · refine ⟨rfl, ?_, rfl⟩
          simp only [Sl.stop, Sl.force]
          split <;> simp [Sl.emit, a₂]
        · exact ⟨rfl, a₂, rfl⟩
      | _ => exact hx.elim
    · exact Sl.logs_step t x (.inr ht)) w g₃
  have w := Sl.run_leads (Q := Sl.Last (s.trace.count .returned)) (X := fun x => x = .log) Sl.logs_step Sl.last_step (fun t x hx ht => by
    rcases ht with ht | ⟨a₁, a₂, a₃⟩
    · exact .inl (Sl.back_step t x ht)
    · subst hx
      right
      simp only [Sl.step, Sl.log, a₃]
      simp [a₁, a₂]) w ⟨_, g₄, rfl⟩
  exact Sl.run_leads (Q := Sl.Back (s.trace.count .returned)) (X := Sl.Goes) Sl.last_step Sl.back_step (fun t x hx ht => by
    rcases ht with ht | ⟨a₁, a₂, a₃⟩
    · exact Sl.back_step t x ht
    · cases x with
      | proceed a b c => simp [Sl.Back, Sl.step, Sl.proceed, a₁, a₃, Sl.emit, a₂]
      | _ => exact hx.elim) w g₅

/-- Closing a driver whose process is dead, as after another `close`: it puts nothing into the queue, sends no signals, and waits for the logging
thread only. -/
theorem C129_sl_again (s : Sl.State) (hp : s.phase = .idle) (ha : s.alive = false) (a b c : Bool) :
    (Sl.run s [.close, .log, .proceed a b c]).trace = s.trace ++ [.closing, .returned] ∧
    (Sl.run s [.close, .log, .proceed a b c]).queue = s.queue ∧ (Sl.run s [.close, .log, .proceed a b c]).phase = .idle := by
  simp [Sl.run, Sl.step, Sl.close, hp, ha, Sl.stop, Sl.emit, Sl.log, Sl.proceed]

/-- If the queue is full when `close` is called and the process takes nothing from it, `close` does not return, not even if the process dies. -/
theorem C129_sl_hangs (s : Sl.State) (hp : s.phase = .putting) (hq : 1000 ≤ s.queue) (h : List Sl.Step) (ht : s.alive = false ∨ .take ∉ h) :
    (Sl.run s h).phase = .putting := by
  induction h generalizing s with
  | nil => exact hp
  | cons x l ih =>
    have hh : (Sl.step s x).phase = .putting ∧ 1000 ≤ (Sl.step s x).queue ∧ ((Sl.step s x).alive = false ∨ .take ∉ l) := by
      have hl : s.alive = false ∨ .take ∉ l := ht.imp id (fun hm hn => hm (List.mem_cons_of_mem _ hn))
      cases x with
      | take =>
        rcases ht with ht | ht
        · have e : Sl.step s .take = s := by simp [Sl.step, ht]
          rw [e]; exact ⟨hp, hq, .inl ht⟩
        · exact absurd (List.mem_cons_self ..) ht
      | proceed a b c =>
        have : ¬ s.queue < Sl.queueSize := by have : Sl.queueSize = 1000 := rfl; omega
        have e : Sl.step s (.proceed a b c) = s := by simp [Sl.step, Sl.proceed, hp, this]
        rw [e]; exact ⟨hp, hq, hl⟩
      | die => exact ⟨hp, hq, .inl rfl⟩
      | wait d => exact ⟨hp, hq, hl⟩
      | close =>
        have e : Sl.step s .close = s := by simp [Sl.step, Sl.close, hp]
        rw [e]; exact ⟨hp, hq, hl⟩
      | send =>
        have e : Sl.step s .send = s := by simp [Sl.step, hp]
        rw [e]; exact ⟨hp, hq, hl⟩
      | log =>
        simp only [Sl.step, Sl.log]
        split
        · exact ⟨hp, hq, hl⟩
        · exact ⟨hp, hq, hl⟩
    exact ih _ hh.1 hh.2.1 hh.2.2

/-- The process hangs in a port that is gone, a thousand frames wait, and it dies when `close` has been called: `close` does not return. -/
theorem C129_sl_counterexample : ¬ SlGood (List.replicate 1000 .send ++ [.close, .die]) := by
  have hs : Sl.run {} (List.replicate 1000 .send ++ [.close, .die]) =
      { alive := false, queue := 1000, phase := .putting, trace := [.closing] } := by decide +kernel
  intro ⟨h, _⟩
  rw [hs] at h
  obtain ⟨h', e⟩ := h (fun hh => nomatch hh)
  rw [Sl.run_append, hs, C129_sl_hangs _ rfl (Nat.le_refl _) h' (.inl rfl)] at e
  exact nomatch e

/-! ## Multicast -/

/-- The multicast driver's process goes on after `close`. -/
theorem C129_mc_counterexample : ¬ McGood [.close] := by
  intro h
  exact nomatch h (by decide)

/-- It ends by exceptions only. -/
theorem C129_mc_goes_on (h : List Mc.Step) : (Mc.run {} h).alive = false ↔ .fail ∈ h := by
  have : ∀ s, (Mc.run s h).alive = false ↔ s.alive = false ∨ .fail ∈ h := by
    induction h with
    | nil => intro s; simp [Mc.run]
    | cons x l ih =>
      intro s
      have e : Mc.run s (x :: l) = Mc.run (Mc.step s x) l := rfl
      rw [e, ih]
      cases x <;> simp [Mc.step]
  simpa using this {}

theorem C129_counterexample : ¬ C129_statement := fun h => C129_mc_counterexample (h.2.2 _)

/-! ## Concrete cases -/

/-- A frame that was not taken; `close` returns. -/
example : (Mav.run 3 {} [.frame, .close, .frame, .check false, .check true, .flush, .flush, .exit, .ret]).trace = [.closing, .took, .returned] := by decide

example : (Mav.run 3 {} [.close, .check true, .exit, .ret, .close, .ret, .close]).trace =
    [.closing, .took, .returned, .closing, .returned, .closing, .full] := by decide

/-- A process that does not obey. -/
example : (Sl.run {} [.send, .close, .proceed false false false, .wait 9999, .proceed false false false, .wait 1, .proceed false false false,
    .log, .die, .proceed false false false, .close, .proceed true true true]).trace =
    [.closing, .told 0, .term 10000 false, .kill 10000 false, .returned, .closing, .returned] := by decide

/-- A process that does. -/
example : (Sl.run {} [.send, .close, .proceed false false false, .take, .take, .die, .proceed false false false, .log, .proceed false false false]).trace =
    [.closing, .told 0, .returned] := by decide

end DriverClose
end Dronecan
