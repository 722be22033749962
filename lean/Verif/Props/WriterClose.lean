import Verif.Props.Writer
import Verif.Props.PythonCan

/-!
# Closing the SocketCAN and python-can drivers (C121)

`close` sets a flag and waits for the writer thread to end (socketcan.py:269-272, python_can.py:131-134). The thread ends when it
finds the flag set while it has no frame in hand (socketcan.py:223, python_can.py:76).
-/

namespace Dronecan
open Can

namespace Writer

/-! ## SocketCAN: specification -/

/-- `close` has returned: the flag is set and the writer thread has ended. -/
def Closed (s : State) : Prop := s.stop = true ∧ s.phase = .idle

/-- When `close` has returned, there is a report, delivered or not, for each frame that was accepted (it was sent, or an exception
tells why not), and from then on no frame is accepted. -/
def C121_statement : Prop :=
  ∀ (be : Bool) (steps : List Step), Closed (run be steps) →
    (reportsOf (run be steps).trace).length + (run be steps).feedback.length = (acceptedOf (run be steps).trace).length ∧
    ∀ more, acceptedOf (run be (steps ++ more)).trace = acceptedOf (run be steps).trace

/-- How many steps of the writer thread there are in a history. -/
def writerSteps (be : Bool) (s : State) : List Step → Nat
  | [] => 0
  | st :: steps => (if (step be s st).phase ≠ s.phase then 1 else 0) + writerSteps be (step be s st) steps

/-! ## SocketCAN: theorems -/

/-- It is false: a frame that still waits when the driver is closed is neither sent nor reported. -/
theorem C121_counterexample : ¬ C121_statement := by
  intro h
  exact absurd (h false [.send ⟨1, [], true, false⟩, .close] ⟨rfl, rfl⟩).1 (by decide)

/-- Nor is `send_frame` refused afterwards: up to 1000 frames are accepted by the closed driver, and nothing is ever heard of them. -/
theorem C121_deaf : ∃ (steps : List Step), Closed (run false steps) ∧ ∀ f : CANFrame,
    acceptedOf (run false (steps ++ [.send f])).trace = [f] :=
  ⟨[.close], ⟨rfl, rfl⟩, fun _ => rfl⟩

theorem check_fields (s : State) : (check s).1.queue = s.queue ∧ (check s).1.phase = s.phase ∧ (check s).1.stop = s.stop ∧
    packetsOf (check s).1.trace = packetsOf s.trace := by
  rcases check_spec s with ⟨-, h⟩ | ⟨r, rest, -, -, h1, h2, h3, ⟨e, h4, -, -, h5⟩, -⟩
  · rw [h]; exact ⟨rfl, rfl, rfl, rfl⟩
  · refine ⟨h1, h2, h3, ?_⟩
    rw [h4]
    unfold packetsOf at h5 ⊢
    rw [List.filterMap_append, h5, List.append_nil]

/-- What a step does after the flag was set. -/
theorem step_stopped (be : Bool) (s : State) (h : s.stop = true) (st : Step) :
    (step be s st).stop = true ∧ packetsOf (step be s st).trace = packetsOf s.trace ∧ s.queue <+: (step be s st).queue ∧
    ((step be s st).phase = s.phase ∨ (step be s st).phase = .idle) := by
  cases st with
  | send f =>
    obtain ⟨h1, h2, h3, h4⟩ := check_fields s
    simp only [step, sendFrame]
    generalize check s = c at h1 h2 h3 h4
    obtain ⟨t, b⟩ := c
    dsimp only at h1 h2 h3 h4 ⊢
    cases b with
    | true => exact ⟨h3.trans h, h4, h1 ▸ List.prefix_refl _, .inl h2⟩
    | false =>
      dsimp only
      split
      · exact ⟨h3.trans h, (by rw [← h4]; simp [packetsOf]), ⟨[f], by rw [h1]⟩, .inl h2⟩
      · exact ⟨h3.trans h, (by rw [← h4]; simp [packetsOf]), h1 ▸ List.prefix_refl _, .inl h2⟩
  | receive =>
    obtain ⟨h1, h2, h3, h4⟩ := check_fields s
    exact ⟨h3.trans h, h4, h1 ▸ List.prefix_refl _, .inl h2⟩
  | close => exact ⟨rfl, rfl, List.prefix_refl _, .inl rfl⟩
  | take =>
    have e : step be s .take = s := by
      simp only [step]
      split
      · rename_i h2 _
        rw [h] at h2
        cases h2
      · rfl
    rw [e]
    exact ⟨h, rfl, List.prefix_refl _, .inl rfl⟩
  | attempt o =>
    simp only [step]
    split
    · rename_i f _
      have e : attempt be o f s = { s with phase := .idle } := by simp [attempt, h]
      rw [e]
      exact ⟨h, rfl, List.prefix_refl _, .inr rfl⟩
    · exact ⟨h, rfl, List.prefix_refl _, .inl rfl⟩
  | report =>
    simp only [step]
    split
    · exact ⟨h, rfl, List.prefix_refl _, .inr rfl⟩
    · exact ⟨h, rfl, List.prefix_refl _, .inl rfl⟩

theorem run_append (be : Bool) (a b : List Step) : run be (a ++ b) = b.foldl (step be) (run be a) := by simp [run]

/-- After `close` has returned nothing is sent; the frames that wait then, and those accepted later, stay in the queue for ever. -/
theorem C121_silent (be : Bool) (steps more : List Step) (h : Closed (run be steps)) :
    Closed (run be (steps ++ more)) ∧ packetsOf (run be (steps ++ more)).trace = packetsOf (run be steps).trace ∧
    (run be steps).queue <+: (run be (steps ++ more)).queue := by
  rw [run_append]
  generalize run be steps = s at h
  induction more generalizing s with
  | nil => exact ⟨h, rfl, List.prefix_refl _⟩
  | cons st more ih =>
    obtain ⟨h1, h2, h3, h4⟩ := step_stopped be s h.1 st
    have hp : (step be s st).phase = .idle := by
      rcases h4 with h4 | h4
      · rw [h4]; exact h.2
      · exact h4
    obtain ⟨i1, i2, i3⟩ := ih (step be s st) ⟨h1, hp⟩
    exact ⟨i1, i2.trans h2, h3.trans i3⟩

/-- `close` returns: from the time the flag is set, whatever the main thread does, the next step of the writer thread is its last. -/
theorem C121_returns (be : Bool) (s : State) (h : s.stop = true) (steps : List Step) (o : Outcome) :
    (step be (step be (steps.foldl (step be) s) (.attempt o)) .report).phase = .idle ∧ writerSteps be s steps ≤ 1 := by
  constructor
  · have hs : (steps.foldl (step be) s).stop = true := by
      induction steps generalizing s with
      | nil => exact h
      | cons st steps ih => exact ih _ (step_stopped be s h st).1
    generalize steps.foldl (step be) s = t at hs
    cases hp : t.phase with
    | idle => simp [step, hp]
    | working f => simp [step, hp, attempt, hs]
    | written f => simp [step, hp]
  · have idle : ∀ (steps : List Step) (s : State), s.stop = true → s.phase = .idle → writerSteps be s steps = 0 := by
      intro steps
      induction steps with
      | nil => intro s _ _; rfl
      | cons st steps ih =>
        intro s hs hp
        obtain ⟨h1, -, -, h4⟩ := step_stopped be s hs st
        have hp' : (step be s st).phase = .idle := by
          rcases h4 with h4 | h4
          · rw [h4]; exact hp
          · exact h4
        rw [writerSteps, hp', hp, ih _ h1 hp']
        simp
    induction steps generalizing s with
    | nil => exact Nat.zero_le _
    | cons st steps ih =>
      obtain ⟨h1, -, -, h4⟩ := step_stopped be s h st
      rw [writerSteps]
      rcases h4 with h4 | h4
      · rw [if_neg (by simp [h4])]
        have := ih _ h1
        omega
      · rw [idle steps _ h1 h4]
        split <;> omega

/-- Every accepted frame is accounted for: sent, failed, forgotten when the flag was seen (at most one), or still waiting. If the
driver is closed when no frame waits and the writer thread has none in hand, then there is a report for each accepted frame. -/
theorem C121_orderly_partial (be : Bool) (steps more : List Step) (h1 : (run be steps).stop = false)
    (h2 : (run be steps).phase = .idle) (h3 : (run be steps).queue = []) (hm : ∀ st ∈ more, ∀ f, st ≠ .send f) :
    (reportsOf (run be (steps ++ .close :: more)).trace).length + (run be (steps ++ .close :: more)).feedback.length =
      (acceptedOf (run be (steps ++ .close :: more)).trace).length := by
  obtain ⟨done, hi⟩ := run_inv be steps
  have hr : ∀ x ∈ done, ∃ r, x.2.report x.1 = some r := by
    intro x hx
    have := hi.running h1 x hx
    obtain ⟨f, fate⟩ := x
    cases fate with
    | sent => exact ⟨_, rfl⟩
    | failed e => exact ⟨_, rfl⟩
    | forgotten => exact absurd rfl this
  have hl : (reports done).length = done.length := by
    clear hi h1 h2 h3
    induction done with
    | nil => rfl
    | cons x done ih =>
      obtain ⟨r, hx⟩ := hr x List.mem_cons_self
      unfold reports at ih ⊢
      rw [List.filterMap_cons, hx, List.length_cons, List.length_cons, ih fun y hy => hr y (List.mem_cons_of_mem _ hy)]
  have key : ∀ (more : List Step) (s : State), s.stop = true → s.phase = .idle → s.queue = [] →
      (∀ st ∈ more, ∀ f, st ≠ .send f) →
      (reportsOf s.trace).length + s.feedback.length = (acceptedOf s.trace).length →
      (reportsOf (more.foldl (step be) s).trace).length + (more.foldl (step be) s).feedback.length =
        (acceptedOf (more.foldl (step be) s).trace).length := by
    intro more
    induction more with
    | nil => intro s _ _ _ _ h; exact h
    | cons st more ih =>
      intro s hs hp hq hno h
      have hidle : (step be s st).stop = true ∧ (step be s st).phase = .idle ∧ (step be s st).queue = [] ∧
          (reportsOf (step be s st).trace).length + (step be s st).feedback.length = (acceptedOf (step be s st).trace).length := by
        cases st with
        | send f => exact absurd rfl (hno _ List.mem_cons_self f)
        | receive =>
          rcases check_spec s with ⟨-, h'⟩ | ⟨r, rest, e1, e2, e3, e4, e5, ⟨e, e6, e7, e8, -⟩, -⟩
          · simp only [step, h']; exact ⟨hs, hp, hq, h⟩
          · simp only [step]
            refine ⟨e5.trans hs, e4.trans hp, e3.trans hq, ?_⟩
            rw [e6, e2]
            unfold reportsOf at e7 h ⊢
            unfold acceptedOf at e8 h ⊢
            rw [List.filterMap_append, List.filterMap_append, e7, e8, List.append_nil, List.length_append]
            rw [e1, List.length_cons] at h
            simp only [List.length_singleton]
            omega
        | close => exact ⟨rfl, hp, hq, h⟩
        | take =>
          have e : step be s .take = s := by
            simp only [step]
            split
            · rename_i h2 _
              rw [hs] at h2
              cases h2
            · rfl
          rw [e]; exact ⟨hs, hp, hq, h⟩
        | attempt o =>
          have e : step be s (.attempt o) = s := by simp only [step, hp]
          rw [e]; exact ⟨hs, hp, hq, h⟩
        | report =>
          have e : step be s .report = s := by simp only [step, hp]
          rw [e]; exact ⟨hs, hp, hq, h⟩
      exact ih _ hidle.1 hidle.2.1 hidle.2.2.1 (fun st' hst => hno st' (List.mem_cons_of_mem _ hst)) hidle.2.2.2
  rw [run_append]
  refine key more (step be (run be steps) .close) rfl h2 h3 hm ?_
  show (reportsOf (run be steps).trace).length + (run be steps).feedback.length = (acceptedOf (run be steps).trace).length
  have ha := hi.accepted
  have hrep := hi.reports
  rw [h2, h3] at ha
  rw [ha, ← List.length_append, hrep, hl]
  simp [Phase.frames]

/-- The hypotheses can be met: one frame is sent, another fails, and the driver is closed. -/
example : let steps : List Step := [.send ⟨1, [], true, false⟩, .take, .attempt .noBufs, .attempt .ok, .report,
      .send ⟨2, [], true, false⟩, .take, .attempt (.error 100)]
    (run false steps).stop = false ∧ (run false steps).phase = .idle ∧ (run false steps).queue = [] ∧
    Closed (run false (steps ++ .close :: [.receive])) ∧ (acceptedOf (run false (steps ++ .close :: [.receive])).trace).length = 2 := by
  refine ⟨?_, ?_, ?_, ⟨?_, ?_⟩, ?_⟩ <;> decide +kernel

end Writer

namespace PythonCan

/-! ## python-can -/

/-- `close` has returned from waiting for the writer thread. -/
def Closed (s : State) : Prop := s.stop = true ∧ s.phase = .idle

/-- The same for the python-can driver. -/
def C121_python_can_statement : Prop :=
  ∀ (polls : Bool) (s : State) (steps : List Step), Fresh s → Closed (run polls s steps) →
    (reportsOf (run polls s steps).trace).length + (run polls s steps).feedback.length =
      (acceptedOf (run polls s steps).trace).length ∧
    ∀ more, acceptedOf (run polls s (steps ++ more)).trace = acceptedOf (run polls s steps).trace

/-- It is false, likewise. -/
theorem C121_python_can_counterexample : ¬ C121_python_can_statement := by
  intro h
  exact absurd (h false {} [.send ⟨1, [], true, false⟩, .close] ⟨rfl, rfl, rfl, rfl, rfl⟩ ⟨rfl, rfl⟩).1 (by decide)

theorem check_fields (s : State) : (check s).1.queue = s.queue ∧ (check s).1.phase = s.phase ∧ (check s).1.stop = s.stop ∧
    busOf (check s).1.trace = busOf s.trace := by
  unfold check
  split
  · exact ⟨rfl, rfl, rfl, rfl⟩
  · exact ⟨rfl, rfl, rfl, by simp [emit, busOf]⟩
  · exact ⟨rfl, rfl, rfl, by simp [emit, busOf]⟩

/-- What a step does after the flag was set. -/
theorem step_stopped (polls : Bool) (s : State) (h : s.stop = true) (st : Step) :
    (step polls s st).stop = true ∧ busOf (step polls s st).trace = busOf s.trace ∧ s.queue <+: (step polls s st).queue ∧
    (s.phase = .idle → (step polls s st).phase = .idle) := by
  cases st with
  | send f =>
    obtain ⟨h1, h2, h3, h4⟩ := check_fields s
    simp only [step, sendFrame]
    split
    · exact ⟨h, (by simp [emit, busOf]), List.prefix_refl _, id⟩
    · generalize check s = c at h1 h2 h3 h4
      obtain ⟨t, b⟩ := c
      dsimp only at h1 h2 h3 h4 ⊢
      cases b with
      | true => exact ⟨h3.trans h, h4, h1 ▸ List.prefix_refl _, fun hp => h2.trans hp⟩
      | false =>
        dsimp only
        split
        · exact ⟨h3.trans h, (by rw [← h4]; simp [emit, busOf]), ⟨[f], by simp [emit, h1]⟩, fun hp => h2.trans hp⟩
        · exact ⟨h3.trans h, (by rw [← h4]; simp [emit, busOf]), h1 ▸ List.prefix_refl _, fun hp => h2.trans hp⟩
  | receive timeout =>
    obtain ⟨h1, h2, h3, h4⟩ := check_fields s
    simp only [step, receive]
    generalize check s = c at h1 h2 h3 h4
    obtain ⟨t, b⟩ := c
    dsimp only at h1 h2 h3 h4 ⊢
    cases b with
    | true => exact ⟨h3.trans h, h4, h1 ▸ List.prefix_refl _, fun hp => h2.trans hp⟩
    | false =>
      dsimp only
      obtain ⟨r1, r2, -, r4, r5⟩ := recv_same polls (busTimeout timeout) t
      generalize recv polls (busTimeout timeout) t = y at r1 r2 r4 r5
      obtain ⟨m, t'⟩ := y
      dsimp only at r1 r2 r4 r5 ⊢
      cases m with
      | none =>
        exact ⟨r5.trans (h3.trans h), (by rw [← h4, ← r1]; simp [emit, busOf]), (by simp [emit, r2, h1]),
          fun hp => r4.trans (h2.trans hp)⟩
      | some m =>
        exact ⟨r5.trans (h3.trans h), (by rw [← h4, ← r1]; simp [emit, busOf]), (by simp [emit, r2, h1]),
          fun hp => r4.trans (h2.trans hp)⟩
  | close => exact ⟨rfl, rfl, List.prefix_refl _, id⟩
  | take =>
    have e : step polls s .take = s := by
      simp only [step]
      split
      · rename_i h2 _
        rw [h] at h2
        cases h2
      · rfl
    rw [e]
    exact ⟨h, rfl, List.prefix_refl _, id⟩
  | transmit o =>
    simp only [step]
    split
    · rw [if_pos h]; exact ⟨h, rfl, List.prefix_refl _, fun _ => rfl⟩
    · exact ⟨h, rfl, List.prefix_refl _, id⟩
  | flush o =>
    simp only [step]
    split
    · rename_i f hp
      cases o with
      | ok => exact ⟨h, rfl, List.prefix_refl _, fun hp' => absurd (hp.symm.trans hp') (fun h => nomatch h)⟩
      | noBufs =>
        exact ⟨h, (by simp [emit, busOf]), List.prefix_refl _, fun hp' => absurd (hp.symm.trans hp') (fun h => nomatch h)⟩
      | error e => exact ⟨h, (by simp [emit, busOf]), List.prefix_refl _, fun _ => rfl⟩
    · exact ⟨h, rfl, List.prefix_refl _, id⟩
  | report =>
    simp only [step]
    split
    · exact ⟨h, rfl, List.prefix_refl _, fun _ => rfl⟩
    · exact ⟨h, rfl, List.prefix_refl _, id⟩
  | wait t => exact ⟨h, rfl, List.prefix_refl _, id⟩

/-- After `close` has returned nothing is put on the bus; what waits then stays in the queue for ever. -/
theorem C121_python_can_silent (polls : Bool) (s : State) (steps more : List Step) (h : Closed (run polls s steps)) :
    Closed (run polls s (steps ++ more)) ∧ busOf (run polls s (steps ++ more)).trace = busOf (run polls s steps).trace ∧
    (run polls s steps).queue <+: (run polls s (steps ++ more)).queue := by
  have : run polls s (steps ++ more) = more.foldl (step polls) (run polls s steps) := by simp [run]
  rw [this]
  clear this
  generalize run polls s steps = t at h
  induction more generalizing t with
  | nil => exact ⟨h, rfl, List.prefix_refl _⟩
  | cons st more ih =>
    obtain ⟨h1, h2, h3, h4⟩ := step_stopped polls t h.1 st
    obtain ⟨i1, i2, i3⟩ := ih (step polls t st) ⟨h1, h4 h.2⟩
    exact ⟨i1, i2.trans h2, h3.trans i3⟩

/-- `close` returns: with the flag set, the writer thread is done after the steps that it has in hand. -/
theorem C121_python_can_returns (polls : Bool) (s : State) (h : s.stop = true) (o o' : Outcome) :
    (step polls (step polls (step polls s (.flush o)) (.transmit o')) .report).phase = .idle := by
  cases hp : s.phase with
  | idle => simp [step, hp]
  | working f => simp [step, hp, h]
  | flushing f => cases o <;> simp [step, hp, emit, h]
  | reporting f => simp [step, hp]

example : Closed (run false {} [.send ⟨1, [], true, false⟩, .take, .close, .transmit .ok]) := ⟨rfl, rfl⟩

end PythonCan
end Dronecan
