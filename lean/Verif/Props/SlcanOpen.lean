import Verif.Model.SlcanOpen

/-!
# Opening an SLCAN device (C132)
-/

namespace Dronecan
namespace SlcanOpen
open Can

/-! ## Specification -/

/-- What the process has put into the reception queue, ever. -/
def putsOf (trace : List Ev) : List Item := trace.filterMap fun
  | .failed e => some (.exc e)
  | .reported i => some i
  | .signalled => some .ok
  | _ => none

/-- The frames that the RX worker has reported. -/
def reportedOf (trace : List Ev) : List CANFrame := trace.filterMap fun
  | .reported (.frame f) => some f
  | _ => none

/-- The frames among the items of a queue. -/
def framesIn (q : List Item) : List CANFrame := q.filterMap fun
  | .frame f => some f
  | _ => none

/-- The constructor has returned or raised. -/
def Ended (s : State) : Prop := s.ctor = .returned ∨ ∃ e, s.ctor = .raised e

/-- When the constructor has returned, all frames that the RX worker has reported are there to be received. It raises only if the port could
not be opened, the adapter not be initialised, if that took more than ten seconds, or if the process has died. A device that has been opened
can be received from. -/
def C132_statement : Prop :=
  ∀ (cfg : Config) (h : List Step),
    (∀ t, .returned t ∈ (run cfg h).trace → framesIn (run cfg h).rxq = reportedOf (run cfg h).trace) ∧
    (∀ e t, .raised e t ∈ (run cfg h).trace → .failed e ∈ (run cfg h).trace ∨ e = .driverError ∧ (10000 < t ∨ .died ∈ (run cfg h).trace)) ∧
    (∀ f, (run cfg h).ctor = .returned → (run cfg h).phase = .running → (run cfg h).thread = true →
      .reported (.frame f) ∈ (run cfg (h ++ [.rx { frames := [f] }])).trace)

/-! ## Proofs -/

def IsFrame (i : Item) : Prop := ∃ f, i = .frame f

/-- What the constructor has taken from the queue. -/
def Taken (s : State) (taken : List Item) : Prop :=
  match s.ctor with
  | .waiting t => (∀ i ∈ taken, IsFrame i) ∧ t ≤ 20000 ∧ (∀ t, .returned t ∉ s.trace) ∧ ∀ e t, .raised e t ∉ s.trace
  | .returned => (∃ fs, (∀ i ∈ fs, IsFrame i) ∧ taken = fs ++ [.ok]) ∧ ∀ e t, .raised e t ∉ s.trace
  | .raised e => (∀ t, .returned t ∉ s.trace) ∧ (∀ e' t, .raised e' t ∈ s.trace → e' = e ∧
      ((∃ fs, (∀ i ∈ fs, IsFrame i) ∧ taken = fs ++ [.exc e]) ∨
        e = .driverError ∧ (10000 < t ∧ (∀ i ∈ taken, IsFrame i) ∨ .died ∈ s.trace ∧ ∃ fs, (∀ i ∈ fs, IsFrame i) ∧ taken = fs ++ [.ok])))

structure Inv (s : State) : Prop where
  taken : ∃ taken, putsOf s.trace = taken ++ s.rxq ∧ Taken s taken
  early : s.phase = .opening ∨ s.phase = .init → s.thread = false
  signal : .signalled ∈ s.trace → .initialised ∈ s.trace
  started : s.phase = .started ∨ s.phase = .running ∨ s.thread = true → .initialised ∈ s.trace
  died : s.phase = .dead → .died ∈ s.trace ∧ s.thread = false
  told : ∀ e, s.ctor = .raised e → s.stop = true ∨ s.phase = .ending ∨ s.phase = .dead

theorem putsOf_append (a b : List Ev) : putsOf (a ++ b) = putsOf a ++ putsOf b := by simp [putsOf]

theorem putsOf_frames (fs : List CANFrame) : putsOf (fs.map (Ev.reported ∘ Item.frame)) = fs.map Item.frame := by
  induction fs with
  | nil => rfl
  | cons f fs ih => simpa [putsOf] using ih

/-- A step of the process that puts items and reports events other than those of the constructor. -/
theorem taken_put {s s' : State} {q : List Item} {l : List Ev} (h : ∃ taken, putsOf s.trace = taken ++ s.rxq ∧ Taken s taken)
    (hc : s'.ctor = s.ctor) (hq : s'.rxq = s.rxq ++ q) (ht : s'.trace = s.trace ++ l) (hl : putsOf l = q)
    (h1 : ∀ t, .returned t ∉ l) (h2 : ∀ e t, .raised e t ∉ l) :
    ∃ taken, putsOf s'.trace = taken ++ s'.rxq ∧ Taken s' taken := by
  obtain ⟨taken, i1, i2⟩ := h
  refine ⟨taken, by rw [ht, hq, putsOf_append, i1, hl, List.append_assoc], ?_⟩
  simp only [Taken, hc] at i2 ⊢
  cases hs : s.ctor with
  | waiting t =>
    rw [hs] at i2
    refine ⟨i2.1, i2.2.1, fun t => ?_, fun e t => ?_⟩
    · rw [ht, List.mem_append]; exact fun h => h.elim (i2.2.2.1 t) (h1 t)
    · rw [ht, List.mem_append]; exact fun h => h.elim (i2.2.2.2 e t) (h2 e t)
  | returned =>
    rw [hs] at i2
    refine ⟨i2.1, fun e t => ?_⟩
    rw [ht, List.mem_append]; exact fun h => h.elim (i2.2 e t) (h2 e t)
  | raised e =>
    rw [hs] at i2
    refine ⟨fun t => ?_, fun e' t => ?_⟩
    · rw [ht, List.mem_append]; exact fun h => h.elim (i2.1 t) (h1 t)
    · rw [ht, List.mem_append]
      intro h
      rcases h with h | h
      · obtain ⟨j1, j2⟩ := i2.2 e' t h
        refine ⟨j1, j2.imp_right fun j => ⟨j.1, j.2.imp_right fun j => ⟨List.mem_append_left _ j.1, j.2⟩⟩⟩
      · exact absurd h (h2 e' t)

theorem inv_init : Inv {} where
  taken := ⟨[], rfl, by simp [Taken, initTimeout]⟩
  early := fun _ => rfl
  signal := fun h => nomatch h
  started := fun h => by simp at h
  died := fun h => by cases h
  told := fun e h => by cases h

theorem inv_giveUp {s : State} (e : Err) (told : Bool) (h : Inv s) (hw : ∃ t, s.ctor = .waiting t) (taken : List Item)
    (hp : putsOf s.trace = taken ++ s.rxq)
    (ht : (∃ fs, (∀ i ∈ fs, IsFrame i) ∧ taken = fs ++ [.exc e]) ∨
        e = .driverError ∧ (10000 < s.now ∧ (∀ i ∈ taken, IsFrame i) ∨ .died ∈ s.trace ∧ ∃ fs, (∀ i ∈ fs, IsFrame i) ∧ taken = fs ++ [.ok]))
    (htold : told = true ∨ s.phase = .dead) : Inv (giveUp e told s) := by
  obtain ⟨t, hw⟩ := hw
  obtain ⟨tk, -, i2⟩ := h.taken
  simp only [Taken, hw] at i2
  refine ⟨⟨taken, by simp [giveUp, putsOf] at hp ⊢; exact hp, ?_⟩, h.early, ?_, ?_, ?_, ?_⟩
  · simp only [Taken, giveUp, List.mem_append, List.mem_singleton]
    refine ⟨fun t h => h.elim (i2.2.2.1 t) (fun h => nomatch h), fun e' t h => ?_⟩
    rcases h with h | h
    · exact absurd h (i2.2.2.2 e' t)
    · cases h
      exact ⟨rfl, ht.imp_right fun j => ⟨j.1, j.2.imp_right fun j => ⟨Or.inl j.1, j.2⟩⟩⟩
  · intro hh
    simp only [giveUp, List.mem_append, List.mem_singleton] at hh ⊢
    exact hh.elim (fun a => Or.inl (h.signal a)) (fun a => nomatch a)
  · intro hh
    exact List.mem_append_left _ (h.started hh)
  · intro hh
    exact ⟨List.mem_append_left _ (h.died hh).1, (h.died hh).2⟩
  · intro e' _
    rcases htold with rfl | hd
    · exact Or.inl (by simp [giveUp])
    · exact Or.inr (Or.inr hd)

theorem inv_goOn {s : State} (h : Inv s) (hw : ∃ t, s.ctor = .waiting t) (taken : List Item)
    (hp : putsOf s.trace = taken ++ s.rxq) (ht : ∀ i ∈ taken, IsFrame i) : Inv (goOn s) := by
  simp only [goOn]
  by_cases hn : initTimeout < s.now
  · rw [if_pos hn]
    exact inv_giveUp _ _ h hw taken hp (Or.inr ⟨rfl, Or.inl ⟨hn, ht⟩⟩) (Or.inl rfl)
  · rw [if_neg hn]
    obtain ⟨t, hw⟩ := hw
    obtain ⟨tk, -, i2⟩ := h.taken
    simp only [Taken, hw] at i2
    refine ⟨⟨taken, hp, ?_⟩, h.early, h.signal, h.started, h.died, ?_⟩
    · simp only [initTimeout] at hn
      simp only [Taken, initTimeout]
      exact ⟨ht, by omega, i2.2.2⟩
    · intro e hh; cases hh

theorem inv_main {s : State} (h : Inv s) : Inv (mainStep s) := by
  simp only [mainStep]
  cases hc : s.ctor with
  | returned => exact h
  | raised e => exact h
  | waiting t =>
    obtain ⟨tk, i1, i2⟩ := h.taken
    have i3 := i2
    simp only [Taken, hc] at i3
    cases hq : s.rxq with
    | nil =>
      dsimp only
      by_cases hn : s.now < t
      · rw [if_pos hn]; exact h
      · rw [if_neg hn]
        exact inv_goOn h ⟨t, hc⟩ tk i1 i3.1
    | cons i rest =>
      rw [hq] at i1
      have i1' : putsOf s.trace = (tk ++ [i]) ++ rest := by rw [i1, List.append_assoc]; rfl
      cases i with
      | ok =>
        dsimp only
        by_cases hd : s.phase = .dead
        · rw [if_pos hd]
          obtain ⟨k1, k2, k3, k4, k5, k6⟩ := h
          refine ⟨⟨tk ++ [.ok], by simp [giveUp, putsOf] at i1' ⊢; exact i1', ?_⟩, k2, ?_, ?_, ?_, ?_⟩
          · simp only [Taken, giveUp, List.mem_append, List.mem_singleton]
            refine ⟨fun t h => h.elim (i3.2.2.1 t) (fun h => nomatch h), fun e' t h => ?_⟩
            rcases h with h | h
            · exact absurd h (i3.2.2.2 e' t)
            · cases h
              exact ⟨rfl, Or.inr ⟨trivial, Or.inr ⟨Or.inl (k5 hd).1, tk, i3.1, rfl⟩⟩⟩
          · intro hh
            simp only [giveUp, List.mem_append, List.mem_singleton] at hh ⊢
            exact hh.elim (fun a => Or.inl (k3 a)) (fun a => nomatch a)
          · intro hh; exact List.mem_append_left _ (k4 hh)
          · intro hh; exact ⟨List.mem_append_left _ (k5 hh).1, (k5 hh).2⟩
          · intro e' _; exact Or.inr (Or.inr hd)
        · rw [if_neg hd]
          refine ⟨⟨tk ++ [.ok], by simp [putsOf] at i1' ⊢; exact i1', ?_⟩, h.early, ?_, ?_, ?_, ?_⟩
          · simp only [Taken, List.mem_append, List.mem_singleton]
            exact ⟨⟨tk, i3.1, rfl⟩, fun e t h => h.elim (i3.2.2.2 e t) (fun h => nomatch h)⟩
          · intro hh
            simp only [List.mem_append, List.mem_singleton] at hh ⊢
            exact hh.elim (fun a => Or.inl (h.signal a)) (fun a => nomatch a)
          · intro hh; exact List.mem_append_left _ (h.started hh)
          · intro hh; exact ⟨List.mem_append_left _ (h.died hh).1, (h.died hh).2⟩
          · intro e' hh; cases hh
      | exc e =>
        dsimp only
        obtain ⟨k1, k2, k3, k4, k5, k6⟩ := h
        refine ⟨⟨tk ++ [.exc e], by simp [giveUp, putsOf] at i1' ⊢; exact i1', ?_⟩, k2, ?_, ?_, ?_, ?_⟩
        · simp only [Taken, giveUp, List.mem_append, List.mem_singleton]
          refine ⟨fun t h => h.elim (i3.2.2.1 t) (fun h => nomatch h), fun e' t h => ?_⟩
          rcases h with h | h
          · exact absurd h (i3.2.2.2 e' t)
          · cases h
            exact ⟨rfl, Or.inl ⟨tk, i3.1, rfl⟩⟩
        · intro hh
          simp only [giveUp, List.mem_append, List.mem_singleton] at hh ⊢
          exact hh.elim (fun a => Or.inl (k3 a)) (fun a => nomatch a)
        · intro hh; exact List.mem_append_left _ (k4 hh)
        · intro hh; exact ⟨List.mem_append_left _ (k5 hh).1, (k5 hh).2⟩
        · intro e' _; exact Or.inl (by simp [giveUp])
      | frame f =>
        dsimp only
        have hf : ∀ i ∈ tk ++ [Item.frame f], IsFrame i := by
          intro i hi
          rcases List.mem_append.1 hi with hi | hi
          · exact i3.1 i hi
          · exact ⟨f, List.mem_singleton.1 hi⟩
        have h' : Inv { s with rxq := rest } :=
          ⟨⟨tk ++ [.frame f], i1', by simp only [Taken, hc]; exact ⟨hf, i3.2⟩⟩, h.early, h.signal, h.started, h.died, h.told⟩
        rw [hc] at h'
        exact inv_goOn h' ⟨t, rfl⟩ (tk ++ [.frame f]) i1' hf

theorem not_died_step {s : State} (h : Inv s) {q : List Item} {l : List Ev} (phase : Phase) (thread : Bool) (errors : Nat) (stop : Bool)
    (hl : putsOf l = q) (h1 : ∀ t, .returned t ∉ l) (h2 : ∀ e t, .raised e t ∉ l)
    (hearly : phase = .opening ∨ phase = .init → thread = false)
    (hsig : .signalled ∈ l → .initialised ∈ s.trace)
    (hst : phase = .started ∨ phase = .running ∨ thread = true → .initialised ∈ s.trace ++ l)
    (hd : phase = .dead → .died ∈ s.trace ++ l ∧ thread = false)
    (ht : ∀ e, s.ctor = .raised e → stop = true ∨ phase = .ending ∨ phase = .dead) :
    Inv { s with phase, thread, errors, stop, rxq := s.rxq ++ q, trace := s.trace ++ l } where
  taken := taken_put h.taken rfl rfl rfl hl h1 h2
  early := hearly
  signal := fun hh => (List.mem_append.1 hh).elim (fun a => List.mem_append_left _ (h.signal a)) (fun a => List.mem_append_left _ (hsig a))
  started := hst
  died := hd
  told := ht

theorem inv_step (cfg : Config) {s : State} (h : Inv s) (x : Step) : Inv (step cfg s x) := by
  cases x with
  | tick d => exact ⟨h.taken, h.early, h.signal, h.started, h.died, h.told⟩
  | main => exact inv_main h
  | opens r =>
    simp only [step, openStep]
    by_cases hp : s.phase = .opening
    · rw [if_pos hp]
      have hth := h.early (Or.inl hp)
      have htold : ∀ e, s.ctor = .raised e → s.stop = true := fun e he => by
        rcases h.told e he with a | a | a
        · exact a
        · rw [hp] at a; cases a
        · rw [hp] at a; cases a
      cases r with
      | none =>
        have := not_died_step (q := []) (l := []) h .init s.thread s.errors s.stop rfl (fun _ h => nomatch h) (fun _ _ h => nomatch h)
          (fun _ => hth) (fun h => nomatch h) (by simp [hth]) (fun h => nomatch h) (fun e he => Or.inl (htold e he))
        simpa using this
      | some e =>
        exact not_died_step (q := [.exc e]) (l := [.failed e, .died]) h .dead s.thread s.errors s.stop rfl (by simp) (by simp)
          (by simp) (by simp) (by simp [hth]) (by simp [hth]) (by simp)
    · rw [if_neg hp]; exact h
  | inits r =>
    simp only [step, initStep]
    by_cases hp : s.phase = .init
    · rw [if_pos hp]
      have hth := h.early (Or.inr hp)
      have htold : ∀ e, s.ctor = .raised e → s.stop = true := fun e he => by
        rcases h.told e he with a | a | a
        · exact a
        · rw [hp] at a; cases a
        · rw [hp] at a; cases a
      cases r with
      | none =>
        have := not_died_step (q := []) (l := [.initialised]) h .started true s.errors s.stop rfl (by simp) (by simp)
          (by simp) (by simp) (by simp) (by simp) (fun e he => Or.inl (htold e he))
        simpa using this
      | some e =>
        exact not_died_step (q := [.exc e]) (l := [.failed e]) h .ending s.thread s.errors s.stop rfl (by simp) (by simp)
          (by simp) (by simp) (by simp [hth]) (by simp) (by simp)
    · rw [if_neg hp]; exact h
  | signal =>
    simp only [step, signalStep]
    by_cases hp : s.phase = .started
    · rw [if_pos hp]
      have hi := h.started (Or.inl hp)
      refine not_died_step (q := [.ok]) (l := [.signalled]) h .running s.thread s.errors s.stop rfl (by simp) (by simp)
        (by simp) (fun _ => hi) (fun _ => List.mem_append_left _ hi) (by simp) (fun e he => ?_)
      rcases h.told e he with a | a | a
      · exact Or.inl a
      · rw [hp] at a; cases a
      · rw [hp] at a; cases a
    · rw [if_neg hp]; exact h
  | tx =>
    simp only [step, txStep]
    by_cases hp : s.phase = .running
    · rw [if_pos hp]
      have hi := h.started (Or.inr (Or.inl hp))
      by_cases hs : s.stop = true
      · rw [if_pos hs]
        have := not_died_step (q := []) (l := []) h .ending s.thread s.errors false rfl (fun _ h => nomatch h) (fun _ _ h => nomatch h)
          (by simp) (fun h => nomatch h) (fun _ => List.mem_append_left _ hi) (by simp) (by simp)
        simpa using this
      · rw [if_neg hs]
        by_cases ht : s.thread = false
        · rw [if_pos ht]
          have := not_died_step (q := []) (l := []) h .ending s.thread s.errors s.stop rfl (fun _ h => nomatch h) (fun _ _ h => nomatch h)
            (by simp) (fun h => nomatch h) (fun _ => List.mem_append_left _ hi) (by simp) (by simp)
          simpa using this
        · rw [if_neg ht]; exact h
    · rw [if_neg hp]; exact h
  | finish =>
    simp only [step, finishStep]
    by_cases hp : s.phase = .ending ∧ s.thread = false
    · rw [if_pos hp]
      have := not_died_step (q := []) (l := [.died]) h .dead s.thread s.errors s.stop rfl (by simp) (by simp)
        (by simp) (by simp) (by simp [hp.2]) (by simp [hp.2]) (by simp)
      simpa using this
    · rw [if_neg hp]; exact h
  | kill =>
    simp only [step, killStep]
    by_cases hp : s.phase = .dead
    · rw [if_pos hp]; exact h
    · rw [if_neg hp]
      have := not_died_step (q := []) (l := [.died]) h .dead false s.errors s.stop rfl (by simp) (by simp)
        (by simp) (by simp) (by simp) (by simp) (by simp)
      simpa using this
  | rx r =>
    simp only [step, rxStep]
    by_cases ht : s.thread = false
    · rw [if_pos ht]; exact h
    · rw [if_neg ht]
      have ht' : s.thread = true := by simpa using ht
      have hi := h.started (Or.inr (Or.inr ht'))
      have hearly : ¬ (s.phase = .opening ∨ s.phase = .init) := fun a => by rw [h.early a] at ht'; cases ht'
      have hdead : s.phase ≠ .dead := fun a => by rw [(h.died a).2] at ht'; cases ht'
      by_cases he : s.phase = .ending
      · rw [if_pos he]
        have := not_died_step (q := []) (l := []) h s.phase false s.errors s.stop rfl (fun _ h => nomatch h) (fun _ _ h => nomatch h)
          (fun _ => rfl) (fun h => nomatch h) (fun _ => List.mem_append_left _ hi) (fun a => absurd a hdead) h.told
        simpa using this
      · rw [if_neg he]
        generalize readPort cfg r = r
        obtain ⟨fs, error⟩ := r
        have hno : ∀ x : Ev, x ∈ fs.map (Ev.reported ∘ Item.frame) → ∃ f, x = .reported (.frame f) := by
          intro x hx
          obtain ⟨f, -, rfl⟩ := List.mem_map.1 hx
          exact ⟨f, rfl⟩
        cases error with
        | none =>
          dsimp only
          refine not_died_step (q := fs.map Item.frame) (l := fs.map (Ev.reported ∘ Item.frame)) h s.phase s.thread 0 s.stop (putsOf_frames fs) ?_ ?_
            (fun a => absurd a hearly) ?_ (fun _ => List.mem_append_left _ hi) (fun a => absurd a hdead) h.told
          · intro t hx; obtain ⟨f, hf⟩ := hno _ hx; cases hf
          · intro e t hx; obtain ⟨f, hf⟩ := hno _ hx; cases hf
          · intro hx; obtain ⟨f, hf⟩ := hno _ hx; cases hf
        | some e =>
          dsimp only
          rw [List.append_assoc, List.append_assoc]
          refine not_died_step (q := fs.map Item.frame ++ [.exc e]) (l := fs.map (Ev.reported ∘ Item.frame) ++ [.reported (.exc e)]) h s.phase
            (decide (s.errors + 1 < maxErrors)) (s.errors + 1) s.stop ?_ ?_ ?_
            (fun a => absurd a hearly) ?_ (fun _ => List.mem_append_left _ hi) (fun a => absurd a hdead) h.told
          · rw [putsOf_append, putsOf_frames]; rfl
          · intro t hx
            rcases List.mem_append.1 hx with hx | hx
            · obtain ⟨f, hf⟩ := hno _ hx; cases hf
            · cases List.mem_singleton.1 hx
          · intro e t hx
            rcases List.mem_append.1 hx with hx | hx
            · obtain ⟨f, hf⟩ := hno _ hx; cases hf
            · cases List.mem_singleton.1 hx
          · intro hx
            rcases List.mem_append.1 hx with hx | hx
            · obtain ⟨f, hf⟩ := hno _ hx; cases hf
            · cases List.mem_singleton.1 hx

theorem inv_steps (cfg : Config) (h : List Step) : ∀ s, Inv s → Inv (steps cfg s h) := by
  induction h with
  | nil => exact fun s hs => hs
  | cons x h ih => exact fun s hs => ih _ (inv_step cfg hs x)

theorem inv_run (cfg : Config) (h : List Step) : Inv (run cfg h) := inv_steps cfg h _ inv_init

theorem framesIn_append (a b : List Item) : framesIn (a ++ b) = framesIn a ++ framesIn b := by simp [framesIn]

theorem reported_puts (l : List Ev) : reportedOf l = framesIn (putsOf l) := by
  induction l with
  | nil => rfl
  | cons x l ih =>
    simp only [reportedOf, framesIn, putsOf] at ih ⊢
    cases x with
    | reported i => cases i <;> simpa using ih
    | _ => simpa [framesIn] using ih

theorem mem_puts {l : List Ev} {e : Err} (h : Item.exc e ∈ putsOf l) : .failed e ∈ l ∨ .reported (.exc e) ∈ l := by
  simp only [putsOf, List.mem_filterMap] at h
  obtain ⟨x, hx, h⟩ := h
  cases x <;> simp at h
  · subst h; exact Or.inl hx
  · subst h; exact Or.inr hx

theorem map_framesIn (fs : List Item) (h : ∀ i ∈ fs, IsFrame i) : (framesIn fs).map Item.frame = fs := by
  induction fs with
  | nil => rfl
  | cons i fs ih =>
    obtain ⟨f, rfl⟩ := h i (List.mem_cons_self ..)
    have := ih (fun i hi => h i (List.mem_cons_of_mem _ hi))
    simp only [framesIn, List.filterMap_cons, List.map_cons] at this ⊢
    rw [this]

/-- Every event that a step adds. -/
theorem step_trace (cfg : Config) (s : State) (x : Step) : ∃ l, (step cfg s x).trace = s.trace ++ l ∧
    (∀ i, .reported i ∈ l → (∃ r, x = .rx r ∧ s.thread = true) ∧
      ((∃ f, i = .frame f ∧ (cfg.windows = true ∨ cfg.reopen = true)) ∨ ∃ e, i = .exc e ∧ (cfg.windows = false → cfg.reopen = false → e = .attributeError))) := by
  cases x with
  | tick d => exact ⟨[], by simp [step], by simp⟩
  | opens r => 
    simp only [step, openStep]
    split
    · cases r
      · exact ⟨[], by simp, by simp⟩
      · exact ⟨_, rfl, by simp⟩
    · exact ⟨[], by simp, by simp⟩
  | inits r =>
    simp only [step, initStep]
    split
    · cases r
      · exact ⟨_, rfl, by simp⟩
      · exact ⟨_, rfl, by simp⟩
    · exact ⟨[], by simp, by simp⟩
  | signal =>
    simp only [step, signalStep]
    split
    · exact ⟨_, rfl, by simp⟩
    · exact ⟨[], by simp, by simp⟩
  | tx =>
    simp only [step, txStep]
    split
    · split
      · exact ⟨[], by simp, by simp⟩
      · split
        · exact ⟨[], by simp, by simp⟩
        · exact ⟨[], by simp, by simp⟩
    · exact ⟨[], by simp, by simp⟩
  | finish =>
    simp only [step, finishStep]
    split
    · exact ⟨_, rfl, by simp⟩
    · exact ⟨[], by simp, by simp⟩
  | kill =>
    simp only [step, killStep]
    split
    · exact ⟨[], by simp, by simp⟩
    · exact ⟨_, rfl, by simp⟩
  | main =>
    have hg : ∀ s : State, ∃ l, (goOn s).trace = s.trace ++ l ∧ ∀ i, .reported i ∉ l := by
      intro s
      simp only [goOn]
      split
      · exact ⟨_, rfl, by simp⟩
      · exact ⟨[], by simp, by simp⟩
    simp only [step, mainStep]
    cases s.ctor with
    | returned => exact ⟨[], by simp, by simp⟩
    | raised e => exact ⟨[], by simp, by simp⟩
    | waiting t =>
      cases s.rxq with
      | nil =>
        dsimp only
        split
        · exact ⟨[], by simp, by simp⟩
        · obtain ⟨l, h1, h2⟩ := hg s
          exact ⟨l, h1, fun i hi => absurd hi (h2 i)⟩
      | cons i rest =>
        cases i with
        | ok =>
          dsimp only
          split
          · exact ⟨_, rfl, by simp⟩
          · exact ⟨_, rfl, by simp⟩
        | exc e => exact ⟨_, rfl, by simp⟩
        | frame f =>
          obtain ⟨l, h1, h2⟩ := hg { s with rxq := rest }
          exact ⟨l, h1, fun i hi => absurd hi (h2 i)⟩
  | rx r =>
    simp only [step, rxStep]
    split
    · exact ⟨[], by simp, by simp⟩
    · rename_i ht
      have ht : s.thread = true := by simpa using ht
      split
      · exact ⟨[], by simp, by simp⟩
      · have hf : ∀ f, f ∈ (readPort cfg r).frames → cfg.windows = true ∨ cfg.reopen = true := by
          intro f hf
          simp only [readPort] at hf
          split at hf
          · exact Or.inl ‹_›
          · split at hf
            · exact Or.inr ‹_›
            · cases hf
        have he : ∀ e, (readPort cfg r).error = some e → cfg.windows = false → cfg.reopen = false → e = .attributeError := by
          intro e he hw hr
          simp [readPort, hw, hr] at he
          exact he.symm
        generalize readPort cfg r = r' at hf he
        obtain ⟨fs, error⟩ := r'
        cases error with
        | none =>
          refine ⟨_, rfl, fun i hi => ⟨⟨r, rfl, ht⟩, ?_⟩⟩
          obtain ⟨f, h1, h2⟩ := List.mem_map.1 hi
          cases h2
          exact Or.inl ⟨f, rfl, hf f h1⟩
        | some e =>
          refine ⟨_, List.append_assoc .., fun i hi => ⟨⟨r, rfl, ht⟩, ?_⟩⟩
          rcases List.mem_append.1 hi with hi | hi
          · obtain ⟨f, h1, h2⟩ := List.mem_map.1 hi
            cases h2
            exact Or.inl ⟨f, rfl, hf f h1⟩
          · cases List.mem_singleton.1 hi
            exact Or.inr ⟨e, rfl, he e rfl⟩

theorem reported_steps (cfg : Config) (h : List Step) : ∀ s i, .reported i ∈ (steps cfg s h).trace → .reported i ∈ s.trace ∨
    (∃ f, i = .frame f ∧ (cfg.windows = true ∨ cfg.reopen = true)) ∨ ∃ e, i = .exc e ∧ (cfg.windows = false → cfg.reopen = false → e = .attributeError) := by
  induction h with
  | nil => exact fun s i hi => Or.inl hi
  | cons x h ih =>
    intro s i hi
    rcases ih _ i hi with hi | hi
    · obtain ⟨l, h1, h2⟩ := step_trace cfg s x
      rw [h1] at hi
      rcases List.mem_append.1 hi with hi | hi
      · exact Or.inl hi
      · exact Or.inr (h2 i hi).2
    · exact Or.inr hi

theorem no_ok (cfg : Config) (h : List Step) : .reported .ok ∉ (run cfg h).trace := by
  intro hi
  rcases reported_steps cfg h {} .ok hi with hi | ⟨f, hf, -⟩ | ⟨e, he, -⟩
  · cases hi
  · cases hf
  · cases he

theorem taken_returned (cfg : Config) (h : List Step) (t : Nat) (hr : .returned t ∈ (run cfg h).trace) :
    ∃ fs, (∀ i ∈ fs, IsFrame i) ∧ putsOf (run cfg h).trace = fs ++ .ok :: (run cfg h).rxq := by
  obtain ⟨tk, i1, i2⟩ := (inv_run cfg h).taken
  simp only [Taken] at i2
  cases hc : (run cfg h).ctor with
  | waiting u => rw [hc] at i2; exact absurd hr (i2.2.2.1 t)
  | raised e => rw [hc] at i2; exact absurd hr (i2.1 t)
  | returned =>
    rw [hc] at i2
    obtain ⟨⟨fs, j1, rfl⟩, -⟩ := i2
    exact ⟨fs, j1, by rw [i1, List.append_assoc]; rfl⟩

/-! ## Theorems -/

/-- If the constructor returns then the adapter has been initialised, and the first thing that the process has reported apart from frames is that. Those
frames are lost; everything that it reports afterwards is in the queue. -/
theorem C132_returned (cfg : Config) (h : List Step) (t : Nat) (hr : .returned t ∈ (run cfg h).trace) :
    .initialised ∈ (run cfg h).trace ∧
    ∃ lost : List CANFrame, putsOf (run cfg h).trace = lost.map .frame ++ .ok :: (run cfg h).rxq := by
  obtain ⟨fs, j1, j2⟩ := taken_returned cfg h t hr
  refine ⟨?_, ?_⟩
  · apply (inv_run cfg h).signal
    have : Item.ok ∈ putsOf (run cfg h).trace := by rw [j2]; simp
    simp only [putsOf, List.mem_filterMap] at this
    obtain ⟨x, hx, hi⟩ := this
    cases x with
    | signalled => exact hx
    | reported i =>
      exfalso
      have hi : i = .ok := by simpa using hi
      exact no_ok cfg h (by rw [hi] at hx; exact hx)
    | _ => simp at hi
  · exact ⟨framesIn fs, by rw [j2, map_framesIn fs j1]⟩

theorem step_alive (cfg : Config) (s : State) (x : Step) : ∃ l, (step cfg s x).trace = s.trace ++ l ∧ (s.phase = .dead → (step cfg s x).phase = .dead) ∧
    (.died ∈ l → (step cfg s x).phase = .dead) ∧ (∀ t, .returned t ∈ l → l = [.returned t] ∧ s.phase ≠ .dead) := by
  cases x with
  | tick d => exact ⟨[], by simp [step], id, by simp, by simp⟩
  | opens r =>
    simp only [step, openStep]
    split
    · rename_i hp
      cases r
      · exact ⟨[], by simp, by simp [hp], by simp, by simp⟩
      · exact ⟨_, rfl, by simp, by simp, by simp⟩
    · exact ⟨[], by simp, id, by simp, by simp⟩
  | inits r =>
    simp only [step, initStep]
    split
    · rename_i hp
      cases r
      · exact ⟨_, rfl, by simp [hp], by simp, by simp⟩
      · exact ⟨_, rfl, by simp [hp], by simp, by simp⟩
    · exact ⟨[], by simp, id, by simp, by simp⟩
  | signal =>
    simp only [step, signalStep]
    split
    · rename_i hp
      exact ⟨_, rfl, by simp [hp], by simp, by simp⟩
    · exact ⟨[], by simp, id, by simp, by simp⟩
  | tx =>
    simp only [step, txStep]
    split
    · rename_i hp
      split
      · exact ⟨[], by simp, by simp [hp], by simp, by simp⟩
      · split
        · exact ⟨[], by simp, by simp [hp], by simp, by simp⟩
        · exact ⟨[], by simp, id, by simp, by simp⟩
    · exact ⟨[], by simp, id, by simp, by simp⟩
  | finish =>
    simp only [step, finishStep]
    split
    · exact ⟨_, rfl, by simp, by simp, by simp⟩
    · exact ⟨[], by simp, id, by simp, by simp⟩
  | kill =>
    simp only [step, killStep]
    split
    · exact ⟨[], by simp, id, by simp, by simp⟩
    · exact ⟨_, rfl, by simp, by simp, by simp⟩
  | main =>
    have hg : ∀ s : State, ∃ l, (goOn s).trace = s.trace ++ l ∧ (goOn s).phase = s.phase ∧ .died ∉ l ∧ ∀ t, .returned t ∉ l := by
      intro s
      simp only [goOn]
      split
      · exact ⟨_, rfl, rfl, by simp, by simp⟩
      · exact ⟨[], by simp, rfl, by simp, by simp⟩
    simp only [step, mainStep]
    cases s.ctor with
    | returned => exact ⟨[], by simp, id, by simp, by simp⟩
    | raised e => exact ⟨[], by simp, id, by simp, by simp⟩
    | waiting t =>
      cases s.rxq with
      | nil =>
        dsimp only
        split
        · exact ⟨[], by simp, id, by simp, by simp⟩
        · obtain ⟨l, h1, h2, h3, h4⟩ := hg s
          exact ⟨l, h1, fun a => by rw [h2]; exact a, fun a => absurd a h3, fun t a => absurd a (h4 t)⟩
      | cons i rest =>
        cases i with
        | ok =>
          dsimp only
          split
          · rename_i hp
            exact ⟨_, rfl, by simp [giveUp], by simp, by simp⟩
          · rename_i hp
            exact ⟨_, rfl, by simp, by simp, by simp [hp]⟩
        | exc e => exact ⟨_, rfl, by simp [giveUp], by simp, by simp⟩
        | frame f =>
          obtain ⟨l, h1, h2, h3, h4⟩ := hg { s with ctor := .waiting t, rxq := rest }
          exact ⟨l, h1, fun a => h2.trans a, fun a => absurd a h3, fun t a => absurd a (h4 t)⟩
  | rx r =>
    simp only [step, rxStep]
    split
    · exact ⟨[], by simp, id, by simp, by simp⟩
    · split
      · exact ⟨[], by simp, id, by simp, by simp⟩
      · generalize readPort cfg r = r'
        obtain ⟨fs, error⟩ := r'
        cases error with
        | none => exact ⟨_, rfl, id, by simp, by simp⟩
        | some e => exact ⟨_, List.append_assoc .., id, by simp, by simp⟩

/-- When the constructor returns, the process is alive. -/
theorem C132_alive (cfg : Config) (h : List Step) (a b : List Ev) (t : Nat) (hr : (run cfg h).trace = a ++ .returned t :: b) : .died ∉ a := by
  have key : ∀ (h : List Step) (s : State), (.died ∈ s.trace → s.phase = .dead) →
      (∀ a b t, s.trace = a ++ .returned t :: b → .died ∉ a) → ∀ a b t, (steps cfg s h).trace = a ++ .returned t :: b → .died ∉ a := by
    intro h
    induction h with
    | nil => exact fun s _ h2 => h2
    | cons x h ih =>
      intro s h1 h2
      obtain ⟨l, k1, k2, k3, k4⟩ := step_alive cfg s x
      refine ih (step cfg s x) ?_ ?_
      · rw [k1]
        intro hd
        rcases List.mem_append.1 hd with hd | hd
        · exact k2 (h1 hd)
        · exact k3 hd
      · intro a b t hr hd
        rw [k1] at hr
        rcases List.append_eq_append_iff.1 hr with ⟨c, hc, hl⟩ | ⟨c, hc, hl⟩
        · have := (k4 t (by rw [hl]; simp))
          rw [this.1] at hl
          have hc' : c = [] := by
            rcases c with _ | ⟨y, c⟩
            · rfl
            · simp at hl
          rw [hc', List.append_nil] at hc
          rw [hc] at hd
          exact this.2 (h1 hd)
        · cases c with
          | nil =>
            simp at hl hc
            have := (k4 t (by rw [← hl]; simp))
            rw [hc] at h1
            exact this.2 (h1 hd)
          | cons y c =>
            simp at hl
            obtain ⟨rfl, hl⟩ := hl
            exact h2 a c t hc hd
  exact key h {} (fun h => nomatch h) (fun a b t h => by cases a <;> cases h) a b t hr

/-- If it raises then it raises the first exception that the process has reported, before the end of the initialisation, or the process did not
report anything but frames for more than ten seconds, or it is dead. -/
theorem C132_raised (cfg : Config) (h : List Step) (e : Err) (t : Nat) (hr : .raised e t ∈ (run cfg h).trace) :
    (∃ (lost : List CANFrame) (rest : List Item), putsOf (run cfg h).trace = lost.map .frame ++ .exc e :: rest) ∨
    e = .driverError ∧ (10000 < t ∨ .died ∈ (run cfg h).trace) := by
  obtain ⟨tk, i1, i2⟩ := (inv_run cfg h).taken
  simp only [Taken] at i2
  cases hc : (run cfg h).ctor with
  | waiting u => rw [hc] at i2; exact absurd hr (i2.2.2.2 e t)
  | returned => rw [hc] at i2; exact absurd hr (i2.2 e t)
  | raised e' =>
    rw [hc] at i2
    obtain ⟨rfl, j⟩ := i2.2 e t hr
    rcases j with ⟨fs, j1, rfl⟩ | ⟨j1, j2 | j2⟩
    · refine Or.inl ⟨framesIn fs, (run cfg h).rxq, ?_⟩
      rw [i1, List.append_assoc, map_framesIn fs j1]
      rfl
    · exact Or.inr ⟨j1, Or.inl j2.1⟩
    · exact Or.inr ⟨j1, Or.inr j2.1⟩

/-- Whenever it has taken a frame from the queue in the first ten seconds it waits for as long again, no more and no less if nothing follows. -/
theorem C132_patient (cfg : Config) (h : List Step) (f : CANFrame) (u : Nat) (hw : (run cfg h).ctor = .waiting u) (hq : (run cfg h).rxq = [.frame f])
    (h0 : 0 < (run cfg h).now) (hn : (run cfg h).now ≤ 10000) (d : Nat) : Ended (run cfg (h ++ [.main, .tick d, .main])) ↔ 10000 ≤ d := by
  have hrun : run cfg (h ++ [.main, .tick d, .main]) = mainStep { mainStep (run cfg h) with now := (mainStep (run cfg h)).now + d } := by
    simp [run, steps, step]
  rw [hrun]
  generalize run cfg h = s at hw hq h0 hn
  have hm : mainStep s = { s with rxq := [], ctor := .waiting (s.now + 10000) } := by
    simp only [mainStep, hw, hq, goOn, initTimeout]
    rw [if_neg (by omega)]
  rw [hm]
  simp only [mainStep]
  by_cases hd : 10000 ≤ d
  · have h1 : ¬ s.now + d < s.now + 10000 := by omega
    have h2 : initTimeout < s.now + d := by simp only [initTimeout]; omega
    simp only [if_neg h1, goOn, if_pos h2, giveUp]
    exact ⟨fun _ => hd, fun _ => Or.inr ⟨_, rfl⟩⟩
  · have h1 : s.now + d < s.now + 10000 := by omega
    simp only [if_pos h1]
    refine ⟨fun he => ?_, fun h => absurd h hd⟩
    rcases he with he | ⟨e, he⟩ <;> simp at he

/-- It does not wait for more than twenty seconds. -/
theorem C132_timely (cfg : Config) (h : List Step) (ht : 20000 ≤ (run cfg h).now) : Ended (run cfg (h ++ [.main])) := by
  obtain ⟨tk, i1, i2⟩ := (inv_run cfg h).taken
  have hrun : run cfg (h ++ [.main]) = mainStep (run cfg h) := by simp [run, steps, step]
  rw [hrun]
  generalize run cfg h = s at ht i1 i2
  simp only [Taken] at i2
  have hg : ∀ s : State, 20000 ≤ s.now → Ended (goOn s) := by
    intro s hs
    have : initTimeout < s.now := by simp only [initTimeout]; omega
    simp only [goOn, if_pos this]
    exact Or.inr ⟨_, rfl⟩
  simp only [mainStep]
  cases hc : s.ctor with
  | returned => exact Or.inl hc
  | raised e => exact Or.inr ⟨e, hc⟩
  | waiting u =>
    rw [hc] at i2
    cases hq : s.rxq with
    | nil =>
      dsimp only
      rw [if_neg (by have := i2.2.1; omega)]
      exact hg s ht
    | cons i rest =>
      cases i with
      | ok =>
        dsimp only
        split
        · exact Or.inr ⟨_, rfl⟩
        · exact Or.inl rfl
      | exc e => exact Or.inr ⟨e, rfl⟩
      | frame f => exact hg _ ht

theorem ended_main {s : State} (h : Ended s) : mainStep s = s := by
  rcases h with h | ⟨e, h⟩ <;> simp only [mainStep, h]

/-- It goes on as soon as it has taken a report that is no frame from the queue. -/
theorem C132_prompt (cfg : Config) (h : List Step) (hi : ∃ i ∈ (run cfg h).rxq, ∀ f, i ≠ .frame f) :
    Ended (run cfg (h ++ List.replicate (run cfg h).rxq.length .main)) := by
  have key : ∀ (n : Nat) (s : State), s.rxq.length = n → (∃ i ∈ s.rxq, ∀ f, i ≠ .frame f) → Ended (steps cfg s (List.replicate n .main)) := by
    intro n
    induction n with
    | zero =>
      intro s hn hi
      obtain ⟨i, hi, -⟩ := hi
      rw [List.length_eq_zero_iff.1 hn] at hi
      cases hi
    | succ n ih =>
      intro s hn hi
      have stay : ∀ (n : Nat) (s : State), Ended s → Ended (steps cfg s (List.replicate n .main)) := by
        intro n
        induction n with
        | zero => exact fun s hs => hs
        | succ n ih =>
          intro s hs
          simp only [List.replicate_succ, steps, List.foldl_cons, step]
          rw [ended_main hs]
          exact ih s hs
      simp only [List.replicate_succ, steps, List.foldl_cons, step]
      cases hc : s.ctor with
      | returned => rw [ended_main (Or.inl hc)]; exact stay n s (Or.inl hc)
      | raised e => rw [ended_main (Or.inr ⟨e, hc⟩)]; exact stay n s (Or.inr ⟨e, hc⟩)
      | waiting u =>
        cases hq : s.rxq with
        | nil => rw [hq] at hn; cases hn
        | cons i rest =>
          rw [hq] at hn hi
          cases i with
          | ok =>
            refine stay n _ ?_
            simp only [mainStep, hc, hq]
            split
            · exact Or.inr ⟨_, rfl⟩
            · exact Or.inl rfl
          | exc e =>
            refine stay n _ ?_
            simp only [mainStep, hc, hq]
            exact Or.inr ⟨e, rfl⟩
          | frame f =>
            obtain ⟨i, hm, hi⟩ := hi
            have hm : i ∈ rest := by
              rcases List.mem_cons.1 hm with hm | hm
              · exact absurd hm (hi f)
              · exact hm
            simp only [mainStep, hc, hq, goOn]
            split
            · exact stay n _ (Or.inr ⟨_, rfl⟩)
            · exact ih _ (by simpa using hn) ⟨i, hm, hi⟩
  have := key _ (run cfg h) rfl hi
  simpa [run, steps] using this

/-- How far the process is. -/
def rank (s : State) : Nat :=
  match s.phase with
  | .opening => 0
  | .init => 1
  | .started => 2
  | .running => 3
  | .ending => if s.thread then 4 else 5
  | .dead => 6

structure Doomed (s : State) : Prop where
  inv : Inv s
  raised : ∃ e, s.ctor = .raised e

theorem doomed_step (cfg : Config) {s : State} (h : Doomed s) (x : Step) : Doomed (step cfg s x) ∧ rank s ≤ rank (step cfg s x) := by
  have hinv := inv_step cfg h.inv x
  obtain ⟨e, he⟩ := h.raised
  have hearly := h.inv.early
  cases x with
  | tick d => exact ⟨⟨hinv, e, he⟩, Nat.le_refl _⟩
  | main =>
    have : step cfg s .main = s := ended_main (Or.inr ⟨e, he⟩)
    rw [this]; exact ⟨h, Nat.le_refl _⟩
  | opens r =>
    refine ⟨⟨hinv, e, ?_⟩, ?_⟩ <;> simp only [step, openStep] <;> split
    · cases r <;> exact he
    · exact he
    · cases r <;> simp [rank, *]
    · exact Nat.le_refl _
  | inits r =>
    refine ⟨⟨hinv, e, ?_⟩, ?_⟩ <;> simp only [step, initStep] <;> split
    · cases r <;> exact he
    · exact he
    · rename_i hp
      have := hearly (Or.inr hp)
      cases r <;> simp [rank, *]
    · exact Nat.le_refl _
  | signal =>
    refine ⟨⟨hinv, e, ?_⟩, ?_⟩ <;> simp only [step, signalStep] <;> split
    · exact he
    · exact he
    · simp [rank, *]
    · exact Nat.le_refl _
  | tx =>
    refine ⟨⟨hinv, e, ?_⟩, ?_⟩ <;> simp only [step, txStep] <;> split
    · split
      · exact he
      · split <;> exact he
    · exact he
    · rename_i hp
      split
      · simp only [rank, hp]; split <;> omega
      · split
        · simp only [rank, hp]; split <;> omega
        · exact Nat.le_refl _
    · exact Nat.le_refl _
  | finish =>
    refine ⟨⟨hinv, e, ?_⟩, ?_⟩ <;> simp only [step, finishStep] <;> split
    · exact he
    · exact he
    · simp [rank, *]
    · exact Nat.le_refl _
  | kill =>
    refine ⟨⟨hinv, e, ?_⟩, ?_⟩ <;> simp only [step, killStep] <;> split
    · exact he
    · exact he
    · exact Nat.le_refl _
    · simp only [rank]
      cases s.phase <;> simp
      split <;> omega
  | rx r =>
    refine ⟨⟨hinv, e, ?_⟩, ?_⟩ <;> simp only [step, rxStep] <;> split
    · exact he
    · split
      · exact he
      · split <;> exact he
    · exact Nat.le_refl _
    · split
      · rename_i hp
        simp only [rank, hp]; split <;> simp
      · split
        · simp only [rank]; exact Nat.le_refl _
        · simp only [rank]
          cases hp : s.phase <;> simp_all

theorem doomed_steps (cfg : Config) (h : List Step) : ∀ s, Doomed s → Doomed (steps cfg s h) ∧ rank s ≤ rank (steps cfg s h) := by
  induction h with
  | nil => exact fun s hs => ⟨hs, Nat.le_refl _⟩
  | cons x h ih =>
    intro s hs
    obtain ⟨h1, h2⟩ := doomed_step cfg hs x
    obtain ⟨h3, h4⟩ := ih _ h1
    exact ⟨h3, Nat.le_trans h2 h4⟩

theorem rank_dead {s : State} (h : 6 ≤ rank s) : s.phase = .dead := by
  simp only [rank] at h
  cases hp : s.phase <;> rw [hp] at h <;> simp at h
  split at h <;> omega

theorem stage (cfg : Config) (s : State) (hs : Doomed s) (n : Nat) (x : Step) (h : List Step) (hn : n ≤ rank s)
    (hx : ∀ s, Doomed s → rank s = n → n + 1 ≤ rank (step cfg s x)) : Doomed (steps cfg s (h ++ [x])) ∧ n + 1 ≤ rank (steps cfg s (h ++ [x])) := by
  obtain ⟨h1, h2⟩ := doomed_steps cfg h s hs
  have : steps cfg s (h ++ [x]) = step cfg (steps cfg s h) x := by simp [steps]
  rw [this]
  obtain ⟨h3, h4⟩ := doomed_step cfg h1 x
  refine ⟨h3, ?_⟩
  by_cases he : rank (steps cfg s h) = n
  · exact hx _ h1 he
  · omega

theorem rank_eq (s : State) : (rank s = 0 ↔ s.phase = .opening) ∧ (rank s = 1 ↔ s.phase = .init) ∧ (rank s = 2 ↔ s.phase = .started) ∧
    (rank s = 3 ↔ s.phase = .running) ∧ (rank s = 4 ↔ s.phase = .ending ∧ s.thread = true) ∧
    (rank s = 5 ↔ s.phase = .ending ∧ s.thread = false) := by
  simp only [rank]
  cases s.phase <;> simp
  cases s.thread <;> simp

/-- If the constructor raises then the process ends: once it has opened the port and initialised the adapter, successfully or not, it takes the command to
stop from the queue, waits for the RX worker's iteration and ends; whatever else happens between these steps. -/
theorem C132_gone (cfg : Config) (h₀ h₁ h₂ h₃ h₄ h₅ h₆ : List Step) (e : Err) (t : Nat) (r₁ r₂ : Option Err) (r₃ : Read)
    (hr : .raised e t ∈ (run cfg h₀).trace) :
    (run cfg (h₀ ++ (h₁ ++ [.opens r₁]) ++ (h₂ ++ [.inits r₂]) ++ (h₃ ++ [.signal]) ++ (h₄ ++ [.tx]) ++ (h₅ ++ [.rx r₃]) ++ (h₆ ++ [.finish]))).phase
      = .dead := by
  have hd : Doomed (run cfg h₀) := by
    refine ⟨inv_run cfg h₀, ?_⟩
    obtain ⟨tk, -, i2⟩ := (inv_run cfg h₀).taken
    simp only [Taken] at i2
    cases hc : (run cfg h₀).ctor with
    | waiting u => rw [hc] at i2; exact absurd hr (i2.2.2.2 e t)
    | returned => rw [hc] at i2; exact absurd hr (i2.2 e t)
    | raised e' => exact ⟨e', rfl⟩
  have happ : ∀ a b, run cfg (a ++ b) = steps cfg (run cfg a) b := fun a b => by simp [run, steps]
  rw [happ, happ, happ, happ, happ, happ]
  obtain ⟨d1, k1⟩ := stage cfg _ hd 0 (.opens r₁) h₁ (Nat.zero_le _) (by
    intro s hs hn
    have hp := (rank_eq s).1.1 hn
    simp only [step, openStep, if_pos hp]
    cases r₁ <;> simp [rank])
  obtain ⟨d2, k2⟩ := stage cfg _ d1 1 (.inits r₂) h₂ k1 (by
    intro s hs hn
    have hp := (rank_eq s).2.1.1 hn
    simp only [step, initStep, if_pos hp]
    cases r₂
    · simp [rank]
    · simp only [rank]; split <;> omega)
  obtain ⟨d3, k3⟩ := stage cfg _ d2 2 .signal h₃ k2 (by
    intro s hs hn
    have hp := (rank_eq s).2.2.1.1 hn
    simp only [step, signalStep, if_pos hp]
    simp [rank])
  obtain ⟨d4, k4⟩ := stage cfg _ d3 3 .tx h₄ k3 (by
    intro s hs hn
    have hp := (rank_eq s).2.2.2.1.1 hn
    obtain ⟨e, he⟩ := hs.raised
    have hst : s.stop = true := by
      rcases hs.inv.told e he with a | a | a
      · exact a
      · rw [hp] at a; cases a
      · rw [hp] at a; cases a
    simp only [step, txStep, if_pos hp, if_pos hst, rank]
    split <;> omega)
  obtain ⟨d5, k5⟩ := stage cfg _ d4 4 (.rx r₃) h₅ k4 (by
    intro s hs hn
    have hp := (rank_eq s).2.2.2.2.1.1 hn
    simp only [step, rxStep, hp.2, hp.1]
    simp [rank])
  obtain ⟨d6, k6⟩ := stage cfg _ d5 5 .finish h₆ k5 (by
    intro s hs hn
    have hp := (rank_eq s).2.2.2.2.2.1 hn
    simp only [step, finishStep, if_pos hp]
    simp [rank])
  exact rank_dead k6

/-- With `auto_reopen=False`, except on Windows, nothing is ever received: all that the RX worker reports is `AttributeError`. -/
theorem C132_no_reopen (h : List Step) (i : Item) (hi : .reported i ∈ (run ⟨false, false⟩ h).trace) : i = .exc .attributeError := by
  rcases reported_steps ⟨false, false⟩ h {} i hi with hi | ⟨f, -, hf⟩ | ⟨e, rfl, he⟩
  · cases hi
  · simp at hf
  · rw [he rfl rfl]

/-- The RX worker's thread ends with the thousandth exception in a row. -/
theorem C132_gives_up (h : List Step) (r : Read) (ht : (run ⟨false, false⟩ h).thread = true) (he : (run ⟨false, false⟩ h).errors = 0)
    (hp : (run ⟨false, false⟩ h).phase ≠ .ending) (n : Nat) :
    (run ⟨false, false⟩ (h ++ List.replicate n (.rx r))).thread = decide (n < 1000) := by
  unfold run at *
  unfold steps at *
  rw [List.foldl_append]
  generalize h.foldl (step ⟨false, false⟩) {} = s at *
  have key : ∀ n, ((List.replicate n (Step.rx r)).foldl (step ⟨false, false⟩) s).thread = decide (n < 1000) ∧
      (n ≤ 1000 → ((List.replicate n (Step.rx r)).foldl (step ⟨false, false⟩) s).errors = n) ∧
      ((List.replicate n (Step.rx r)).foldl (step ⟨false, false⟩) s).phase = s.phase := by
    intro n
    induction n with
    | zero => exact ⟨ht, fun _ => he, rfl⟩
    | succ n ih =>
      obtain ⟨i1, i2, i3⟩ := ih
      rw [List.replicate_succ', List.foldl_append]
      generalize (List.replicate n (Step.rx r)).foldl (step ⟨false, false⟩) s = t at *
      simp only [List.foldl_cons, List.foldl_nil, step, rxStep]
      by_cases hn : n < 1000
      · have i1 : t.thread = true := by rw [i1]; simp [hn]
        have i2 := i2 (by omega)
        rw [if_neg (by rw [i1]; simp), if_neg (by rw [i3]; exact hp)]
        simp only [readPort]
        refine ⟨?_, ?_, i3⟩
        · simp [i2, maxErrors]
        · intro _; simp [i2]
      · have i1 : t.thread = false := by rw [i1]; simp [hn]
        rw [if_pos i1]
        refine ⟨?_, fun h => ?_, i3⟩
        · rw [i1]; simp; omega
        · omega
  exact (key n).1

example : (run ⟨false, false⟩ [.opens none, .inits none]).thread = true ∧ (run ⟨false, false⟩ [.opens none, .inits none]).errors = 0 ∧
    (run ⟨false, false⟩ [.opens none, .inits none]).phase ≠ .ending := by decide +kernel

/-- What holds of C132, if the RX worker has reported nothing before the end of the initialisation. (Missing: that it has; frames are lost then,
`C132_lost_counterexample`, and exceptions are raised, `C132_counterexample`; and `auto_reopen=False`, `C132_no_reopen`.) -/
theorem C132_partial (cfg : Config) (hcfg : cfg.reopen = true ∨ cfg.windows = true) (h : List Step)
    (hq : ∀ i a b, (run cfg h).trace = a ++ .reported i :: b → .signalled ∈ a) :
    (∀ t, .returned t ∈ (run cfg h).trace → framesIn (run cfg h).rxq = reportedOf (run cfg h).trace) ∧
    (∀ e t, .raised e t ∈ (run cfg h).trace → .failed e ∈ (run cfg h).trace ∨ e = .driverError ∧ (10000 < t ∨ .died ∈ (run cfg h).trace)) ∧
    (∀ f, (run cfg h).ctor = .returned → (run cfg h).phase = .running → (run cfg h).thread = true →
      .reported (.frame f) ∈ (run cfg (h ++ [.rx { frames := [f] }])).trace) := by
  have none_before : ∀ (lost : List CANFrame) (i : Item) (rest : List Item), (∀ f, i ≠ .frame f) →
      putsOf (run cfg h).trace = lost.map .frame ++ i :: rest → (∀ e, i = .exc e → .failed e ∉ (run cfg h).trace) → lost = [] ∧ i = .ok := by
    intro lost i rest hi hp hf
    by_cases hs : .signalled ∈ (run cfg h).trace
    · obtain ⟨a, b, hab, hfirst⟩ := List.eq_append_cons_of_mem hs
      have hno : ∀ i, Ev.reported i ∉ a := by
        intro i hi
        obtain ⟨c, d, hcd⟩ := List.append_of_mem hi
        exact hfirst (by rw [hcd]; exact List.mem_append_left _ (hq i c (d ++ .signalled :: b) (by rw [hab, hcd]; simp)))
      rw [hab, putsOf_append] at hp
      have hb : putsOf (Ev.signalled :: b) = .ok :: putsOf b := rfl
      rw [hb] at hp
      -- before the signal only failures have been put
      have ha : ∀ j ∈ putsOf a, ∃ e, j = .exc e ∧ .failed e ∈ a := by
        intro j hj
        simp only [putsOf, List.mem_filterMap] at hj
        obtain ⟨y, hy, hj⟩ := hj
        cases y with
        | failed e => simp at hj; exact ⟨e, hj.symm, hy⟩
        | reported j => exact absurd hy (hno j)
        | signalled => exact absurd hy hfirst
        | _ => simp at hj
      cases hpa : putsOf a with
      | nil =>
        rw [hpa] at hp
        cases lost with
        | nil => exact ⟨rfl, by simp at hp; exact hp.1.symm⟩
        | cons f lost => simp at hp
      | cons j js =>
        rw [hpa] at hp
        obtain ⟨e, rfl, he⟩ := ha j (by rw [hpa]; exact List.mem_cons_self ..)
        cases lost with
        | nil =>
          simp at hp
          exact absurd (by rw [hab]; exact List.mem_append_left _ he) (hf e hp.1.symm)
        | cons f lost => simp at hp
    · have hno : ∀ i, Ev.reported i ∉ (run cfg h).trace := by
        intro i hi
        obtain ⟨c, d, hcd⟩ := List.append_of_mem hi
        exact hs (by rw [hcd]; exact List.mem_append_left _ (hq i c d hcd))
      have ha : ∀ j ∈ putsOf (run cfg h).trace, ∃ e, j = .exc e ∧ .failed e ∈ (run cfg h).trace := by
        intro j hj
        simp only [putsOf, List.mem_filterMap] at hj
        obtain ⟨y, hy, hj⟩ := hj
        cases y with
        | failed e => simp at hj; exact ⟨e, hj.symm, hy⟩
        | reported j => exact absurd hy (hno j)
        | signalled => exact absurd hy hs
        | _ => simp at hj
      cases lost with
      | nil =>
        obtain ⟨e, rfl, he⟩ := ha i (by rw [hp]; simp)
        exact absurd he (hf e rfl)
      | cons f lost =>
        obtain ⟨e, he, -⟩ := ha (.frame f) (by rw [hp]; simp)
        cases he
  refine ⟨?_, ?_, ?_⟩
  · intro t ht
    obtain ⟨-, lost, hl⟩ := C132_returned cfg h t ht
    obtain ⟨rfl, -⟩ := none_before lost .ok _ (by simp) hl (by simp)
    rw [reported_puts, hl]
    rfl
  · intro e t ht
    rcases C132_raised cfg h e t ht with ⟨lost, rest, hl⟩ | hh
    · by_cases hf : .failed e ∈ (run cfg h).trace
      · exact Or.inl hf
      · obtain ⟨-, he⟩ := none_before lost (.exc e) rest (by simp) hl (by intro e' he'; cases he'; exact hf)
        cases he
    · exact Or.inr hh
  · intro f hc hp ht
    have : run cfg (h ++ [.rx { frames := [f] }]) = rxStep cfg { frames := [f] } (run cfg h) := by simp [run, steps, step]
    rw [this]
    simp only [rxStep]
    rw [if_neg (by rw [ht]; simp), if_neg (by rw [hp]; simp)]
    have : readPort cfg { frames := [f] } = { frames := [f] } := by
      simp only [readPort]
      rcases hcfg with hh | hh <;> simp [hh]
    rw [this]
    simp

/-- A frame that the RX worker reports before the end of the initialisation is lost. -/
theorem C132_lost_counterexample : ¬ ∀ (cfg : Config) (h : List Step) (t : Nat), .returned t ∈ (run cfg h).trace →
    framesIn (run cfg h).rxq = reportedOf (run cfg h).trace := by
  intro hh
  exact absurd (hh {} [.opens none, .inits none, .rx { frames := [⟨5, [], true, false⟩] }, .signal, .main, .main] 0 (by decide +kernel)) (by decide +kernel)

/-- With `auto_reopen=False` the constructor raises `AttributeError` although the adapter has been initialised; or it returns, and nothing is received. -/
theorem C132_counterexample : ¬ C132_statement := by
  intro hh
  have h2 := (hh ⟨false, false⟩ [.opens none, .inits none, .rx {}, .signal, .main]).2.1 .attributeError 0 (by decide +kernel)
  revert h2
  decide +kernel

theorem C132_deaf_counterexample : ¬ ∀ (cfg : Config) (h : List Step) (f : CANFrame), (run cfg h).ctor = .returned → (run cfg h).phase = .running →
    (run cfg h).thread = true → .reported (.frame f) ∈ (run cfg (h ++ [.rx { frames := [f] }])).trace := by
  intro hh
  have := hh ⟨false, false⟩ [.opens none, .inits none, .signal, .main] ⟨5, [], true, false⟩ (by decide +kernel) (by decide +kernel) (by decide +kernel)
  revert this
  decide +kernel

/-! ## Examples -/

/-- A device is opened, and a frame received. -/
def opened : List Step := [.opens none, .tick 2000, .inits none, .signal, .main, .rx { frames := [⟨5, [], true, false⟩] }]

example : (run {} opened).trace = [.initialised, .signalled, .returned 2000, .reported (.frame ⟨5, [], true, false⟩)] ∧
    framesIn (run {} opened).rxq = [⟨5, [], true, false⟩] ∧ (run {} opened).phase = .running ∧ (run {} opened).thread = true := by decide +kernel

/-- The hypothesis of `C132_partial`. -/
example : ∀ i a b, (run {} opened).trace = a ++ .reported i :: b → .signalled ∈ a := by
  have : (run {} opened).trace = [.initialised, .signalled, .returned 2000, .reported (.frame ⟨5, [], true, false⟩)] := by decide +kernel
  rw [this]
  intro i a b h
  rcases a with _ | ⟨x, _ | ⟨y, a⟩⟩
  · simp at h
  · simp at h
  · simp at h
    rw [← h.2.1]
    simp

/-- The adapter does not answer: the exception of `_init_adapter` is raised. The bit rate is not supported. -/
example : (run {} [.opens none, .tick 5000, .inits (some .driverError), .main]).trace = [.failed .driverError, .raised .driverError 5000] ∧
    (run {} [.opens none, .inits (some .keyError), .main, .finish]).trace = [.failed .keyError, .raised .keyError 0, .died] := by decide +kernel

/-- The adapter is slow: the constructor gives up; the process ends when it has initialised the adapter. -/
example : (run {} [.opens none, .tick 10000, .main, .tick 10000, .main, .inits none, .signal, .tx, .rx {}, .finish]).trace =
    [.raised .driverError 20000, .initialised, .signalled, .died] := by decide +kernel

/-- `C132_patient` applies: a frame is read before the end of the initialisation. -/
example : (run ⟨true, false⟩ [.opens none, .inits none, .rx { frames := [⟨1, [], true, false⟩] }, .tick 5]).rxq = [.frame ⟨1, [], true, false⟩] ∧
    (run ⟨true, false⟩ [.opens none, .inits none, .rx { frames := [⟨1, [], true, false⟩] }, .tick 5]).ctor = .waiting 10000 := by decide +kernel

end SlcanOpen
end Dronecan
