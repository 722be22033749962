import Verif.Model.RetrySerial

/-!
# C134: two threads share the serial port
-/

namespace Dronecan
namespace RetrySerial

/-! ## Specification -/

/-- The thread is within the part of `retry` that the lock protects. -/
def Phase.locked : Phase → Bool
  | .closing => true
  | .opening => true
  | .init _ _ _ => true
  | _ => false

/-- The port in use works. -/
def Healthy (s : State) : Prop := s.isOpen s.cur = true ∧ s.alive s.cur = true

/-- Nobody is reopening the port; it works, and the adapter is ready. -/
def Ready (s : State) : Prop := s.lock = none ∧ Healthy s ∧ s.channel = true

/-- The device is not unplugged. -/
def Plugged (steps : List Step) : Prop := Step.unplug ∉ steps

/-! ## The lock and the ports -/

/-- What always holds. -/
structure Inv (s : State) : Prop where
  open_cur : ∀ p, s.isOpen p = true → p = s.cur
  lock_iff : ∀ t, (s.phase t).locked = true ↔ s.lock = some t
  opening : ∀ t, s.phase t = .opening → s.isOpen s.cur = false
  init : ∀ t p todo left, s.phase t = .init p todo left → p = s.cur ∧ s.isOpen p = true
  busy : ∀ t p, s.phase t = .busy p → p ≤ s.cur

theorem inv_init : Inv {} where
  open_cur p h := by simpa using h
  lock_iff t := by simp [Phase.locked]
  opening t h := by cases h
  init t p todo left h := by cases h
  busy t p h := by cases h

/-- A thread goes from one phase to another, of the same side of the lock. -/
theorem Inv.to {s : State} (h : Inv s) (t : Tid) (ph : Phase) (hl : ph.locked = (s.phase t).locked)
    (ho : ph = .opening → s.isOpen s.cur = false) (hi : ∀ p todo left, ph = .init p todo left → p = s.cur ∧ s.isOpen p = true)
    (hb : ∀ p, ph = .busy p → p ≤ s.cur) : Inv (s.to t ph) where
  open_cur := h.open_cur
  lock_iff u := by
    by_cases hu : u = t
    · subst hu; simp only [State.to, if_true, hl]; exact h.lock_iff u
    · simp only [State.to, if_neg hu]; exact h.lock_iff u
  opening u hp := by
    by_cases hu : u = t
    · subst hu; simp only [State.to, if_true] at hp; exact ho hp
    · simp only [State.to, if_neg hu] at hp; exact h.opening u hp
  init u p todo left hp := by
    by_cases hu : u = t
    · subst hu; simp only [State.to, if_true] at hp; exact hi p todo left hp
    · simp only [State.to, if_neg hu] at hp; exact h.init u p todo left hp
  busy u p hp := by
    by_cases hu : u = t
    · subst hu; simp only [State.to, if_true] at hp; exact hb p hp
    · simp only [State.to, if_neg hu] at hp; exact h.busy u p hp

/-- Changes that do not concern the threads and the ports. -/
theorem Inv.same {s s' : State} (h : Inv s) (h1 : s'.cur = s.cur) (h2 : s'.isOpen = s.isOpen) (h3 : s'.lock = s.lock) (h4 : s'.phase = s.phase) : Inv s' where
  open_cur := by rw [h1, h2]; exact h.open_cur
  lock_iff := by rw [h3, h4]; exact h.lock_iff
  opening := by rw [h1, h2, h4]; exact h.opening
  init := by rw [h1, h2, h4]; exact h.init
  busy := by rw [h1, h4]; exact h.busy

theorem inv_release {s : State} (h : Inv s) (t : Tid) (hl : s.lock = some t) : Inv (release t s) where
  open_cur := h.open_cur
  lock_iff u := by
    by_cases hu : u = t
    · subst hu; simp [release, State.to, Phase.locked]
    · have hlu : (s.phase u).locked = false := by
        rw [← Bool.not_eq_true, h.lock_iff u, hl]
        intro hh; exact hu (Option.some.inj hh).symm
      simp [release, State.to, hu, hlu]
  opening u hp := by
    by_cases hu : u = t
    · subst hu; simp [release, State.to] at hp
    · simp only [release, State.to, if_neg hu] at hp; exact h.opening u hp
  init u p todo left hp := by
    by_cases hu : u = t
    · subst hu; simp [release, State.to] at hp
    · simp only [release, State.to, if_neg hu] at hp; exact h.init u p todo left hp
  busy u p hp := by
    by_cases hu : u = t
    · subst hu; simp [release, State.to] at hp
    · simp only [release, State.to, if_neg hu] at hp; exact h.busy u p hp

theorem inv_failInit {s : State} (h : Inv s) (t : Tid) (p left : Nat) (hl : s.lock = some t) (hp : p = s.cur ∧ s.isOpen p = true) :
    Inv (failInit t p left s) := by
  cases left with
  | zero => exact inv_release h t hl
  | succ n =>
    refine h.to t _ ?_ (by intro hh; cases hh) (by intro q td l hh; cases hh; exact hp) (by intro q hh; cases hh)
    rw [(h.lock_iff t).2 hl]; rfl

theorem inv_initStep {s : State} (h : Inv s) (t : Tid) (p : Nat) (todo : List Micro) (left : Nat) (hph : s.phase t = .init p todo left) :
    Inv (initStep t p todo left s) := by
  have hl : s.lock = some t := (h.lock_iff t).1 (by rw [hph]; rfl)
  have hp := h.init t p todo left hph
  have hto : ∀ {s' : State} (td : List Micro) (l : Nat), Inv s' → s'.lock = s.lock → s'.cur = s.cur → s'.isOpen = s.isOpen → Inv (s'.to t (.init p td l)) := by
    intro s' td l h' hl' hc' ho'
    refine h'.to t _ ?_ (by intro hh; cases hh) (by intro q td l hh; cases hh; rw [hc', ho']; exact hp) (by intro q hh; cases hh)
    rw [(h'.lock_iff t).2 (hl'.trans hl)]; rfl
  have hbuf : ∀ (buf : List Bool) (td : List Micro) (l : Nat), Inv ({ s.to t (.init p td l) with buf := buf }) := fun buf td l =>
    (hto td l h rfl rfl rfl).same rfl rfl rfl rfl
  unfold initStep
  cases todo with
  | nil => exact inv_release h t hl
  | cons m rest =>
    simp only []
    split
    · exact inv_failInit h t p left hl hp
    · cases m with
      | cmd c => exact hto rest left (h.same rfl rfl rfl rfl) rfl rfl rfl
      | flush => exact hbuf [] rest left
      | ack required =>
        simp only []
        split
        · exact hbuf _ rest left
        · split
          · refine inv_failInit ?_ t p left ?_ ?_
            · exact h.same rfl rfl rfl rfl
            · exact hl
            · exact hp
          · exact hbuf _ rest left
        · split
          · exact inv_failInit h t p left hl hp
          · exact hto rest left h rfl rfl rfl

theorem inv_go {s : State} (h : Inv s) (t : Tid) : Inv (goStep t s) := by
  unfold goStep
  split
  · rename_i hph
    exact h.to t _ (by rw [hph]; rfl) (by intro hh; cases hh) (by intro p td l hh; cases hh) (by intro p hh; cases hh)
  · rename_i hph
    split
    · rename_i hl
      have hno : ∀ u, (s.phase u).locked = false := by
        intro u; rw [← Bool.not_eq_true, h.lock_iff u, hl]; simp
      exact {
        open_cur := h.open_cur
        lock_iff := by
          intro u
          by_cases hu : u = t
          · subst hu; simp [State.to, Phase.locked]
          · simp only [State.to, if_neg hu, hno u]
            exact ⟨(fun hh => nomatch hh), fun hh => absurd (Option.some.inj hh).symm hu⟩
        opening := by
          intro u hp
          by_cases hu : u = t
          · subst hu; simp [State.to] at hp
          · simp only [State.to, if_neg hu] at hp; exact h.opening u hp
        init := by
          intro u p td l hp
          by_cases hu : u = t
          · subst hu; simp [State.to] at hp
          · simp only [State.to, if_neg hu] at hp; exact h.init u p td l hp
        busy := by
          intro u p hp
          by_cases hu : u = t
          · subst hu; simp [State.to] at hp
          · simp only [State.to, if_neg hu] at hp; exact h.busy u p hp }
    · exact h
  · rename_i hph
    have hl : s.lock = some t := (h.lock_iff t).1 (by rw [hph]; rfl)
    have hne : ∀ u, u ≠ t → (s.phase u).locked = false := by
      intro u hu; rw [← Bool.not_eq_true, h.lock_iff u, hl]
      intro hh; exact hu (Option.some.inj hh).symm
    exact {
      open_cur := by
        intro p hp
        by_cases hc : p = s.cur
        · exact hc
        · simp only [State.to, if_neg hc] at hp; exact h.open_cur p hp
      lock_iff := by
        intro u
        by_cases hu : u = t
        · subst hu; simp [State.to, Phase.locked, hl]
        · simp only [State.to, if_neg hu]; exact h.lock_iff u
      opening := by intro u hp; simp [State.to]
      init := by
        intro u p td l hp
        by_cases hu : u = t
        · subst hu; simp [State.to] at hp
        · simp only [State.to, if_neg hu] at hp
          have := hne u hu; rw [hp] at this; cases this
      busy := by
        intro u p hp
        by_cases hu : u = t
        · subst hu; simp [State.to] at hp
        · simp only [State.to, if_neg hu] at hp; exact h.busy u p hp }
  · rename_i hph
    have hl : s.lock = some t := (h.lock_iff t).1 (by rw [hph]; rfl)
    have hcl := h.opening t hph
    have hne : ∀ u, u ≠ t → (s.phase u).locked = false := by
      intro u hu; rw [← Bool.not_eq_true, h.lock_iff u, hl]
      intro hh; exact hu (Option.some.inj hh).symm
    split
    · exact {
        open_cur := by
          intro p hp
          by_cases hc : p = s.cur + 1
          · exact hc
          · simp only [State.to, if_neg hc] at hp
            have := h.open_cur p hp
            subst this; rw [hcl] at hp; cases hp
        lock_iff := by
          intro u
          by_cases hu : u = t
          · subst hu; simp [State.to, Phase.locked, hl]
          · simp only [State.to, if_neg hu]; exact h.lock_iff u
        opening := by
          intro u hp
          by_cases hu : u = t
          · subst hu; simp [State.to] at hp
          · simp only [State.to, if_neg hu] at hp
            have := hne u hu; rw [hp] at this; cases this
        init := by
          intro u p td l hp
          by_cases hu : u = t
          · subst hu; simp only [State.to, if_true, Phase.init.injEq] at hp
            obtain ⟨rfl, _⟩ := hp; simp
          · simp only [State.to, if_neg hu] at hp
            have := hne u hu; rw [hp] at this; cases this
        busy := by
          intro u p hp
          by_cases hu : u = t
          · subst hu; simp [State.to] at hp
          · simp only [State.to, if_neg hu] at hp; exact Nat.le_succ_of_le (h.busy u p hp) }
    · exact inv_release h t hl
  · rename_i p todo left hph
    exact inv_initStep h t p todo left hph
  · exact h

theorem inv_step {s : State} (h : Inv s) (x : Step) : Inv (step s x) := by
  cases x with
  | start t =>
    simp only [step]
    split
    · rename_i hph
      exact h.to t _ (by rw [hph]; rfl) (by intro hh; cases hh) (by intro p td l hh; cases hh) (by intro p hh; cases hh; exact Nat.le_refl _)
    · exact h
  | finish t =>
    simp only [step]
    split
    · rename_i p hph
      split
      · have : Inv (effect t s) := by cases t <;> exact h.same rfl rfl rfl rfl
        refine this.to t _ ?_ (by intro hh; cases hh) (by intro p td l hh; cases hh) (by intro p hh; cases hh)
        have hp : (effect t s).phase = s.phase := by cases t <;> rfl
        rw [hp, hph]; rfl
      · exact h.to t _ (by rw [hph]; rfl) (by intro hh; cases hh) (by intro p td l hh; cases hh) (by intro p hh; cases hh)
    · exact h
  | lapse =>
    simp only [step]
    split
    · rename_i p hph
      split
      · exact h
      · exact h.to .rx _ (by rw [hph]; rfl) (by intro hh; cases hh) (by intro p td l hh; cases hh) (by intro p hh; cases hh)
    · exact h
  | go t => exact inv_go h t
  | unplug => exact h.same rfl rfl rfl rfl
  | plug => exact h.same rfl rfl rfl rfl

theorem inv_run (steps : List Step) : ∀ {s : State}, Inv s → Inv (run steps s) := by
  induction steps with
  | nil => intro s h; exact h
  | cons x xs ih => intro s h; exact ih (inv_step h x)

/-- However the threads interleave, and whatever happens to the device: at most one port is open, the one in use; and the threads do not
reopen it at the same time. -/
theorem C134_one (steps : List Step) (p q : Nat) (hp : (run steps {}).isOpen p = true) (hq : (run steps {}).isOpen q = true) : p = q :=
  ((inv_run steps inv_init).open_cur p hp).trans ((inv_run steps inv_init).open_cur q hq).symm

/-- The part of `retry` that the lock protects is executed by one thread at a time. -/
theorem C134_lock (steps : List Step) : ¬ (((run steps {}).phase .rx).locked = true ∧ ((run steps {}).phase .tx).locked = true) := by
  rintro ⟨h1, h2⟩
  have h := inv_run steps inv_init
  have := ((h.lock_iff .rx).1 h1).symm.trans ((h.lock_iff .tx).1 h2)
  cases this

theorem heard_step (s : State) (x : Step) (h : s.heard.map (·.1) = List.range s.written) :
    (step s x).heard.map (·.1) = List.range (step s x).written := by
  have hfail : ∀ t p left (s : State), s.heard.map (·.1) = List.range s.written → (failInit t p left s).heard.map (·.1) = List.range (failInit t p left s).written := by
    intro t p left s h; cases left <;> exact h
  cases x with
  | start t => simp only [step]; split <;> exact h
  | finish t =>
    simp only [step]
    split
    · split
      · cases t
        · exact h
        · simp [effect, State.to, h, List.range_succ]
      · exact h
    · exact h
  | lapse => simp only [step]; split <;> (try split) <;> exact h
  | go t =>
    simp only [step, goStep]
    split
    · exact h
    · split <;> exact h
    · exact h
    · split <;> exact h
    · unfold initStep
      split
      · exact h
      · split
        · exact hfail _ _ _ _ h
        · split
          · exact h
          · exact h
          · split
            · exact h
            · split
              · exact hfail _ _ _ _ h
              · exact h
            · split
              · exact hfail _ _ _ _ h
              · exact h
    · exact h
  | unplug => exact h
  | plug => exact h

/-- The lines reach an adapter once each, in order: none is skipped or repeated by reopening the port. -/
theorem C134_lines (steps : List Step) : (run steps {}).heard.map (·.1) = List.range (run steps {}).written := by
  suffices H : ∀ s : State, s.heard.map (·.1) = List.range s.written → (run steps s).heard.map (·.1) = List.range (run steps s).written from H {} rfl
  induction steps with
  | nil => intro s h; exact h
  | cons x xs ih => intro s h; exact ih _ (heard_step s x h)

/-- As long as the device is not unplugged, the port is never reopened, and all lines are heard. -/
theorem C134_normal (steps : List Step) (h : Plugged steps) :
    (run steps {}).closed = 0 ∧ Ready (run steps {}) ∧ ∀ x ∈ (run steps {}).heard, x.2 = true := by
  suffices H : ∀ s : State, s.closed = 0 → Ready s → (∀ x ∈ s.heard, x.2 = true) → (∀ t, s.phase t = .idle ∨ s.phase t = .busy s.cur) →
      (run steps s).closed = 0 ∧ Ready (run steps s) ∧ ∀ x ∈ (run steps s).heard, x.2 = true from
    H {} rfl ⟨rfl, ⟨rfl, rfl⟩, rfl⟩ (by simp) (fun _ => .inl rfl)
  induction steps with
  | nil => intro s h1 h2 h3 _; exact ⟨h1, h2, h3⟩
  | cons x xs ih =>
    intro s h1 h2 h3 h4
    have hx : x ≠ .unplug := fun hh => h (by rw [hh]; exact List.mem_cons_self)
    have hxs : Plugged xs := fun hh => h (List.mem_cons_of_mem _ hh)
    obtain ⟨hl, ⟨ho, ha⟩, hc⟩ := h2
    have hto : ∀ (s' : State) (t : Tid) (ph : Phase), s'.phase = s.phase → s'.cur = s.cur → ph = .idle ∨ ph = .busy s.cur →
        ∀ u, (s'.to t ph).phase u = .idle ∨ (s'.to t ph).phase u = .busy (s'.to t ph).cur := by
      intro s' t ph e1 e2 e3 u
      simp only [State.to, e1, e2]
      split
      · exact e3
      · exact h4 u
    suffices G : (step s x).closed = 0 ∧ Ready (step s x) ∧ (∀ y ∈ (step s x).heard, y.2 = true) ∧
        (∀ t, (step s x).phase t = .idle ∨ (step s x).phase t = .busy (step s x).cur) from
      ih hxs (step s x) G.1 G.2.1 G.2.2.1 G.2.2.2
    cases x with
    | unplug => exact absurd rfl hx
    | plug => exact ⟨h1, ⟨hl, ⟨ho, ha⟩, hc⟩, h3, h4⟩
    | start t =>
      simp only [step]
      split
      · exact ⟨h1, ⟨hl, ⟨ho, ha⟩, hc⟩, h3, hto s t _ rfl rfl (.inr rfl)⟩
      · exact ⟨h1, ⟨hl, ⟨ho, ha⟩, hc⟩, h3, h4⟩
    | finish t =>
      simp only [step]
      split
      · rename_i p hp
        have hpc : p = s.cur := by
          rcases h4 t with e | e
          · rw [e] at hp; cases hp
          · rw [e] at hp; cases hp; rfl
        rw [hpc, ho, ha]
        simp only [Bool.and_self, if_true]
        cases t
        · exact ⟨h1, ⟨hl, ⟨ho, ha⟩, hc⟩, h3, hto { s with buf := [] } .rx _ rfl rfl (.inl rfl)⟩
        · refine ⟨h1, ⟨hl, ⟨ho, ha⟩, hc⟩, ?_, hto (effect .tx s) .tx _ rfl rfl (.inl rfl)⟩
          intro y hy
          rcases List.mem_append.1 hy with hy | hy
          · exact h3 y hy
          · rw [List.mem_singleton.1 hy]; exact hc
      · exact ⟨h1, ⟨hl, ⟨ho, ha⟩, hc⟩, h3, h4⟩
    | lapse =>
      simp only [step]
      split
      · split
        · exact ⟨h1, ⟨hl, ⟨ho, ha⟩, hc⟩, h3, h4⟩
        · exact ⟨h1, ⟨hl, ⟨ho, ha⟩, hc⟩, h3, hto s .rx _ rfl rfl (.inl rfl)⟩
      · exact ⟨h1, ⟨hl, ⟨ho, ha⟩, hc⟩, h3, h4⟩
    | go t =>
      have e : goStep t s = s := by
        unfold goStep
        rcases h4 t with e | e <;> rw [e]
      simp only [step, e]
      exact ⟨h1, ⟨hl, ⟨ho, ha⟩, hc⟩, h3, h4⟩

/-! ## If the threads do not get in each other's way -/

/-- The step does not get in the way of a thread that reopens the port: no operation begins meanwhile, and none is in progress when it
begins; and the device is not unplugged. -/
def CalmStep (s : State) (x : Step) : Prop :=
  x ≠ .unplug ∧ (∀ t, x = .start t → s.lock = none) ∧
    ∀ t, x = .go t → s.phase t = .waiting → s.lock = none → ∀ u p, s.phase u ≠ .busy p

/-- All steps are so. -/
def Calm : List Step → State → Prop
  | [], _ => True
  | x :: xs, s => CalmStep s x ∧ Calm xs (step s x)

/-- Some thread is about to close the port. -/
def someClosing (s : State) : Bool := s.phase .rx == .closing || s.phase .tx == .closing

/-- The port works, or will when the lock is released. -/
def good (s : State) : Bool :=
  match s.lock with
  | none => s.isOpen s.cur && s.alive s.cur
  | some t => match s.phase t with
    | .init p _ _ => s.alive p
    | _ => true

/-- How many times the thread may still close the port. -/
def pot (s : State) (t : Tid) : Nat :=
  match s.phase t with
  | .failed => 1
  | .waiting => 1
  | .closing => 1
  | .opening => 0
  | .init p _ _ => if s.alive p then 0 else 1
  | .idle => if good s then 0 else 1
  | .busy p => if p = s.cur ∧ s.isOpen p = true ∧ s.alive p = true ∧ someClosing s = false then 0 else 1

theorem pot_le (s : State) (t : Tid) : pot s t ≤ 1 := by
  unfold pot
  split <;> (try split) <;> omega

theorem Inv.unlocked {s : State} (h : Inv s) (hl : s.lock = none) (t : Tid) : (s.phase t).locked = false := by
  rw [← Bool.not_eq_true, h.lock_iff t, hl]; simp

theorem Inv.other {s : State} (h : Inv s) {t : Tid} (hl : s.lock = some t) {u : Tid} (hu : u ≠ t) : (s.phase u).locked = false := by
  rw [← Bool.not_eq_true, h.lock_iff u, hl]
  intro hh; exact hu (Option.some.inj hh).symm

theorem not_closing {s : State} (h : ∀ t, s.phase t ≠ .closing) : someClosing s = false := by
  simp [someClosing, h .rx, h .tx]

theorem is_closing {s : State} (t : Tid) (h : s.phase t = .closing) : someClosing s = true := by
  cases t <;> simp [someClosing, h]

/-- Only the phase of `t` has changed, not to or from the protected part. -/
theorem pot_other {s s' : State} (h : Inv s) (t : Tid) (h1 : s'.cur = s.cur) (h2 : s'.isOpen = s.isOpen) (h3 : s'.alive = s.alive) (h4 : s'.lock = s.lock)
    (h5 : ∀ u, u ≠ t → s'.phase u = s.phase u) (h6 : (s.phase t).locked = false) (h7 : (s'.phase t).locked = false) (u : Tid) (hu : u ≠ t) :
    good s' = good s ∧ someClosing s' = someClosing s ∧ pot s' u = pot s u := by
  have hlt : s.lock ≠ some t := fun hh => by rw [(h.lock_iff t).2 hh] at h6; cases h6
  have hg : good s' = good s := by
    unfold good
    rw [h4]
    cases hl : s.lock with
    | none => simp only [h1, h2, h3]
    | some v =>
      have hv : v ≠ t := fun hh => hlt (by rw [hl, hh])
      simp only [h5 v hv, h3]
  have hc : someClosing s' = someClosing s := by
    have e : ∀ v, (s'.phase v == .closing) = (s.phase v == .closing) := by
      intro v
      by_cases hv : v = t
      · subst hv
        have a : s.phase v ≠ .closing := fun hh => by rw [hh] at h6; cases h6
        have b : s'.phase v ≠ .closing := fun hh => by rw [hh] at h7; cases h7
        rw [beq_eq_false_iff_ne.2 a, beq_eq_false_iff_ne.2 b]
      · rw [h5 v hv]
    simp only [someClosing, e]
  refine ⟨hg, hc, ?_⟩
  unfold pot
  rw [h5 u hu, hg, hc, h1, h2, h3]

theorem two (s s' : State) (t : Tid) (h1 : ∀ u, u ≠ t → pot s' u ≤ pot s u) (h2 : s'.closed + pot s' t ≤ s.closed + pot s t) :
    s'.closed + pot s' .rx + pot s' .tx ≤ s.closed + pot s .rx + pot s .tx := by
  cases t
  · have := h1 .tx (by decide); omega
  · have := h1 .rx (by decide); omega

theorem to_self (s : State) (t : Tid) (ph : Phase) : (s.to t ph).phase t = ph := by simp [State.to]

theorem to_other (s : State) (t : Tid) (ph : Phase) (u : Tid) (hu : u ≠ t) : (s.to t ph).phase u = s.phase u := by simp [State.to, hu]

theorem idle_pot (s : State) (t : Tid) (h : s.phase t = .idle) : pot s t = if good s then 0 else 1 := by simp only [pot, h]

/-- The end of the protected part. -/
theorem pot_release {s : State} (h : Inv s) (t : Tid) (p : Nat) (todo : List Micro) (left : Nat) (hph : s.phase t = .init p todo left) :
    (release t s).closed + pot (release t s) .rx + pot (release t s) .tx ≤ s.closed + pot s .rx + pot s .tx := by
  have hl : s.lock = some t := (h.lock_iff t).1 (by rw [hph]; rfl)
  obtain ⟨hp, ho⟩ := h.init t p todo left hph
  have hg : good (release t s) = good s := by
    simp only [good, release, State.to, hl, hph]
    rw [← hp, ho]; simp
  have hgs : good s = s.alive p := by simp only [good, hl, hph]
  have hc : someClosing s = false := not_closing fun u hu => by
    by_cases hut : u = t
    · subst hut; rw [hph] at hu; cases hu
    · have := h.other hl hut; rw [hu] at this; cases this
  have hc' : someClosing (release t s) = false := not_closing fun u hu => by
    by_cases hut : u = t
    · subst hut; simp [release, State.to] at hu
    · simp only [release, State.to, if_neg hut] at hu
      have := h.other hl hut; rw [hu] at this; cases this
  refine two _ _ t ?_ ?_
  · intro u hu
    have : (release t s).phase u = s.phase u := by simp [release, State.to, hu]
    unfold pot
    rw [this, hg, hc, hc']
    exact Nat.le_refl _
  · have h1 : pot (release t s) t = if good (release t s) then 0 else 1 := idle_pot _ _ (by simp [release, State.to])
    have h2 : pot s t = if s.alive p then 0 else 1 := by simp only [pot, hph]
    rw [h1, h2, hg, hgs]
    exact Nat.le_refl _

/-- Going on within `_init_adapter`. -/
theorem pot_init {s s' : State} (h : Inv s) (t : Tid) (p : Nat) (todo : List Micro) (left : Nat) (hph : s.phase t = .init p todo left)
    (h1 : s'.cur = s.cur) (h2 : s'.isOpen = s.isOpen) (h3 : s'.alive = s.alive) (h4 : s'.lock = s.lock)
    (h5 : ∀ u, u ≠ t → s'.phase u = s.phase u) (h6 : ∃ todo' left', s'.phase t = .init p todo' left') (h7 : s'.closed = s.closed) :
    s'.closed + pot s' .rx + pot s' .tx ≤ s.closed + pot s .rx + pot s .tx := by
  have hl : s.lock = some t := (h.lock_iff t).1 (by rw [hph]; rfl)
  obtain ⟨todo', left', h6⟩ := h6
  have hg : good s' = good s := by simp only [good, h4, hl, h6, hph, h3]
  have hc : someClosing s = false := not_closing fun u hu => by
    by_cases hut : u = t
    · subst hut; rw [hph] at hu; cases hu
    · have := h.other hl hut; rw [hu] at this; cases this
  have hc' : someClosing s' = false := not_closing fun u hu => by
    by_cases hut : u = t
    · subst hut; rw [h6] at hu; cases hu
    · rw [h5 u hut] at hu
      have := h.other hl hut; rw [hu] at this; cases this
  refine two _ _ t ?_ ?_
  · intro u hu
    unfold pot
    rw [h5 u hu, hg, hc, hc', h1, h2, h3]
    exact Nat.le_refl _
  · simp only [pot, h6, hph, h3, h7]
    exact Nat.le_refl _

theorem pot_step {s : State} (h : Inv s) (hpres : s.present = true) (x : Step) (hx : CalmStep s x) :
    (step s x).closed + pot (step s x) .rx + pot (step s x) .tx ≤ s.closed + pot s .rx + pot s .tx := by
  obtain ⟨hun, hst, hgo⟩ := hx
  cases x with
  | unplug => exact absurd rfl hun
  | plug => exact Nat.le_refl _
  | start t =>
    have hl := hst t rfl
    simp only [step]
    split
    · rename_i hph
      have hcl : someClosing s = false := not_closing fun u hu => by have := h.unlocked hl u; rw [hu] at this; cases this
      have ho := fun u hu => pot_other (s' := s.to t (.busy s.cur)) h t rfl rfl rfl rfl (to_other s t _) (by rw [hph]; rfl) (by rw [to_self]; rfl) u hu
      have hcl' : someClosing (s.to t (.busy s.cur)) = false := by
        cases t
        · rw [(ho .tx (by decide)).2.1]; exact hcl
        · rw [(ho .rx (by decide)).2.1]; exact hcl
      refine two _ _ t (fun u hu => Nat.le_of_eq (ho u hu).2.2) ?_
      simp only [pot, to_self, hph, hcl', good, hl]
      show s.closed + _ ≤ s.closed + _
      simp only [State.to]
      cases s.isOpen s.cur <;> cases s.alive s.cur <;> simp
    · exact Nat.le_refl _
  | finish t =>
    simp only [step]
    split
    · rename_i p hph
      split
      · rename_i hok
        rw [Bool.and_eq_true] at hok
        have hpc := h.open_cur p hok.1
        have he : ∀ ph, ((effect t s).to t ph).cur = s.cur ∧ ((effect t s).to t ph).isOpen = s.isOpen ∧ ((effect t s).to t ph).alive = s.alive ∧
            ((effect t s).to t ph).lock = s.lock ∧ ((effect t s).to t ph).closed = s.closed := by intro ph; cases t <;> exact ⟨rfl, rfl, rfl, rfl, rfl⟩
        have hpe : ∀ u, u ≠ t → ((effect t s).to t .idle).phase u = s.phase u := by
          intro u hu; rw [to_other _ _ _ _ hu]; cases t <;> rfl
        obtain ⟨e1, e2, e3, e4, e5⟩ := he .idle
        have ho := fun u hu => pot_other (s' := (effect t s).to t .idle) h t e1 e2 e3 e4 hpe (by rw [hph]; rfl) (by rw [to_self]; rfl) u hu
        refine two _ _ t (fun u hu => Nat.le_of_eq (ho u hu).2.2) ?_
        have hg : good ((effect t s).to t .idle) = good s := by
          cases t
          · exact (ho .tx (by decide)).1
          · exact (ho .rx (by decide)).1
        have hgood : good s = true := by
          unfold good
          cases hl : s.lock with
          | none => simp only [← hpc, hok.1, hok.2, Bool.and_self]
          | some v =>
            simp only []
            split
            · rename_i q td l hq
              have := (h.init v q td l hq).1
              rw [this, ← hpc]; exact hok.2
            · rfl
        rw [idle_pot _ _ (to_self _ _ _), hg, hgood, e5]
        simp
      · rename_i hok
        have ho := fun u hu => pot_other (s' := s.to t .failed) h t rfl rfl rfl rfl (to_other s t _) (by rw [hph]; rfl) (by rw [to_self]; rfl) u hu
        refine two _ _ t (fun u hu => Nat.le_of_eq (ho u hu).2.2) ?_
        have h1 : pot s t = 1 := by
          simp only [pot, hph]
          rw [if_neg]
          rintro ⟨_, a, b, _⟩
          exact hok (by rw [a, b]; rfl)
        have h2 : pot (s.to t .failed) t = 1 := by simp only [pot, to_self]
        rw [h1, h2]; exact Nat.le_refl _
    · exact Nat.le_refl _
  | lapse =>
    simp only [step]
    split
    · rename_i p hph
      split
      · exact Nat.le_refl _
      · rename_i hno
        have ho := fun u hu => pot_other (s' := s.to .rx .idle) h .rx rfl rfl rfl rfl (to_other s .rx _) (by rw [hph]; rfl) (by rw [to_self]; rfl) u hu
        refine two _ _ .rx (fun u hu => Nat.le_of_eq (ho u hu).2.2) ?_
        have h1 : pot s .rx = 1 := by
          simp only [pot, hph]
          rw [if_neg]
          rintro ⟨_, a, _⟩
          exact hno a
        have h2 := pot_le (s.to .rx .idle) .rx
        rw [h1]
        show s.closed + _ ≤ s.closed + 1
        omega
    · exact Nat.le_refl _
  | go t =>
    simp only [step, goStep]
    split
    · rename_i hph
      have ho := fun u hu => pot_other (s' := s.to t .waiting) h t rfl rfl rfl rfl (to_other s t _) (by rw [hph]; rfl) (by rw [to_self]; rfl) u hu
      refine two _ _ t (fun u hu => Nat.le_of_eq (ho u hu).2.2) ?_
      simp only [pot, to_self, hph]
      exact Nat.le_refl _
    · rename_i hph
      split
      · rename_i hl
        have hb := hgo t rfl hph hl
        refine two _ _ t ?_ ?_
        · intro u hu
          have hpu : ({ s.to t .closing with lock := some t } : State).phase u = s.phase u := to_other s t _ u hu
          have hgd : good ({ s.to t .closing with lock := some t } : State) = true := by
            simp only [good]; rw [show ({ s.to t .closing with lock := some t } : State).phase t = .closing from to_self s t _]
          unfold pot
          rw [hpu, hgd]
          have hlu := h.unlocked hl u
          cases hp : s.phase u with
          | busy p => exact absurd hp (hb u p)
          | idle => simp
          | failed => exact Nat.le_refl _
          | waiting => exact Nat.le_refl _
          | closing => rw [hp] at hlu; cases hlu
          | opening => rw [hp] at hlu; cases hlu
          | init p td l => rw [hp] at hlu; cases hlu
        · have h1 : pot ({ s.to t .closing with lock := some t } : State) t = 1 := by
            unfold pot; rw [show ({ s.to t .closing with lock := some t } : State).phase t = .closing from to_self s t _]
          have h2 : pot s t = 1 := by simp only [pot, hph]
          rw [h1, h2]; exact Nat.le_refl _
      · exact Nat.le_refl _
    · rename_i hph
      have hl : s.lock = some t := (h.lock_iff t).1 (by rw [hph]; rfl)
      generalize hs' : ({ s.to t .opening with isOpen := fun p => if p = s.cur then false else s.isOpen p, closed := s.closed + 1 } : State) = s'
      have hpt : s'.phase t = .opening := by subst hs'; exact to_self s t _
      have hpu : ∀ u, u ≠ t → s'.phase u = s.phase u := by intro u hu; subst hs'; exact to_other s t _ u hu
      have hlk : s'.lock = some t := by subst hs'; exact hl
      have hcl : s'.closed = s.closed + 1 := by subst hs'; rfl
      refine two _ _ t ?_ ?_
      · intro u hu
        have hlu := h.other hl hu
        have h1 : good s = true := by simp only [good, hl, hph]
        have h2 : good s' = true := by simp only [good, hlk, hpt]
        unfold pot
        rw [hpu u hu, h1, h2]
        cases hp : s.phase u with
        | busy p =>
          have : someClosing s = true := is_closing t hph
          simp only [this]
          rw [if_neg (c := _ ∧ _ ∧ _ ∧ true = false) (by simp)]
          split <;> omega
        | idle => exact Nat.le_refl _
        | failed => exact Nat.le_refl _
        | waiting => exact Nat.le_refl _
        | closing => rw [hp] at hlu; cases hlu
        | opening => rw [hp] at hlu; cases hlu
        | init p td l => rw [hp] at hlu; cases hlu
      · have h1 : pot s' t = 0 := by simp only [pot, hpt]
        have h2 : pot s t = 1 := by simp only [pot, hph]
        rw [h1, h2, hcl]
        exact Nat.le_refl _
    · rename_i hph
      have hl : s.lock = some t := (h.lock_iff t).1 (by rw [hph]; rfl)
      rw [if_pos hpres]
      have hno := h.opening t hph
      generalize hs' : ({ s.to t (.init (s.cur + 1) script 3) with
        cur := s.cur + 1
        isOpen := fun p => if p = s.cur + 1 then true else s.isOpen p
        alive := fun p => if p = s.cur + 1 then true else s.alive p
        buf := [] } : State) = s'
      have hpt : s'.phase t = .init (s.cur + 1) script 3 := by subst hs'; exact to_self s t _
      have hpu : ∀ u, u ≠ t → s'.phase u = s.phase u := by intro u hu; subst hs'; exact to_other s t _ u hu
      have hlk : s'.lock = some t := by subst hs'; exact hl
      have hal : s'.alive (s.cur + 1) = true := by subst hs'; simp
      have hcl : s'.closed = s.closed := by subst hs'; rfl
      refine two _ _ t ?_ ?_
      · intro u hu
        have hlu := h.other hl hu
        have h1 : good s = true := by simp only [good, hl, hph]
        have h2 : good s' = true := by simp only [good, hlk, hpt, hal]
        unfold pot
        rw [hpu u hu, h1, h2]
        cases hp : s.phase u with
        | busy p =>
          have : ¬ (p = s.cur ∧ s.isOpen p = true ∧ s.alive p = true ∧ someClosing s = false) := by
            rintro ⟨rfl, a, _⟩; rw [hno] at a; cases a
          simp only [if_neg this]
          split <;> omega
        | idle => exact Nat.le_refl _
        | failed => exact Nat.le_refl _
        | waiting => exact Nat.le_refl _
        | closing => rw [hp] at hlu; cases hlu
        | opening => rw [hp] at hlu; cases hlu
        | init p td l => rw [hp] at hlu; cases hlu
      · have h1 : pot s' t = 0 := by simp only [pot, hpt, hal, if_true]
        rw [h1, hcl]; omega
    · rename_i p todo left hph
      have hrel := pot_release h t p todo left hph
      have hstay : ∀ (s' : State), s'.cur = s.cur → s'.isOpen = s.isOpen → s'.alive = s.alive → s'.lock = s.lock → s'.closed = s.closed →
          (∀ u, u ≠ t → s'.phase u = s.phase u) → (∃ td l, s'.phase t = .init p td l) →
          s'.closed + pot s' .rx + pot s' .tx ≤ s.closed + pot s .rx + pot s .tx := fun s' a b c d e f g => pot_init h t p todo left hph a b c d f g e
      have hfail : ∀ buf, (failInit t p left { s with buf := buf }).closed + pot (failInit t p left { s with buf := buf }) .rx +
          pot (failInit t p left { s with buf := buf }) .tx ≤ s.closed + pot s .rx + pot s .tx := by
        intro buf
        cases left with
        | zero => exact hrel
        | succ n => exact hstay _ rfl rfl rfl rfl rfl (fun u hu => to_other _ t _ u hu) ⟨script, n, to_self _ t _⟩
      unfold initStep
      split
      · exact hrel
      · rename_i m rest
        split
        · exact hfail s.buf
        · split
          · exact hstay _ rfl rfl rfl rfl rfl (fun u hu => to_other _ t _ u hu) ⟨_, _, to_self _ t _⟩
          · exact hstay _ rfl rfl rfl rfl rfl (fun u hu => to_other _ t _ u hu) ⟨_, _, to_self _ t _⟩
          · split
            · exact hstay _ rfl rfl rfl rfl rfl (fun u hu => to_other _ t _ u hu) ⟨_, _, to_self _ t _⟩
            · split
              · exact hfail _
              · exact hstay _ rfl rfl rfl rfl rfl (fun u hu => to_other _ t _ u hu) ⟨_, _, to_self _ t _⟩
            · split
              · exact hfail s.buf
              · exact hstay _ rfl rfl rfl rfl rfl (fun u hu => to_other _ t _ u hu) ⟨_, _, to_self _ t _⟩
    · exact Nat.le_refl _

/-- Where an undisturbed `_init_adapter` is: what is left to do, the channel, and the answers to be read. -/
def Tab (todo : List Micro) (ch : Bool) (buf : List Bool) : Prop :=
  (todo = script ∧ buf = []) ∨ (todo = script.drop 1 ∧ buf = [true]) ∨ (todo = script.drop 2 ∧ buf = []) ∨ (todo = script.drop 3 ∧ buf = []) ∨
  (todo = script.drop 4 ∧ buf = [true] ∧ ch = false) ∨ (todo = script.drop 5 ∧ buf = [] ∧ ch = false) ∨ (todo = script.drop 6 ∧ buf = [true] ∧ ch = false) ∨
  (todo = script.drop 7 ∧ buf = [] ∧ ch = false) ∨ (todo = script.drop 8 ∧ buf = [true] ∧ ch = true) ∨ (todo = script.drop 9 ∧ buf = [] ∧ ch = true) ∨
  (todo = script.drop 10 ∧ buf = [true] ∧ ch = true) ∨ (todo = script.drop 11 ∧ buf = [] ∧ ch = true) ∨ (todo = [] ∧ buf = [] ∧ ch = true)

/-- The port has been reopened without disturbance. -/
structure Done (s : State) : Prop where
  ready : (s.lock = none ∨ ∃ t, s.phase t = .closing) → s.isOpen s.cur = true ∧ s.alive s.cur = true ∧ s.channel = true
  init : ∀ t p todo left, s.phase t = .init p todo left →
    left = 3 ∧ s.alive p = true ∧ Tab todo s.channel s.buf ∧ ∀ u q, s.phase u = .busy q → q ≠ p

theorem Done.phase {s s' : State} (d : Done s) (t : Tid) (h1 : s'.cur = s.cur) (h2 : s'.isOpen = s.isOpen) (h3 : s'.alive = s.alive) (h4 : s'.lock = s.lock)
    (h5 : ∀ u, u ≠ t → s'.phase u = s.phase u) (h7 : (s'.phase t).locked = false) (h8 : s'.channel = s.channel)
    (h9 : (∃ u p td l, s.phase u = .init p td l) → s'.buf = s.buf ∧ ∀ q, s'.phase t ≠ .busy q) : Done s' := by
  refine ⟨?_, ?_⟩
  · intro hh
    rw [h1, h2, h3, h8]
    refine d.ready ?_
    rcases hh with hh | ⟨u, hu⟩
    · exact .inl (by rw [← h4]; exact hh)
    · refine .inr ⟨u, ?_⟩
      by_cases hut : u = t
      · subst hut; rw [hu] at h7; cases h7
      · rw [← h5 u hut]; exact hu
  · intro u p todo left hu
    have hut : u ≠ t := fun hh => by subst hh; rw [hu] at h7; cases h7
    rw [h5 u hut] at hu
    obtain ⟨hb, hq⟩ := h9 ⟨u, p, todo, left, hu⟩
    obtain ⟨a, b, c, e⟩ := d.init u p todo left hu
    refine ⟨a, by rw [h3]; exact b, by rw [h8, hb]; exact c, ?_⟩
    intro v q hv
    by_cases hvt : v = t
    · subst hvt; exact absurd hv (hq q)
    · rw [h5 v hvt] at hv; exact e v q hv

/-- An operation that ends well while the port is being reopened: there is none. -/
theorem Done.quiet {s : State} (h : Inv s) (d : Done s) {t : Tid} {p : Nat} (hp : s.phase t = .busy p) (ho : s.isOpen p = true) :
    s.channel = true ∧ ¬ ∃ u q td l, s.phase u = .init q td l := by
  have hpc := h.open_cur p ho
  have hni : ¬ ∃ u q td l, s.phase u = .init q td l := by
    rintro ⟨u, q, td, l, hu⟩
    have := (d.init u q td l hu).2.2.2 t p hp
    exact this (by rw [hpc, (h.init u q td l hu).1])
  refine ⟨(d.ready ?_).2.2, hni⟩
  cases hl : s.lock with
  | none => exact .inl rfl
  | some v =>
    refine .inr ⟨v, ?_⟩
    have hv := (h.lock_iff v).2 hl
    cases hpv : s.phase v with
    | idle => rw [hpv] at hv; cases hv
    | busy q => rw [hpv] at hv; cases hv
    | failed => rw [hpv] at hv; cases hv
    | waiting => rw [hpv] at hv; cases hv
    | closing => rfl
    | opening => have := h.opening v hpv; rw [← hpc, ho] at this; cases this
    | init q td l => exact absurd ⟨v, q, td, l, hpv⟩ hni

theorem done_init {s : State} (h : Inv s) (d : Done s) (t : Tid) (p : Nat) (todo : List Micro) (left : Nat) (hph : s.phase t = .init p todo left) :
    Done (initStep t p todo left s) := by
  have hl : s.lock = some t := (h.lock_iff t).1 (by rw [hph]; rfl)
  obtain ⟨hp, ho⟩ := h.init t p todo left hph
  obtain ⟨rfl, hal, htab, hbusy⟩ := d.init t p todo left hph
  have hgo : ∀ (s' : State) (todo' : List Micro), s'.lock = s.lock → s'.alive = s.alive → (∀ u, u ≠ t → s'.phase u = s.phase u) →
      s'.phase t = .init p todo' 3 → Tab todo' s'.channel s'.buf → Done s' := by
    intro s' todo' h1 h3 h5 h6 h7
    refine ⟨?_, ?_⟩
    · rintro (hh | ⟨u, hu⟩)
      · rw [h1, hl] at hh; cases hh
      · by_cases hut : u = t
        · subst hut; rw [h6] at hu; cases hu
        · rw [h5 u hut] at hu
          have := h.other hl hut; rw [hu] at this; cases this
    · intro u q td l hu
      by_cases hut : u = t
      · subst hut
        rw [h6] at hu
        cases hu
        refine ⟨rfl, by rw [h3]; exact hal, h7, ?_⟩
        intro v q hv
        by_cases hvt : v = u
        · subst hvt; rw [h6] at hv; cases hv
        · rw [h5 v hvt] at hv; exact hbusy v q hv
      · rw [h5 u hut] at hu
        have := h.other hl hut; rw [hu] at this; cases this
  have hoth : ∀ (s1 : State) (ph : Phase), s1.phase = s.phase → ∀ u, u ≠ t → (s1.to t ph).phase u = s.phase u := by
    intro s1 ph e u hu; rw [to_other _ _ _ _ hu, e]
  have hcmd : ∀ c rest, Tab rest (obey c s).channel (obey c s).buf → Done ((obey c s).to t (.init p rest 3)) := by
    intro c rest htb
    exact hgo _ rest rfl rfl (hoth _ _ rfl) (to_self _ _ _) htb
  have hbuf : ∀ buf rest, Tab rest s.channel buf → Done { s.to t (.init p rest 3) with buf := buf } := by
    intro buf rest htb
    exact hgo _ rest rfl rfl (hoth s _ rfl) (to_self s _ _) htb
  have hfin : s.channel = true → Done (release t s) := by
    intro hch
    refine ⟨fun _ => ⟨?_, ?_, hch⟩, ?_⟩
    · show s.isOpen s.cur = true
      rw [← hp]; exact ho
    · show s.alive s.cur = true
      rw [← hp]; exact hal
    · intro u q td l hu
      by_cases hut : u = t
      · subst hut; simp [release, State.to] at hu
      · simp only [release, State.to, if_neg hut] at hu
        have := h.other hl hut; rw [hu] at this; cases this
  have hna : ¬ s.alive p = false := by rw [hal]; simp
  rcases htab with ⟨rfl, hb⟩ | ⟨rfl, hb⟩ | ⟨rfl, hb⟩ | ⟨rfl, hb⟩ | ⟨rfl, hb, hc⟩ | ⟨rfl, hb, hc⟩ | ⟨rfl, hb, hc⟩ | ⟨rfl, hb, hc⟩ | ⟨rfl, hb, hc⟩ |
    ⟨rfl, hb, hc⟩ | ⟨rfl, hb, hc⟩ | ⟨rfl, hb, hc⟩ | ⟨rfl, hb, hc⟩
  all_goals (try simp only [script, List.drop_succ_cons, List.drop_zero, initStep, if_neg hna])
  · exact hcmd .reset _ (by simp [Tab, script, obey, hb])
  · rw [hb]; exact hbuf _ _ (by simp [Tab, script])
  · exact hbuf _ _ (by simp [Tab, script])
  · exact hcmd .close _ (by simp [Tab, script, obey, hb])
  · rw [hb]; exact hbuf _ _ (by simp [Tab, script, hc])
  · exact hcmd .speed _ (by simp [Tab, script, obey, hb, hc])
  · rw [hb]; exact hbuf _ _ (by simp [Tab, script, hc])
  · exact hcmd .open _ (by simp [Tab, script, obey, hb])
  · rw [hb]; exact hbuf _ _ (by simp [Tab, script, hc])
  · exact hcmd .flags _ (by simp [Tab, script, obey, hb, hc])
  · rw [hb]; exact hbuf _ _ (by simp [Tab, script, hc])
  · exact hbuf _ _ (by simp [Tab, hc])
  · exact hfin hc

/-- A thread has closed the port. -/
theorem reopened {s : State} (h : Inv s) (t : Tid) (hl : s.lock = some t) :
    Done { s.to t .opening with isOpen := fun p => if p = s.cur then false else s.isOpen p, closed := s.closed + 1 } := by
  refine ⟨?_, ?_⟩
  · rintro (hh | ⟨u, hu⟩)
    · change s.lock = none at hh; rw [hl] at hh; cases hh
    · change (s.to t _).phase u = _ at hu
      by_cases hut : u = t
      · subst hut; rw [to_self] at hu; cases hu
      · rw [to_other _ _ _ _ hut] at hu
        have := h.other hl hut; rw [hu] at this; cases this
  · intro u p td l hu
    change (s.to t _).phase u = _ at hu
    by_cases hut : u = t
    · subst hut; rw [to_self] at hu; cases hu
    · rw [to_other _ _ _ _ hut] at hu
      have := h.other hl hut; rw [hu] at this; cases this

theorem done_step {s : State} (h : Inv s) (hpres : s.present = true) (d : Done s) (x : Step) (hx : CalmStep s x) : Done (step s x) := by
  obtain ⟨hun, hst, hgo⟩ := hx
  cases x with
  | unplug => exact absurd rfl hun
  | plug => exact ⟨d.ready, d.init⟩
  | start t =>
    have hl := hst t rfl
    simp only [step]
    split
    · refine d.phase t rfl rfl rfl rfl (to_other s t _) (by rw [to_self]; rfl) rfl ?_
      rintro ⟨u, p, td, l, hu⟩
      have := h.unlocked hl u; rw [hu] at this; cases this
    · exact d
  | finish t =>
    simp only [step]
    split
    · rename_i p hph
      split
      · rename_i hok
        rw [Bool.and_eq_true] at hok
        obtain ⟨_, hni⟩ := d.quiet h hph hok.1
        refine d.phase t ?_ ?_ ?_ ?_ ?_ (by rw [to_self]; rfl) ?_ (fun hh => absurd hh hni)
        iterate 4 (cases t <;> rfl)
        · intro u hu; rw [to_other _ _ _ _ hu]; cases t <;> rfl
        · cases t <;> rfl
      · exact d.phase t rfl rfl rfl rfl (to_other s t _) (by rw [to_self]; rfl) rfl (fun _ => ⟨rfl, fun q hq => by rw [to_self] at hq; cases hq⟩)
    · exact d
  | lapse =>
    simp only [step]
    split
    · split
      · exact d
      · exact d.phase .rx rfl rfl rfl rfl (to_other s .rx _) (by rw [to_self]; rfl) rfl (fun _ => ⟨rfl, fun q hq => by rw [to_self] at hq; cases hq⟩)
    · exact d
  | go t =>
    simp only [step, goStep]
    split
    · exact d.phase t rfl rfl rfl rfl (to_other s t _) (by rw [to_self]; rfl) rfl (fun _ => ⟨rfl, fun q hq => by rw [to_self] at hq; cases hq⟩)
    · split
      · rename_i hl
        have hr := d.ready (.inl hl)
        refine ⟨fun _ => hr, ?_⟩
        intro u p td l hu
        change (s.to t .closing).phase u = _ at hu
        by_cases hut : u = t
        · subst hut; rw [to_self] at hu; cases hu
        · rw [to_other _ _ _ _ hut] at hu
          have := h.unlocked hl u; rw [hu] at this; cases this
      · exact d
    · rename_i hph
      have hl : s.lock = some t := (h.lock_iff t).1 (by rw [hph]; rfl)
      exact reopened h t hl
    · rename_i hph
      have hl : s.lock = some t := (h.lock_iff t).1 (by rw [hph]; rfl)
      rw [if_pos hpres]
      refine ⟨?_, ?_⟩
      · rintro (hh | ⟨u, hu⟩)
        · change s.lock = none at hh; rw [hl] at hh; cases hh
        · change (s.to t _).phase u = _ at hu
          by_cases hut : u = t
          · subst hut; rw [to_self] at hu; cases hu
          · rw [to_other _ _ _ _ hut] at hu
            have := h.other hl hut; rw [hu] at this; cases this
      · intro u p td l hu
        change (s.to t _).phase u = _ at hu
        by_cases hut : u = t
        · subst hut; rw [to_self] at hu; cases hu
          refine ⟨rfl, by simp, .inl ⟨rfl, rfl⟩, ?_⟩
          intro v q hv
          change (s.to u _).phase v = _ at hv
          by_cases hvu : v = u
          · subst hvu; rw [to_self] at hv; cases hv
          · rw [to_other _ _ _ _ hvu] at hv
            have := h.busy v q hv
            omega
        · rw [to_other _ _ _ _ hut] at hu
          have := h.other hl hut; rw [hu] at this; cases this
    · rename_i p todo left hph
      exact done_init h d t p todo left hph
    · exact d

theorem present_step (s : State) (x : Step) (hx : x ≠ .unplug) (h : s.present = true) : (step s x).present = true := by
  cases x with
  | unplug => exact absurd rfl hx
  | plug => rfl
  | start t => simp only [step]; split <;> exact h
  | finish t =>
    simp only [step]
    split
    · split
      · cases t <;> exact h
      · exact h
    · exact h
  | lapse =>
    simp only [step]
    split
    · split <;> exact h
    · exact h
  | go t =>
    have hf : ∀ p left (s1 : State), s1.present = true → (failInit t p left s1).present = true := by
      intro p left s1 h1
      cases left <;> exact h1
    simp only [step, goStep]
    split
    · exact h
    · split <;> exact h
    · exact h
    · split <;> exact h
    · unfold initStep
      split
      · exact h
      · split
        · exact hf _ _ _ h
        · split
          · exact h
          · exact h
          · split
            · exact h
            · split
              · exact hf _ _ _ h
              · exact h
            · split
              · exact hf _ _ _ h
              · exact h
    · exact h

/-- A calm step closes the port only in good order, and lines are then heard. -/
theorem closed_step {s : State} (h : Inv s) (x : Step) : (step s x).closed = s.closed ∨ Done (step s x) := by
  cases x with
  | unplug => exact .inl rfl
  | plug => exact .inl rfl
  | start t => simp only [step]; split <;> exact .inl rfl
  | finish t =>
    refine .inl ?_
    simp only [step]
    split
    · split
      · cases t <;> rfl
      · rfl
    · rfl
  | lapse =>
    refine .inl ?_
    simp only [step]
    split
    · split <;> rfl
    · rfl
  | go t =>
    have hf : ∀ p left (s1 : State), s1.closed = s.closed → (failInit t p left s1).closed = s.closed := by
      intro p left s1 h1
      cases left <;> exact h1
    simp only [step, goStep]
    split
    · exact .inl rfl
    · split <;> exact .inl rfl
    · rename_i hph
      exact .inr (reopened h t ((h.lock_iff t).1 (by rw [hph]; rfl)))
    · split <;> exact .inl rfl
    · refine .inl ?_
      unfold initStep
      split
      · rfl
      · split
        · exact hf _ _ _ rfl
        · split
          · rfl
          · rfl
          · split
            · rfl
            · split
              · exact hf _ _ _ rfl
              · rfl
            · split
              · exact hf _ _ _ rfl
              · rfl
    · exact .inl rfl

theorem heard_failInit (t : Tid) (p left : Nat) (s : State) : (failInit t p left s).heard = s.heard := by cases left <;> rfl

theorem heard_go (t : Tid) (s : State) : (goStep t s).heard = s.heard := by
  unfold goStep
  split
  · rfl
  · split <;> rfl
  · rfl
  · split <;> rfl
  · unfold initStep
    split
    · rfl
    · split
      · exact heard_failInit _ _ _ _
      · split
        · rfl
        · rfl
        · split
          · rfl
          · split
            · exact heard_failInit _ _ _ _
            · rfl
          · split
            · exact heard_failInit _ _ _ _
            · rfl
  · rfl

theorem heard_done {s : State} (h : Inv s) (d : Done s) (x : Step) : (step s x).heard = s.heard ∨ (step s x).heard = s.heard ++ [(s.written, true)] := by
  cases x with
  | unplug => exact .inl rfl
  | plug => exact .inl rfl
  | start t => simp only [step]; split <;> exact .inl rfl
  | finish t =>
    simp only [step]
    split
    · rename_i p hph
      split
      · rename_i hok
        rw [Bool.and_eq_true] at hok
        have hch := (d.quiet h hph hok.1).1
        cases t
        · exact .inl rfl
        · refine .inr ?_
          show s.heard ++ [(s.written, s.channel)] = _
          rw [hch]
      · exact .inl rfl
    · exact .inl rfl
  | lapse =>
    refine .inl ?_
    simp only [step]
    split
    · split <;> rfl
    · rfl
  | go t => exact .inl (heard_go t s)

/-- The good order of things after a thread has reopened the port: no more than one reopening for each thread; the port and the channel are open
when the lock is free; and the lines that have been written since have been heard. -/
def Recovers (s : State) (steps : List Step) : Prop :=
  (run steps s).closed ≤ s.closed + 2 ∧
  (s.closed < (run steps s).closed → (run steps s).lock = none → Ready (run steps s)) ∧
  ∀ a b, steps = a ++ b → s.closed < (run a s).closed →
    ∃ new, (run steps s).heard = (run a s).heard ++ new ∧ ∀ x ∈ new, x.2 = true

/-! ## Answers that matter, and what happens while the device is away -/

/-- The commands whose acknowledgement `_init_adapter` needs: those that set the bit rate and open the channel. -/
def essential : List Cmd := [.speed, .open]

/-- What remains of an attempt to initialise the adapter is the end of the script. -/
def Suffix (s : State) : Prop := ∀ t p todo left, s.phase t = .init p todo left → ∃ done, script = done ++ todo

theorem Suffix.to {s : State} (h : Suffix s) (t : Tid) (ph : Phase) (hp : ∀ p todo left, ph = .init p todo left → ∃ done, script = done ++ todo) :
    Suffix (s.to t ph) := by
  intro u p todo left hu
  by_cases hut : u = t
  · subst hut; simp only [State.to, if_true] at hu; exact hp p todo left hu
  · simp only [State.to, if_neg hut] at hu; exact h u p todo left hu

theorem Suffix.same {s s' : State} (h : Suffix s) (hp : s'.phase = s.phase) : Suffix s' := by
  intro t p todo left ht; rw [hp] at ht; exact h t p todo left ht

theorem suffix_failInit {s : State} (h : Suffix s) (t : Tid) (p left : Nat) : Suffix (failInit t p left s) := by
  cases left with
  | zero => exact (h.to t .idle (fun _ _ _ hh => nomatch hh)).same rfl
  | succ n => exact h.to t _ fun q todo l hh => by injection hh with _ h2; exact ⟨[], by rw [← h2, List.nil_append]⟩

theorem suffix_step {s : State} (h : Suffix s) (x : Step) : Suffix (step s x) := by
  have away : ∀ t ph, (∀ p todo left, ph ≠ Phase.init p todo left) → Suffix (s.to t ph) := fun t ph hp =>
    h.to t ph fun p todo left hh => absurd hh (hp p todo left)
  cases x with
  | start t =>
    simp only [step]
    split
    · exact away t _ (fun _ _ _ hh => nomatch hh)
    · exact h
  | finish t =>
    simp only [step]
    split
    · split
      · refine Suffix.to (Suffix.same h ?_) t _ (fun _ _ _ hh => nomatch hh)
        cases t <;> rfl
      · exact away t _ (fun _ _ _ hh => nomatch hh)
    · exact h
  | lapse =>
    simp only [step]
    split
    · split
      · exact h
      · exact away .rx _ (fun _ _ _ hh => nomatch hh)
    · exact h
  | unplug => exact h
  | plug => exact h
  | go t =>
    simp only [step, goStep]
    split
    · exact away t _ (fun _ _ _ hh => nomatch hh)
    · split
      · exact (away t .closing (fun _ _ _ hh => nomatch hh)).same rfl
      · exact h
    · exact (away t .opening (fun _ _ _ hh => nomatch hh)).same rfl
    · split
      · exact (h.to t (.init (s.cur + 1) script 3) fun p todo left hh => by injection hh with _ h2; exact ⟨[], by rw [← h2, List.nil_append]⟩).same rfl
      · exact (away t .idle (fun _ _ _ hh => nomatch hh)).same rfl
    · rename_i p todo left hph
      obtain ⟨done, hd⟩ := h t p todo left hph
      cases todo with
      | nil => exact (away t .idle (fun _ _ _ hh => nomatch hh)).same rfl
      | cons m rest =>
        have next : ∀ {s' : State}, s'.phase = s.phase → Suffix (s'.to t (.init p rest left)) := fun hs' =>
          (h.same hs').to t _ fun q td l hh => ⟨done ++ [m], by injection hh with _ h2; rw [← h2, hd]; simp⟩
        simp only [initStep]
        split
        · exact suffix_failInit h t p left
        · cases m with
          | cmd c => exact next rfl
          | flush => exact (next (s' := s) rfl).same rfl
          | ack required =>
            simp only
            split
            · exact (next (s' := s) rfl).same rfl
            · split
              · refine suffix_failInit (Suffix.same h ?_) t p left
                rfl
              · exact (next (s' := s) rfl).same rfl
            · split
              · exact suffix_failInit h t p left
              · exact next rfl
    · exact h

theorem suffix_run (steps : List Step) : ∀ s, Suffix s → Suffix (run steps s) := by
  induction steps with
  | nil => intro s h; exact h
  | cons x steps ih => intro s h; exact ih _ (suffix_step h x)

/-- In the script, an acknowledgement is awaited after each command, and just those of the essential commands are required. -/
theorem script_acks : ∀ n ∈ List.range 13, ∀ b ∈ [true, false], (script.drop n).head? = some (.ack b) →
    ∃ c ∈ [Cmd.reset, .close, .speed, .open, .flags], (script.drop (n - 1)).head? = some (.cmd c) ∧ (b = true ↔ c ∈ essential) := by
  decide +kernel

/-- While a thread awaits the answer to a command: with an ACK it goes on. If the answer is another one, or there is none, it goes on just if the
command is not one of those that set the bit rate and open the channel. -/
theorem C134_answers (steps : List Step) (t : Tid) (p left : Nat) (b : Bool) (rest : List Micro)
    (hph : (run steps {}).phase t = .init p (.ack b :: rest) left) (ha : (run steps {}).alive p = true) :
    ∃ done c, script = done ++ .cmd c :: .ack b :: rest ∧
      ((step (run steps {}) (.go t)).phase t = .init p rest left ↔ (run steps {}).buf.head? = some true ∨ c ∉ essential) := by
  obtain ⟨done, hd⟩ := suffix_run steps {} (fun _ _ _ _ hh => nomatch hh) t p _ left hph
  have hlen : done.length + (rest.length + 1) = 12 := by
    have := congrArg List.length hd
    simpa [script] using this.symm
  obtain ⟨c, -, hc, hb⟩ := script_acks done.length (List.mem_range.2 (by omega)) b (by cases b <;> simp) (by rw [hd, List.drop_left]; rfl)
  have hne : done ≠ [] := by
    rintro rfl
    cases hd
  obtain ⟨d, m, hdm⟩ : ∃ d m, done = d ++ [m] := by
    rcases List.eq_nil_or_concat done with h | ⟨d, m, h⟩
    · exact absurd h hne
    · exact ⟨d, m, by rw [h, List.concat_eq_append]⟩
  have hm : m = .cmd c := by
    rw [hd, hdm, List.append_assoc, show (d ++ [m]).length - 1 = d.length by simp, List.drop_left] at hc
    exact Option.some.inj hc
  refine ⟨d, c, by rw [hd, hdm, hm]; simp, ?_⟩
  generalize run steps {} = s at *
  have hfail : ∀ s' : State, (failInit t p left s').phase t ≠ .init p rest left := by
    intro s'
    cases left with
    | zero => simp [failInit, release, State.to]
    | succ n =>
      simp only [failInit, State.to, if_true]
      intro hh
      injection hh with _ _ h3
      omega
  simp only [step, goStep, hph, initStep, ha, Bool.true_eq_false, if_false]
  cases hbuf : s.buf with
  | nil =>
    simp only [List.head?_nil]
    cases b with
    | true => simp only [if_true]; constructor
              · intro hh; exact absurd hh (hfail _)
              · rintro (hh | hh)
                · cases hh
                · exact absurd (hb.1 rfl) hh
    | false => simp only [Bool.false_eq_true, if_false, State.to, if_true, true_iff]
               exact .inr fun hh => nomatch hb.2 hh
  | cons x buf =>
    cases x with
    | true => simp [State.to]
    | false =>
      simp only [List.head?_cons, Option.some.injEq, Bool.false_eq_true, false_or]
      cases b with
      | true => simp only [if_true]; constructor
                · intro hh; exact absurd hh (hfail _)
                · intro hh; exact absurd (hb.1 rfl) hh
      | false => simp only [Bool.false_eq_true, if_false, State.to, if_true, true_iff]
                 exact fun hh => nomatch hb.2 hh

/-- The main thread reopens the port after the device was away; it awaits the answer to the first command. -/
example : let s := run [.unplug, .plug, .start .tx, .finish .tx, .go .tx, .go .tx, .go .tx, .go .tx, .go .tx] {}
    s.phase .tx = .init 1 (.ack false :: script.drop 2) 3 ∧ s.alive 1 = true ∧ s.buf = [true] := by decide +kernel

/-- The device is away. -/
structure Away (before s : State) : Prop where
  present : s.present = false
  alive : ∀ p, s.alive p = false
  channel : s.channel = false
  buf : s.buf = []
  written : s.written = before.written
  heard : s.heard = before.heard

theorem away_step {b s : State} (h : Away b s) (x : Step) (hx : x ≠ .plug) : Away b (step s x) := by
  obtain ⟨h1, h2, h3, h4, h5, h6⟩ := h
  have hto : ∀ t ph, Away b (s.to t ph) := fun t ph => ⟨h1, h2, h3, h4, h5, h6⟩
  have hfail : ∀ t p left, Away b (failInit t p left s) := by
    intro t p left
    cases left <;> exact ⟨h1, h2, h3, h4, h5, h6⟩
  cases x with
  | start t =>
    simp only [step]
    split
    · exact hto _ _
    · exact ⟨h1, h2, h3, h4, h5, h6⟩
  | finish t =>
    simp only [step]
    split
    · rename_i p _
      rw [h2 p]
      simp only [Bool.and_false, Bool.false_eq_true, if_false]
      exact hto _ _
    · exact ⟨h1, h2, h3, h4, h5, h6⟩
  | lapse =>
    simp only [step]
    (repeat' split) <;> exact ⟨h1, h2, h3, h4, h5, h6⟩
  | unplug => exact ⟨rfl, fun _ => rfl, rfl, rfl, h5, h6⟩
  | plug => exact absurd rfl hx
  | go t =>
    simp only [step, goStep]
    split
    · exact hto _ _
    · split
      · exact ⟨h1, h2, h3, h4, h5, h6⟩
      · exact ⟨h1, h2, h3, h4, h5, h6⟩
    · exact ⟨h1, h2, h3, h4, h5, h6⟩
    · rw [h1]
      exact ⟨h1, h2, h3, h4, h5, h6⟩
    · rename_i p todo left _
      cases todo with
      | nil => exact ⟨h1, h2, h3, h4, h5, h6⟩
      | cons m rest =>
        simp only [initStep, h2 p, if_true]
        exact hfail _ _ _
    · exact ⟨h1, h2, h3, h4, h5, h6⟩

/-- From the moment at which the device is unplugged until it is plugged in again, whatever the threads do: `write` does not return, nothing is heard and
nothing read; and the adapter that comes back has its channel closed. -/
theorem C134_away (before : State) (steps : List Step) (hp : Step.plug ∉ steps) :
    let s := run steps (step before .unplug)
    s.written = before.written ∧ s.heard = before.heard ∧ s.buf = [] ∧ (∀ p, s.alive p = false) ∧ s.present = false ∧ (step s .plug).channel = false := by
  have : ∀ (steps : List Step) (s : State), Step.plug ∉ steps → Away before s → Away before (run steps s) := by
    intro steps
    induction steps with
    | nil => intro s _ h; exact h
    | cons x steps ih =>
      intro s hp h
      exact ih _ (fun hh => hp (List.mem_cons_of_mem _ hh)) (away_step h x fun hh => hp (hh ▸ List.mem_cons_self ..))
  have h := this steps (step before .unplug) hp ⟨rfl, fun _ => rfl, rfl, rfl, rfl, rfl⟩
  exact ⟨h.written, h.heard, h.buf, h.alive, h.present, h.channel⟩

/-- Once the device is back, all is well again after at most two reopenings. -/
def C134_statement : Prop :=
  ∀ before steps, (run before {}).present = true → Plugged steps → Recovers (run before {}) steps

theorem run_append (a b : List Step) (s : State) : run (a ++ b) s = run b (run a s) := List.foldl_append

theorem calm_append {a b : List Step} {s : State} (h : Calm (a ++ b) s) : Calm a s ∧ Calm b (run a s) := by
  induction a generalizing s with
  | nil => exact ⟨trivial, h⟩
  | cons x xs ih => exact ⟨⟨h.1, (ih h.2).1⟩, (ih h.2).2⟩

theorem calm_pot {steps : List Step} {s : State} (h : Inv s) (hp : s.present = true) (hc : Calm steps s) :
    (run steps s).closed + pot (run steps s) .rx + pot (run steps s) .tx ≤ s.closed + pot s .rx + pot s .tx := by
  induction steps generalizing s with
  | nil => exact Nat.le_refl _
  | cons x xs ih =>
    exact Nat.le_trans (ih (inv_step h x) (present_step s x hc.1.1 hp) hc.2) (pot_step h hp x hc.1)

theorem calm_present {steps : List Step} {s : State} (hp : s.present = true) (hc : Calm steps s) : (run steps s).present = true := by
  induction steps generalizing s with
  | nil => exact hp
  | cons x xs ih => exact ih (present_step s x hc.1.1 hp) hc.2

theorem calm_done {steps : List Step} {s : State} (h : Inv s) (hp : s.present = true) (d : Done s) (hc : Calm steps s) :
    Done (run steps s) ∧ ∃ new, (run steps s).heard = s.heard ++ new ∧ ∀ x ∈ new, x.2 = true := by
  induction steps generalizing s with
  | nil => exact ⟨d, [], by simp [run], by simp⟩
  | cons x xs ih =>
    obtain ⟨d', new, h1, h2⟩ := ih (inv_step h x) (present_step s x hc.1.1 hp) (done_step h hp d x hc.1) hc.2
    refine ⟨d', ?_⟩
    rcases heard_done h d x with e | e
    · exact ⟨new, by rw [← e]; exact h1, h2⟩
    · refine ⟨(s.written, true) :: new, ?_, ?_⟩
      · show (run xs (step s x)).heard = _
        rw [h1, e, List.append_assoc]; rfl
      · intro y hy
        rcases List.mem_cons.1 hy with rfl | hy
        · rfl
        · exact h2 y hy

theorem calm_closed {steps : List Step} {s : State} (h : Inv s) (hp : s.present = true) (hc : Calm steps s) (hlt : s.closed < (run steps s).closed) :
    Done (run steps s) := by
  induction steps generalizing s with
  | nil => exact absurd hlt (Nat.lt_irrefl _)
  | cons x xs ih =>
    rcases closed_step h x with e | d
    · exact ih (inv_step h x) (present_step s x hc.1.1 hp) hc.2 (by rw [e]; exact hlt)
    · exact (calm_done (inv_step h x) (present_step s x hc.1.1 hp) d hc.2).1

/-- If the threads do not get in each other's way, it is so. -/
theorem C134_partial (before steps : List Step) (hp : (run before {}).present = true) (hc : Calm steps (run before {})) :
    Recovers (run before {}) steps := by
  have h := inv_run before inv_init
  refine ⟨?_, ?_, ?_⟩
  · have := calm_pot h hp hc
    have a := pot_le (run before {}) .rx
    have b := pot_le (run before {}) .tx
    omega
  · intro hlt hl
    have d := calm_closed h hp hc hlt
    obtain ⟨h1, h2, h3⟩ := d.ready (.inl hl)
    exact ⟨hl, ⟨h1, h2⟩, h3⟩
  · rintro a b rfl hlt
    obtain ⟨ha, hb⟩ := calm_append hc
    have d := calm_closed h hp ha hlt
    rw [run_append]
    exact (calm_done (inv_run a h) (calm_present hp ha) d hb).2

/-! ## If they do -/

/-- A thread reopens the port and initialises the adapter, undisturbed. -/
def reopen (t : Tid) : List Step := List.replicate 17 (.go t)

/-- One thread begins an operation; that of the other, on a port that has been closed, fails, and it reopens the port. -/
def half (t u : Tid) : List Step := [.start t, .finish u] ++ reopen u

/-- One thread is about to begin an operation, the other is within one of a closed port. -/
def Stale (t u : Tid) (s : State) : Prop :=
  t ≠ u ∧ s.present = true ∧ s.lock = none ∧ s.phase t = .idle ∧ ∃ p, s.phase u = .busy p ∧ s.isOpen p = false ∧ p < s.cur

theorem half_stale (t u : Tid) (s : State) (h : Stale t u s) : Stale u t (run (half t u) s) ∧ (run (half t u) s).closed = s.closed + 1 := by
  obtain ⟨hne, hpres, hl, ht, p, hu, ho, hlt⟩ := h
  cases t <;> cases u
  · exact absurd rfl hne
  · simp [Stale, run, half, reopen, step, List.replicate, ht, hu, ho, hl, hpres, goStep, initStep, obey, script, State.to, release]
  · simp [Stale, run, half, reopen, step, List.replicate, ht, hu, ho, hl, hpres, goStep, initStep, obey, script, State.to, release]
  · exact absurd rfl hne

/-- Both threads begin an operation, the device having been unplugged and plugged in again; one of them reopens the port. -/
def first : List Step := [.start .rx, .start .tx, .finish .rx] ++ reopen .rx

theorem stale_first : Stale .rx .tx (run first (run [.unplug, .plug] {})) := by
  refine ⟨by decide, by decide +kernel, by decide +kernel, by decide +kernel, 0, by decide +kernel, by decide +kernel, by decide +kernel⟩

theorem ping_pong (n : Nat) (t u : Tid) (s : State) (h : Stale t u s) : ∃ steps, Plugged steps ∧ (run steps s).closed = s.closed + n := by
  induction n generalizing t u s with
  | zero => exact ⟨[], by simp [Plugged], rfl⟩
  | succ n ih =>
    obtain ⟨h1, h2⟩ := half_stale t u s h
    obtain ⟨steps, h3, h4⟩ := ih u t _ h1
    refine ⟨half t u ++ steps, ?_, ?_⟩
    · intro hm
      rcases List.mem_append.1 hm with hm | hm
      · simp [half, reopen] at hm
      · exact h3 hm
    · rw [run_append, h4, h2]; omega

/-- After the device has been unplugged once and plugged in again, the threads may go on closing the port under each other for ever: each has an
operation in progress when the other closes its port. -/
theorem C134_endless (n : Nat) : ∃ steps, Plugged steps ∧ n ≤ (run steps (run [.unplug, .plug] {})).closed := by
  obtain ⟨steps, h1, h2⟩ := ping_pong n _ _ _ stale_first
  refine ⟨first ++ steps, ?_, ?_⟩
  · intro hm
    rcases List.mem_append.1 hm with hm | hm
    · simp [first, reopen] at hm
    · exact h1 hm
  · rw [run_append, h2]; omega

theorem C134_counterexample : ¬ C134_statement := by
  intro h
  obtain ⟨steps, h1, h2⟩ := C134_endless 3
  have := (h [.unplug, .plug] steps (by decide +kernel) h1).1
  have h0 : (run [.unplug, .plug] {}).closed = 0 := by decide +kernel
  omega

/-- An attempt of `_init_adapter` by the TX thread, whose answers the RX thread reads. -/
def stolen : List Step := List.replicate 6 (.go .tx) ++ [.start .rx, .finish .rx, .go .tx]

/-- Once is enough for the adapter to be left deaf: the answers to the commands of one thread are read by the other, `_init_adapter` gives up after four attempts, the
exception is swallowed, and the channel stays closed, though the port is open and everything seems well. -/
theorem C134_deaf_counterexample :
    ∃ steps, Plugged steps ∧ (∀ t, (run steps (run [.unplug, .plug] {})).phase t = .idle) ∧ (run steps (run [.unplug, .plug] {})).closed = 1 ∧
      Healthy (run steps (run [.unplug, .plug] {})) ∧ (run steps (run [.unplug, .plug] {})).channel = false := by
  refine ⟨[.start .tx, .finish .tx, .go .tx, .go .tx, .go .tx, .go .tx] ++ stolen ++ stolen ++ stolen ++ stolen, by simp [Plugged, stolen], ?_,
    by decide +kernel, ⟨by decide +kernel, by decide +kernel⟩, by decide +kernel⟩
  intro t
  cases t <;> decide +kernel

/-- And all lines are lost from then on. -/
theorem C134_deaf_ever (s : State) (hi : ∀ t, s.phase t = .idle) (ho : Healthy s) (hc : s.channel = false) (n : Nat) :
    ∃ new, (run (List.replicate n [Step.start .tx, .finish .tx, .start .rx, .finish .rx]).flatten s).heard = s.heard ++ new ∧ new.length = n ∧ ∀ x ∈ new, x.2 = false := by
  induction n generalizing s with
  | zero => exact ⟨[], by simp [run], rfl, by simp⟩
  | succ n ih =>
    have e : run [Step.start .tx, .finish .tx, .start .rx, .finish .rx] s =
        { s with written := s.written + 1, heard := s.heard ++ [(s.written, false)], buf := [] } := by
      have hph : (fun u => if u = Tid.rx then Phase.idle else if u = Tid.tx then Phase.idle else s.phase u) = s.phase := by
        funext u; cases u <;> simp [hi]
      obtain ⟨cur, isOpen, alive, present, lock, phase, channel, buf, written, heard, closed⟩ := s
      obtain ⟨h1, h2⟩ := ho
      simp only at hi h1 h2 hc hph
      subst hc
      simp [run, step, State.to, effect, hi, h1, h2]
      funext u; cases u <;> simp [hi]
    rw [List.replicate_succ, List.flatten_cons, run_append, e]
    obtain ⟨new, h1, h2, h3⟩ := ih { s with written := s.written + 1, heard := s.heard ++ [(s.written, false)], buf := [] } hi ho hc
    refine ⟨(s.written, false) :: new, by rw [h1]; simp, by simp [h2], ?_⟩
    intro x hx
    rcases List.mem_cons.1 hx with rfl | hx
    · rfl
    · exact h3 x hx

/-- A line that is written while the other thread initialises the adapter goes to a closed channel, though `write` returns and the adapter is ready in the end. -/
theorem C134_lost_counterexample :
    ∃ steps, Plugged steps ∧ Ready (run steps (run [.unplug, .plug] {})) ∧ (run steps (run [.unplug, .plug] {})).closed = 1 ∧
      (run steps (run [.unplug, .plug] {})).heard = [(0, false)] := by
  refine ⟨[.start .rx, .finish .rx] ++ List.replicate 8 (.go .rx) ++ [.start .tx, .finish .tx] ++ List.replicate 16 (.go .rx), by simp [Plugged],
    ⟨by decide +kernel, ⟨by decide +kernel, by decide +kernel⟩, by decide +kernel⟩, by decide +kernel, by decide +kernel⟩

/-! ## Examples -/

/-- A calm run: the TX thread finds that the port is dead and reopens it; the RX thread fails too and reopens it again; a line is then heard. -/
def calmRun : List Step :=
  [.start .tx, .finish .tx, .start .rx, .finish .rx] ++ reopen .tx ++ reopen .rx ++ [.start .tx, .finish .tx]

/-- `CalmStep`, decided. -/
def calmStep (s : State) (x : Step) : Bool :=
  let quiet := match s.phase .rx, s.phase .tx with
    | .busy _, _ => false
    | _, .busy _ => false
    | _, _ => true
  match x with
  | .unplug => false
  | .start _ => s.lock == none
  | .go t => !(s.phase t == .waiting && s.lock == none) || quiet
  | _ => true

theorem calmStep_sound {s : State} {x : Step} (h : calmStep s x = true) : CalmStep s x := by
  cases x with
  | unplug => cases h
  | start t => exact ⟨by simp, fun _ _ => by simpa [calmStep] using h, (fun _ hh => nomatch hh)⟩
  | go t =>
    refine ⟨by simp, (fun _ hh => nomatch hh), ?_⟩
    rintro v hv h1 h2 u p hp
    cases hv
    simp only [calmStep, h1, h2, beq_self_eq_true, Bool.and_self, Bool.not_true, Bool.false_or] at h
    cases u
    · rw [hp] at h; simp at h
    · rw [hp] at h
      cases hr : s.phase .rx <;> rw [hr] at h <;> simp at h
  | finish t => exact ⟨by simp, (fun _ hh => nomatch hh), (fun _ hh => nomatch hh)⟩
  | lapse => exact ⟨by simp, (fun _ hh => nomatch hh), (fun _ hh => nomatch hh)⟩
  | plug => exact ⟨by simp, (fun _ hh => nomatch hh), (fun _ hh => nomatch hh)⟩

/-- `Calm`, decided. -/
def calm : List Step → State → Bool
  | [], _ => true
  | x :: xs, s => calmStep s x && calm xs (step s x)

theorem calm_sound {steps : List Step} {s : State} (h : calm steps s = true) : Calm steps s := by
  induction steps generalizing s with
  | nil => trivial
  | cons x xs ih =>
    simp only [calm, Bool.and_eq_true] at h
    exact ⟨calmStep_sound h.1, ih h.2⟩

theorem calmRun_calm : Calm calmRun (run [.unplug, .plug] {}) := calm_sound (by decide +kernel)

/-- The bound of two is attained. -/
example : Recovers (run [.unplug, .plug] {}) calmRun ∧ (run calmRun (run [.unplug, .plug] {})).closed = 2 ∧
    (run calmRun (run [.unplug, .plug] {})).heard = [(0, true)] ∧ Ready (run calmRun (run [.unplug, .plug] {})) :=
  ⟨C134_partial _ _ (by decide +kernel) calmRun_calm, by decide +kernel, by decide +kernel,
    ⟨by decide +kernel, ⟨by decide +kernel, by decide +kernel⟩, by decide +kernel⟩⟩

end RetrySerial
end Dronecan
