import Verif.Model.SlcanProcess

/-!
# The life of the SLCAN I/O process (C117)

The theorems are about every interleaving of the threads of the process and its parent, and every outcome of the calls of the port.
-/

namespace Dronecan
namespace SlcanProcess

/-! ## Specification -/

def isTx : Step → Bool
  | .tx _ => true
  | _ => false

def isRx : Step → Bool
  | .rx _ => true
  | _ => false

/-- How the RX worker's iterations have come out. -/
def rxOutcomes (h : List Step) : List Outcome := h.filterMap fun
  | .rx .hangs => none
  | .rx o => some o
  | _ => none

/-- A thousand iterations of the RX worker in a row have raised. -/
def GaveUp (h : List Step) : Prop := ∃ before after, rxOutcomes h = before ++ List.replicate 1000 .raises ++ after

/-- There is a reason for the process to end: it has been told to, or its parent is dead, or the RX worker has ended. -/
def Reason (p : Proc) : Prop := .stop ∈ p.queue ∨ p.parent = false ∨ p.rx = .over

/-- C117 in full. The process ends only if it was told to, if its parent is dead, or if the RX worker has given up; and if there is such a reason,
it does end: when the TX worker has done 1002 iterations, then the RX worker two, and then the port has been closed. -/
def C117_statement : Prop :=
  (∀ h, (steps {} h).alive = false → .put .stop ∈ h ∨ .parentDies ∈ h ∨ GaveUp h) ∧
  (∀ h, Reason (steps {} h) → ∀ h₁ h₂ h₃, 1002 ≤ h₁.countP isTx → 2 ≤ h₂.countP isRx → .finish .returns ∈ h₃ →
    (steps {} (h ++ h₁ ++ h₂ ++ h₃)).alive = false)

/-! ## Auxiliary facts -/

theorem steps_append (p : Proc) (h h' : List Step) : steps p (h ++ h') = steps (steps p h) h' := List.foldl_append ..

theorem steps_cons (p : Proc) (x : Step) (h : List Step) : steps p (x :: h) = steps (step p x) h := rfl

theorem rxOutcomes_append (h h' : List Step) : rxOutcomes (h ++ h') = rxOutcomes h ++ rxOutcomes h' := List.filterMap_append ..

/-- The loop of the TX worker is over, and stays so. -/
theorem step_txOver {p : Proc} (x : Step) (h : p.tx = .over) : (step p x).tx = .over := by
  cases x with
  | put i => simp only [step]; split <;> exact h
  | parentDies => exact h
  | rx o => simp only [step, rxStep, rxDone]; repeat' split
            all_goals exact h
  | tx o => simp only [step, txStep, h]; split <;> exact h
  | finish o => simp only [step, finishStep]; repeat' split
                all_goals exact h

theorem steps_txOver {p : Proc} (l : List Step) (h : p.tx = .over) : (steps p l).tx = .over := by
  induction l generalizing p with
  | nil => exact h
  | cons x l ih => exact ih (step_txOver x h)

theorem step_rxOver {p : Proc} (x : Step) (h : p.rx = .over) : (step p x).rx = .over := by
  cases x with
  | put i => simp only [step]; split <;> exact h
  | parentDies => exact h
  | rx o => simp only [step, rxStep, h]; split <;> exact h
  | tx o => simp only [step, txStep, txDone]; repeat' split
            all_goals exact h
  | finish o => simp only [step, finishStep]; repeat' split
                all_goals exact h

theorem steps_rxOver {p : Proc} (l : List Step) (h : p.rx = .over) : (steps p l).rx = .over := by
  induction l generalizing p with
  | nil => exact h
  | cons x l ih => exact ih (step_rxOver x h)

theorem step_dead {p : Proc} (x : Step) (h : p.alive = false) : (step p x).alive = false := by
  cases x with
  | put i => simp only [step]; split <;> exact h
  | parentDies => exact h
  | rx o => simp [step, h]
  | tx o => simp [step, h]
  | finish o => simp [step, h]

theorem steps_dead {p : Proc} (l : List Step) (h : p.alive = false) : (steps p l).alive = false := by
  induction l generalizing p with
  | nil => exact h
  | cons x l ih => exact ih (step_dead x h)

/-- What holds in every state that the process can get into. -/
structure Inv (h : List Step) (p : Proc) : Prop where
  queue : p.queue.length ≤ 1000
  stop : .stop ∈ p.queue → .put .stop ∈ h
  parent : p.parent = false → .parentDies ∈ h
  txOver : p.tx = .over → .put .stop ∈ h ∨ .parentDies ∈ h ∨ GaveUp h
  errors : p.rx ≠ .over → p.alive = true → ∃ before, rxOutcomes h = before ++ List.replicate p.errors .raises
  rxOver : p.rx = .over → p.tx = .over ∨ GaveUp h
  dead : p.alive = false → p.tx = .over ∧ p.rx = .over

theorem GaveUp.snoc {h : List Step} (x : Step) (g : GaveUp h) : GaveUp (h ++ [x]) := by
  obtain ⟨a, b, e⟩ := g
  exact ⟨a, b ++ rxOutcomes [x], by rw [rxOutcomes_append, e]; simp only [List.append_assoc]⟩

theorem rxOutcomes_snoc_other {h : List Step} {x : Step} (hx : isRx x = false) : rxOutcomes (h ++ [x]) = rxOutcomes h := by
  rw [rxOutcomes_append]
  cases x with
  | rx o => exact nomatch hx
  | _ => simp [rxOutcomes]

theorem reason_snoc {h : List Step} (x : Step) (g : .put .stop ∈ h ∨ .parentDies ∈ h ∨ GaveUp h) :
    .put .stop ∈ h ++ [x] ∨ .parentDies ∈ h ++ [x] ∨ GaveUp (h ++ [x]) := by
  rcases g with g | g | g
  · exact .inl (List.mem_append_left _ g)
  · exact .inr (.inl (List.mem_append_left _ g))
  · exact .inr (.inr (g.snoc x))

/-- The invariant for a step that leaves alone what it is about. -/
theorem Inv.keep {h : List Step} {p q : Proc} (i : Inv h p) (x : Step) (hx : isRx x = false) (e₁ : q.queue.length ≤ 1000)
    (e₂ : .stop ∈ q.queue → .put .stop ∈ h ++ [x]) (e₃ : q.parent = false → .parentDies ∈ h ++ [x])
    (e₄ : q.tx = .over → p.tx = .over ∨ .put .stop ∈ h ++ [x] ∨ .parentDies ∈ h ++ [x] ∨ GaveUp (h ++ [x]))
    (e₅ : p.tx = .over → q.tx = .over) (e₆ : q.rx = p.rx) (e₇ : q.errors = p.errors) (e₈ : q.alive = true → p.alive = true)
    (e₉ : q.alive = false → q.tx = .over ∧ q.rx = .over) : Inv (h ++ [x]) q where
  queue := e₁
  stop := e₂
  parent := e₃
  txOver := fun hq => (e₄ hq).elim (fun hp => reason_snoc x (i.txOver hp)) id
  errors := fun h₁ h₂ => by
    rw [rxOutcomes_snoc_other hx, e₇]
    exact i.errors (e₆ ▸ h₁) (e₈ h₂)
  rxOver := fun h₁ => (i.rxOver (e₆ ▸ h₁)).elim (fun h => .inl (e₅ h)) (fun g => .inr (g.snoc x))
  dead := e₉

theorem inv_step {h : List Step} {p : Proc} (i : Inv h p) (x : Step) : Inv (h ++ [x]) (step p x) := by
  have stop' : .stop ∈ p.queue → .put .stop ∈ h ++ [x] := fun a => List.mem_append_left _ (i.stop a)
  have parent' : p.parent = false → .parentDies ∈ h ++ [x] := fun a => List.mem_append_left _ (i.parent a)
  cases x with
  | put it =>
    simp only [step]
    split
    · rename_i hc
      refine i.keep _ rfl ?_ ?_ parent' (.inl) id rfl rfl id i.dead
      · have : queueSize = 1000 := rfl
        simp only [List.length_append, List.length_singleton]; omega
      · intro hm
        rcases List.mem_append.1 hm with hm | hm
        · exact stop' hm
        · rw [List.mem_singleton.1 hm]; simp
    · exact i.keep _ rfl i.queue stop' parent' (.inl) id rfl rfl id i.dead
  | parentDies => exact i.keep _ rfl i.queue stop' (fun _ => by simp) (.inl) id rfl rfl id i.dead
  | rx o =>
    simp only [step]
    split
    · rename_i ha
      have done : p.rx ≠ .over → (p.tx ≠ .over ∨ p.rx = .busy) → Inv (h ++ [.rx o]) (rxDone o p) := by
        intro hr _
        obtain ⟨before, hb⟩ := i.errors hr ha
        cases o with
        | returns =>
          refine ⟨i.queue, stop', parent', fun t => reason_snoc _ (i.txOver t), fun _ _ => ⟨rxOutcomes (h ++ [.rx .returns]), ?_⟩,
            (fun t => nomatch t), fun t => ?_⟩
          · simp [rxDone]
          · exact absurd (ha.symm.trans t) (by decide)
        | raises =>
          have e : rxOutcomes (h ++ [.rx .raises]) = before ++ List.replicate (p.errors + 1) .raises := by
            rw [rxOutcomes_append, hb, List.replicate_succ', List.append_assoc]; rfl
          refine ⟨i.queue, stop', parent', fun t => reason_snoc _ (i.txOver t), fun _ _ => ⟨before, e⟩, fun t => .inr ?_, fun t => ?_⟩
          · simp only [rxDone] at t
            by_cases hm : maxErrors ≤ p.errors + 1
            · refine ⟨before ++ List.replicate (p.errors + 1 - 1000) .raises, [], ?_⟩
              have hm' : 1000 ≤ p.errors + 1 := hm
              rw [e, List.append_nil, List.append_assoc, List.replicate_append_replicate]
              congr 2; omega
            · rw [if_neg hm] at t; exact nomatch t
          · exact absurd (ha.symm.trans t) (by decide)
        | hangs =>
          refine ⟨i.queue, stop', parent', fun t => reason_snoc _ (i.txOver t), fun _ _ => ⟨before, ?_⟩, (fun t => nomatch t), fun t => ?_⟩
          · rw [rxOutcomes_append, hb]; simp [rxOutcomes, rxDone]
          · exact absurd (ha.symm.trans t) (by decide)
      simp only [rxStep]
      cases hr : p.rx with
      | idle =>
        by_cases ht : p.tx = .over
        · rw [if_pos ht]
          exact ⟨i.queue, stop', parent', fun t => reason_snoc _ (i.txOver ht), fun t => absurd rfl t, fun _ => .inl ht,
            fun t => absurd (ha.symm.trans t) (by decide)⟩
        · rw [if_neg ht]
          exact done (by rw [hr]; decide) (.inl ht)
      | busy => exact done (by rw [hr]; decide) (.inr hr)
      | over =>
        exact ⟨i.queue, stop', parent', fun t => reason_snoc _ (i.txOver t), fun t => absurd hr t,
          fun t => (i.rxOver t).elim .inl (fun g => .inr (g.snoc _)), i.dead⟩
    · rename_i ha
      exact ⟨i.queue, stop', parent', fun t => reason_snoc _ (i.txOver t), fun _ t => absurd t ha,
        fun t => (i.rxOver t).elim .inl (fun g => .inr (g.snoc _)), i.dead⟩
  | tx o =>
    simp only [step]
    split
    · rename_i ha
      have dead' : ∀ q : Proc, q.alive = p.alive → q.alive = false → q.tx = .over ∧ q.rx = .over :=
        fun q e t => absurd (ha.symm.trans (e.symm.trans t)) (by decide)
      have done : ∀ q : Proc, p.tx ≠ .over → q.queue.length ≤ 1000 → (∀ y ∈ q.queue, y ∈ p.queue) → q.parent = p.parent → q.rx = p.rx →
          q.errors = p.errors → q.alive = p.alive → Inv (h ++ [.tx o]) (txDone o q) := by
        intro q ht hq hsub hp hr he hal
        have hne : (txDone o q).tx ≠ .over := by cases o <;> exact fun t => nomatch t
        have e : txDone o q = { q with tx := (txDone o q).tx } := by cases o <;> rfl
        rw [e]
        exact i.keep _ rfl hq (fun t => stop' (hsub _ t)) (fun t => parent' (hp ▸ t)) (fun t => absurd t hne) (fun t => absurd t ht) hr he
          (fun t => hal ▸ t) (dead' _ hal)
      simp only [txStep]
      cases ht : p.tx with
      | idle =>
        have hne : p.tx ≠ .over := by rw [ht]; decide
        cases hq : p.queue with
        | nil =>
          by_cases hc : p.rx = .over ∨ p.parent = false
          · rw [if_pos hc]
            refine i.keep _ rfl (Nat.zero_le _) (fun t => nomatch t) parent' (fun _ => .inr ?_) (fun t => absurd t hne) rfl rfl id (dead' _ rfl)
            rcases hc with hc | hc
            · exact ((i.rxOver hc).resolve_left hne |> fun g => .inr (.inr (g.snoc _)))
            · exact .inr (.inl (parent' hc))
          · rw [if_neg hc]
            exact i.keep _ rfl i.queue stop' parent' .inl id rfl rfl id i.dead
        | cons y rest =>
          have hl : rest.length ≤ 1000 := by have := i.queue; rw [hq, List.length_cons] at this; omega
          cases y with
          | work => exact done _ hne hl (fun y hy => by rw [hq]; exact List.mem_cons_of_mem _ hy) rfl rfl rfl rfl
          | stop =>
            refine i.keep _ rfl hl (fun _ => stop' (by rw [hq]; simp)) parent' (fun _ => .inr (.inl (stop' (by rw [hq]; simp))))
              (fun t => absurd t hne) rfl rfl id (dead' _ rfl)
      | busy => exact done p (by rw [ht]; decide) i.queue (fun _ t => t) rfl rfl rfl rfl
      | over => exact i.keep _ rfl i.queue stop' parent' .inl id rfl rfl id i.dead
    · exact i.keep _ rfl i.queue stop' parent' .inl id rfl rfl id i.dead
  | finish o =>
    simp only [step]
    split
    · rename_i ha
      simp only [finishStep]
      split
      · rename_i hc
        cases o with
        | hangs => exact i.keep _ rfl i.queue stop' parent' .inl id rfl rfl id i.dead
        | returns => exact i.keep _ rfl i.queue stop' parent' .inl id rfl rfl (fun t => nomatch t) (fun _ => hc)
        | raises => exact i.keep _ rfl i.queue stop' parent' .inl id rfl rfl (fun t => nomatch t) (fun _ => hc)
      · exact i.keep _ rfl i.queue stop' parent' .inl id rfl rfl id i.dead
    · exact i.keep _ rfl i.queue stop' parent' .inl id rfl rfl id i.dead

theorem inv_steps (h : List Step) : Inv h (steps {} h) := by
  have : ∀ (h' h : List Step), Inv h (steps {} h) → Inv (h ++ h') (steps {} (h ++ h')) := by
    intro h'
    induction h' with
    | nil => intro h i; rwa [List.append_nil]
    | cons x h' ih =>
      intro h i
      have := ih (h ++ [x]) (by rw [steps_append]; exact inv_step i x)
      rwa [List.append_assoc] at this
  exact this h [] ⟨Nat.zero_le _, fun t => (nomatch t), fun t => (nomatch t), fun t => (nomatch t), fun _ _ => ⟨[], rfl⟩, fun t => (nomatch t), fun t => (nomatch t)⟩

/-- At most `n` iterations are left of the TX worker's loop. `more`: the parent may put more into the queue. -/
def Left (more : Bool) (p : Proc) (n : Nat) : Prop :=
  p.tx = .over ∨ p.alive = true ∧
    ((∃ a b, p.queue = a ++ .stop :: b ∧ a.length + 1 + (if p.tx = .busy then 1 else 0) ≤ n) ∨
    (p.parent = false ∨ p.rx = .over ∧ more = false) ∧ p.queue.length + 1 + (if p.tx = .busy then 1 else 0) ≤ n)

theorem left_other {more : Bool} {p : Proc} {n : Nat} (x : Step) (hx : isTx x = false) (hm : more = false → ∀ i, x ≠ .put i)
    (h : Left more p n) : Left more (step p x) n := by
  rcases h with h | ⟨ha, h⟩
  · exact .inl (step_txOver x h)
  · cases x with
    | put i =>
      simp only [step]
      split
      · rename_i hc
        rcases h with ⟨a, b, e, hl⟩ | ⟨hp | ⟨_, hp⟩, _⟩
        · exact .inr ⟨ha, .inl ⟨a, b ++ [i], by simp [e], hl⟩⟩
        · exact absurd hc.1 (by simp [hp])
        · exact absurd rfl (hm hp i)
      · exact .inr ⟨ha, h⟩
    | parentDies => exact .inr ⟨ha, h.imp id (fun t => ⟨.inl rfl, t.2⟩)⟩
    | rx o =>
      have e : (step p (.rx o)).queue = p.queue ∧ (step p (.rx o)).parent = p.parent ∧ (step p (.rx o)).tx = p.tx ∧
          (step p (.rx o)).alive = p.alive := by
        simp only [step, rxStep, rxDone]; repeat' split
        all_goals exact ⟨rfl, rfl, rfl, rfl⟩
      refine .inr ⟨e.2.2.2.trans ha, ?_⟩
      rw [e.1, e.2.1, e.2.2.1]
      exact h.imp id (fun t => ⟨t.1.imp id (fun t => ⟨step_rxOver _ t.1, t.2⟩), t.2⟩)
    | tx o => exact nomatch hx
    | finish o =>
      by_cases ht : p.tx = .over
      · exact .inl (step_txOver _ ht)
      · have e : step p (.finish o) = p := by
          have hc : ¬ (p.tx = .over ∧ p.rx = .over) := fun t => ht t.1
          simp only [step, finishStep, if_neg hc]; split <;> rfl
        rw [e]; exact .inr ⟨ha, h⟩

theorem left_tx {more : Bool} {p : Proc} {n : Nat} (o : Outcome) (ho : o ≠ .hangs) (h : Left more p (n + 1)) :
    Left more (step p (.tx o)) n := by
  rcases h with h | ⟨ha, h⟩
  · exact .inl (step_txOver _ h)
  · have hd : ∀ q : Proc, txDone o q = { q with tx := .idle } := by intro q; cases o <;> first | rfl | exact absurd rfl ho
    simp only [step, ha, if_true, txStep]
    cases ht : p.tx with
    | over => exact .inl ht
    | busy =>
      refine .inr ⟨by rw [hd]; exact ha, ?_⟩
      rw [ht, if_pos rfl] at h
      simp only [hd]
      rcases h with ⟨a, b, e, hl⟩ | ⟨hp, hl⟩
      · exact .inl ⟨a, b, e, by simp; omega⟩
      · exact .inr ⟨hp, by simp; omega⟩
    | idle =>
      rw [ht, if_neg (by decide)] at h
      cases hq : p.queue with
      | nil =>
        rcases h with ⟨a, b, e, hl⟩ | ⟨hp, hl⟩
        · rw [hq] at e; cases a <;> exact nomatch e
        · have : p.rx = .over ∨ p.parent = false := hp.elim .inr (fun t => .inl t.1)
          exact .inl (by rw [if_pos this])
      | cons y rest =>
        cases y with
        | stop => exact .inl rfl
        | work =>
          simp only [hd]
          refine .inr ⟨rfl, ?_⟩
          rcases h with ⟨a, b, e, hl⟩ | ⟨hp, hl⟩
          · cases a with
            | nil => rw [hq] at e; exact nomatch e
            | cons z a =>
              rw [hq] at e
              injection e with _ e
              exact .inl ⟨a, b, e, by simp at hl ⊢; omega⟩
          · exact .inr ⟨hp, by rw [hq] at hl; simp at hl ⊢; omega⟩

theorem left_steps (more : Bool) (l : List Step) : ∀ (p : Proc) (n : Nat), Left more p n → (∀ x ∈ l, x ≠ .tx .hangs) →
    (more = false → ∀ i, .put i ∉ l) → Left more (steps p l) (n - l.countP isTx) := by
  induction l with
  | nil => intro p n h _ _; exact h
  | cons x l ih =>
    intro p n h hh hm
    have hh' : ∀ y ∈ l, y ≠ .tx .hangs := fun y hy => hh y (List.mem_cons_of_mem _ hy)
    have hm' : more = false → ∀ i, .put i ∉ l := fun e i hi => hm e i (List.mem_cons_of_mem _ hi)
    by_cases hx : isTx x = true
    · rw [List.countP_cons_of_pos hx]
      cases x with
      | tx o =>
        have ho : o ≠ .hangs := fun e => hh (.tx o) (List.mem_cons_self ..) (by rw [e])
        cases n with
        | zero =>
          have : p.tx = .over := by
            rcases h with h | ⟨_, ⟨a, b, _, hl⟩ | ⟨_, hl⟩⟩
            · exact h
            · omega
            · omega
          exact .inl (steps_txOver (.tx o :: l) this)
        | succ n =>
          have := ih _ _ (left_tx o ho h) hh' hm'
          rw [Nat.add_sub_add_right]; exact this
      | _ => exact nomatch hx
    · rw [List.countP_cons_of_neg hx]
      refine ih _ _ (left_other x (by simpa using hx) (fun e i hi => hm e i ?_) h) hh' hm'
      rw [← hi]; exact List.mem_cons_self ..

/-- At most `n` iterations are left of the RX worker's loop. -/
def RxLeft (p : Proc) (n : Nat) : Prop :=
  p.rx = .over ∨ p.alive = true ∧ p.tx = .over ∧ 1 + (if p.rx = .busy then 1 else 0) ≤ n

theorem rxLeft_other {p : Proc} {n : Nat} (x : Step) (hx : isRx x = false) (h : RxLeft p n) : RxLeft (step p x) n := by
  rcases h with h | ⟨ha, ht, hl⟩
  · exact .inl (step_rxOver x h)
  · by_cases hr : p.rx = .over
    · exact .inl (step_rxOver x hr)
    · have e : (step p x).rx = p.rx ∧ (step p x).alive = p.alive := by
        cases x with
        | rx o => exact nomatch hx
        | put i => simp only [step]; split <;> exact ⟨rfl, rfl⟩
        | parentDies => exact ⟨rfl, rfl⟩
        | tx o => simp only [step, txStep, ht]; split <;> exact ⟨rfl, rfl⟩
        | finish o =>
          have hc : ¬ (p.tx = .over ∧ p.rx = .over) := fun t => hr t.2
          simp only [step, finishStep, if_neg hc]; split <;> exact ⟨rfl, rfl⟩
      exact .inr ⟨e.2.trans ha, step_txOver x ht, by rw [e.1]; exact hl⟩

theorem rxLeft_rx {p : Proc} {n : Nat} (o : Outcome) (ho : o ≠ .hangs) (h : RxLeft p (n + 1)) : RxLeft (step p (.rx o)) n := by
  rcases h with h | ⟨ha, ht, hl⟩
  · exact .inl (step_rxOver _ h)
  · simp only [step, ha, if_true, rxStep]
    cases hr : p.rx with
    | over => exact .inl hr
    | idle => exact .inl (by simp only [if_pos ht])
    | busy =>
      rw [hr, if_pos rfl] at hl
      cases o with
      | hangs => exact absurd rfl ho
      | returns => exact .inr ⟨ha, ht, by simp [rxDone]; omega⟩
      | raises =>
        by_cases hm : maxErrors ≤ p.errors + 1
        · exact .inl (by simp only [rxDone, if_pos hm])
        · exact .inr ⟨ha, ht, by simp only [rxDone, if_neg hm]; simp; omega⟩

theorem rxLeft_steps (l : List Step) : ∀ (p : Proc) (n : Nat), RxLeft p n → (∀ x ∈ l, x ≠ .rx .hangs) →
    RxLeft (steps p l) (n - l.countP isRx) := by
  induction l with
  | nil => intro p n h _; exact h
  | cons x l ih =>
    intro p n h hh
    have hh' : ∀ y ∈ l, y ≠ .rx .hangs := fun y hy => hh y (List.mem_cons_of_mem _ hy)
    by_cases hx : isRx x = true
    · rw [List.countP_cons_of_pos hx]
      cases x with
      | rx o =>
        have ho : o ≠ .hangs := fun e => hh (.rx o) (List.mem_cons_self ..) (by rw [e])
        cases n with
        | zero =>
          have : p.rx = .over := by
            rcases h with h | ⟨_, _, hl⟩
            · exact h
            · omega
          exact .inl (steps_rxOver (.rx o :: l) this)
        | succ n =>
          have := ih _ _ (rxLeft_rx o ho h) hh'
          rw [Nat.add_sub_add_right]; exact this
      | _ => exact nomatch hx
    · rw [List.countP_cons_of_neg hx]
      exact ih _ _ (rxLeft_other x (by simpa using hx) h) hh'

/-! ## Theorems -/

/-- The first half of C117: the process ends only if it was told to, if its parent is dead, or if a thousand iterations of the RX worker in a row
have raised. -/
theorem C117_only (h : List Step) (hd : (steps {} h).alive = false) : .put .stop ∈ h ∨ .parentDies ∈ h ∨ GaveUp h :=
  (inv_steps h).txOver ((inv_steps h).dead hd).1

/-- The RX worker ends only when the TX worker's loop is over, or after a thousand exceptions in a row. -/
theorem C117_rx (h : List Step) (hr : (steps {} h).rx = .over) : (steps {} h).tx = .over ∨ GaveUp h := (inv_steps h).rxOver hr

/-- The TX worker's loop ends within 1002 iterations if no write hangs, and, if the reason is the end of the RX worker, nothing new is put into
the queue meanwhile. -/
theorem C117_loop (h h₁ : List Step) (hr : .stop ∈ (steps {} h).queue ∨ (steps {} h).parent = false ∨
      (steps {} h).rx = .over ∧ ∀ i, .put i ∉ h₁)
    (hw : .tx .hangs ∉ h₁) (hn : 1002 ≤ h₁.countP isTx) : (steps {} (h ++ h₁)).tx = .over := by
  have i := inv_steps h
  have key : ∃ more, (more = false → ∀ i, .put i ∉ h₁) ∧ Left more (steps {} h) 1002 := by
    by_cases ha : (steps {} h).alive = true
    · have hb : (if (steps {} h).tx = .busy then 1 else 0) ≤ 1 := by split <;> omega
      have hl := i.queue
      rcases hr with hr | hr | ⟨hr, hp⟩
      · obtain ⟨a, b, e⟩ := List.append_of_mem hr
        refine ⟨true, (fun t => nomatch t), .inr ⟨ha, .inl ⟨a, b, e, ?_⟩⟩⟩
        rw [e] at hl
        simp only [List.length_append, List.length_cons] at hl
        omega
      · exact ⟨true, (fun t => nomatch t), .inr ⟨ha, .inr ⟨.inl hr, by omega⟩⟩⟩
      · exact ⟨false, (fun _ => hp), .inr ⟨ha, .inr ⟨.inr ⟨hr, rfl⟩, by omega⟩⟩⟩
    · exact ⟨true, (fun t => nomatch t), .inl (i.dead (by simpa using ha)).1⟩
  obtain ⟨more, hm, hL⟩ := key
  have := left_steps more h₁ _ _ hL (fun x hx e => hw (e ▸ hx)) hm
  rw [steps_append]
  rcases this with t | ⟨_, ⟨a, b, _, hl⟩ | ⟨_, hl⟩⟩
  · exact t
  · omega
  · omega

/-- When the TX worker's loop is over, the process ends once the RX worker has done two iterations and the port has been closed, if they do not
hang. -/
theorem C117_exit (h h₂ h₃ : List Step) (ht : (steps {} h).tx = .over) (hw : .rx .hangs ∉ h₂) (hn : 2 ≤ h₂.countP isRx)
    (hf : .finish .returns ∈ h₃ ∨ .finish .raises ∈ h₃) : (steps {} (h ++ h₂ ++ h₃)).alive = false := by
  have i := inv_steps h
  have hL : RxLeft (steps {} h) 2 := by
    by_cases ha : (steps {} h).alive = true
    · exact .inr ⟨ha, ht, by split <;> omega⟩
    · exact .inl (i.dead (by simpa using ha)).2
  have hr : (steps {} (h ++ h₂)).rx = .over := by
    rw [steps_append]
    rcases rxLeft_steps h₂ _ _ hL (fun x hx e => hw (e ▸ hx)) with t | ⟨_, _, hl⟩
    · exact t
    · omega
  have ht' : (steps {} (h ++ h₂)).tx = .over := by rw [steps_append]; exact steps_txOver _ ht
  have fin : ∀ o, o ≠ .hangs → .finish o ∈ h₃ → (steps {} (h ++ h₂ ++ h₃)).alive = false := by
    intro o ho hm
    obtain ⟨a, b, rfl⟩ := List.append_of_mem hm
    rw [← List.append_assoc, steps_append, steps_cons]
    refine steps_dead _ ?_
    rw [steps_append]
    generalize hq : steps (steps {} (h ++ h₂)) a = q
    have q₁ : q.rx = .over := hq ▸ steps_rxOver _ hr
    have q₂ : q.tx = .over := hq ▸ steps_txOver _ ht'
    simp only [step, finishStep, q₁, q₂]
    cases o with
    | hangs => exact absurd rfl ho
    | _ =>
      cases hal : q.alive with
      | false => simp [hal]
      | true => simp
  rcases hf with hf | hf
  · exact fin _ (by decide) hf
  · exact fin _ (by decide) hf

/-- What is proved of the second half of C117: the process ends if nothing hangs, and, if the only reason is the end of the RX worker, the parent
puts nothing into the queue meanwhile. -/
theorem C117_partial (h h₁ h₂ h₃ : List Step) (hr : Reason (steps {} h))
    (hp : .stop ∈ (steps {} h).queue ∨ (steps {} h).parent = false ∨ ∀ i, .put i ∉ h₁) (hw₁ : .tx .hangs ∉ h₁) (hw₂ : .rx .hangs ∉ h₂)
    (hn₁ : 1002 ≤ h₁.countP isTx) (hn₂ : 2 ≤ h₂.countP isRx) (hf : .finish .returns ∈ h₃) :
    (steps {} (h ++ h₁ ++ h₂ ++ h₃)).alive = false := by
  refine C117_exit (h ++ h₁) h₂ h₃ (C117_loop h h₁ ?_ hw₁ hn₁) hw₂ hn₂ (.inl hf)
  rcases hr with hr | hr | hr
  · exact .inl hr
  · exact .inr (.inl hr)
  · rcases hp with hp | hp | hp
    · exact .inl hp
    · exact .inr (.inl hp)
    · exact .inr (.inr ⟨hr, hp⟩)

/-- While the RX worker hangs, as it does while `RetrySerial` cannot reopen the port, the process does not end, whatever else happens. -/
theorem C117_hangs (l : List Step) : ∀ p : Proc, p.rx = .busy → p.alive = true → (∀ o, .rx o ∈ l → o = .hangs) →
    (steps p l).rx = .busy ∧ (steps p l).alive = true := by
  induction l with
  | nil => intro p h₁ h₂ _; exact ⟨h₁, h₂⟩
  | cons x l ih =>
    intro p h₁ h₂ h₃
    have e : (step p x).rx = .busy ∧ (step p x).alive = true := by
      cases x with
      | rx o => rw [h₃ o (List.mem_cons_self ..)]; simp [step, rxStep, rxDone, h₁, h₂]
      | put i => simp only [step]; split <;> exact ⟨h₁, h₂⟩
      | parentDies => exact ⟨h₁, h₂⟩
      | tx o =>
        simp only [step, txStep, txDone]; repeat' split
        all_goals exact ⟨h₁, h₂⟩
      | finish o => simp [step, finishStep, h₁, h₂]
    exact ih _ e.1 e.2 fun o ho => h₃ o (List.mem_cons_of_mem _ ho)

/-- If the RX worker has given up but the application keeps sending, the process goes on: it writes frames and receives none. -/
theorem C117_traffic (p : Proc) (hp : p.parent = true) (hq : p.queue = []) (ht : p.tx = .idle) (hal : p.alive = true) (n : Nat) :
    steps p (List.replicate n [.put .work, .tx .returns]).flatten = p := by
  induction n with
  | zero => rfl
  | succ n ih =>
    have e : step (step p (.put .work)) (.tx .returns) = p := by
      cases p
      simp only at hp hq ht hal
      subst hp hq ht hal
      rfl
    rw [List.replicate_succ, List.flatten_cons, steps_append]
    have : steps p [.put .work, .tx .returns] = p := e
    rw [this, ih]

/-- The port disappears, then the parent dies: the process stays for ever. -/
theorem C117_counterexample : ¬ C117_statement := by
  intro hs
  have h := hs.2 [.rx .hangs, .parentDies] (.inr (.inl rfl)) (List.replicate 1002 (.tx .returns)) [.rx .hangs, .rx .hangs] [.finish .returns]
    (by rw [List.countP_replicate]; simp [isTx]) (by decide) (by decide)
  rw [List.append_assoc, List.append_assoc, steps_append] at h
  have := (C117_hangs (List.replicate 1002 (.tx .returns) ++ ([.rx .hangs, .rx .hangs] ++ [.finish .returns])) (steps {} [.rx .hangs, .parentDies]) rfl rfl
    (by
      intro o ho
      rcases List.mem_append.1 ho with ho | ho
      · exact nomatch (List.mem_replicate.1 ho).2
      · simp at ho; exact ho)).2
  rw [this] at h
  exact nomatch h

/-! ## The hypotheses are met -/

/-- A regular end: the application closes the driver with two frames in the queue. -/
def closed : List Step := [.put .work, .put .work, .put .stop]

example : Reason (steps {} closed) := .inl (by decide)

example : (steps {} (closed ++ List.replicate 3 (.tx .raises) ++ [.rx .returns] ++ [.finish .returns])).alive = false := by decide

/-- Successive exceptions add up. -/
theorem raising (n : Nat) (p : Proc) (h₁ : p.rx = .idle) (h₂ : p.tx = .idle) (h₃ : p.alive = true) (h : p.errors + n < 1000) :
    steps p (List.replicate n (.rx .raises)) = { p with errors := p.errors + n } := by
  induction n generalizing p with
  | zero => rfl
  | succ n ih =>
    have hm : ¬ maxErrors ≤ p.errors + 1 := by have : maxErrors = 1000 := rfl; omega
    have e : step p (.rx .raises) = { p with errors := p.errors + 1 } := by
      cases p
      simp only at h₁ h₂ h₃ hm
      subst h₁ h₂ h₃
      simp only [step, rxStep, rxDone, if_true, if_neg hm]; rfl
    rw [List.replicate_succ, steps_cons, e]
    refine (ih { p with errors := p.errors + 1 } h₁ h₂ h₃ (show p.errors + 1 + n < 1000 by omega)).trans ?_
    simp only [Nat.add_assoc, Nat.add_comm 1 n]

/-- The RX worker gives up, and the process is as `C117_traffic` assumes. -/
example : steps {} (List.replicate 999 (.rx .raises) ++ [.rx .raises]) = { rx := .over, errors := 1000 } := by
  rw [steps_append, raising 999 {} rfl rfl rfl (by decide)]; rfl

/-- An iteration without an exception starts the count again. -/
example : (steps {} (List.replicate 999 (.rx .raises) ++ [.rx .returns] ++ List.replicate 999 (.rx .raises))).rx = .idle := by
  rw [steps_append, steps_append, raising 999 {} rfl rfl rfl (by decide)]
  exact congrArg Proc.rx (raising 999 { errors := 0 } rfl rfl rfl (by decide))

end SlcanProcess
end Dronecan
