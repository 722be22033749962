import Verif.Model.FirmwareUpdate

/-!
# C146: the firmware update is requested until it begins and awaited until it is over

The specification speaks about the status messages received, the requests sent and the answers, in the order in which they came.
-/

namespace Dronecan
namespace FirmwareUpdate

/-- `MODE_SOFTWARE_UPDATE` of uavcan.protocol.NodeStatus. -/
def updating : Nat := 3

/-- `ERROR_IN_PROGRESS` of uavcan.protocol.file.BeginFirmwareUpdate. -/
def beingUpdated : Nat := 2

theorem softwareUpdate_eq : softwareUpdate = updating := rfl

theorem inProgress_eq : inProgress = beingUpdated := rfl

/-- The target has begun its update. -/
def Began (target : Nat) (l : List Act) : Prop := .status target updating ∈ l

/-- The target has begun its update and was in another mode later. -/
def Over (target : Nat) (l : List Act) : Prop := ∃ m, m ≠ updating ∧ [Act.status target updating, .status target m].Sublist l

/-- The times of the requests. -/
def asks : List Act → List Nat
  | [] => []
  | .ask x :: l => x :: asks l
  | _ :: l => asks l

theorem asks_append (a b : List Act) : asks (a ++ b) = asks a ++ asks b := by
  induction a with
  | nil => rfl
  | cons x a ih => cases x <;> simp [asks, ih]

theorem pair_snoc (a b x : Act) (l : List Act) : [a, b].Sublist (l ++ [x]) ↔ [a, b].Sublist l ∨ (a ∈ l ∧ x = b) := by
  constructor
  · intro h
    obtain ⟨l₁, l₂, e, h1, h2⟩ := List.sublist_append_iff.1 h
    cases l₂ with
    | nil => rw [List.append_nil] at e; exact .inl (e ▸ h1)
    | cons y l₂ =>
      have hl : l₂ = [] := by
        have := h2.length_le
        simp only [List.length_cons, List.length_nil] at this
        exact List.length_eq_zero_iff.1 (by omega)
      subst hl
      have hy : y = x := by simpa using h2
      subst hy
      have : l₁ = [a] ∧ y = b := by
        cases l₁ with
        | nil => simp at e
        | cons z l₁ =>
          cases l₁ with
          | nil => simp at e; exact ⟨by rw [e.1], e.2.symm⟩
          | cons w l₁ => simp at e
      rw [this.1] at h1
      exact .inr ⟨by simpa using h1, this.2⟩
  · rintro (h | ⟨h, rfl⟩)
    · exact h.trans (List.sublist_append_left _ _)
    · exact (List.singleton_sublist.2 h).append (List.Sublist.refl [x])

theorem began_snoc (t : Nat) (l : List Act) (x : Act) : Began t (l ++ [x]) ↔ Began t l ∨ x = .status t updating := by
  simp [Began, eq_comm]

theorem over_snoc (t : Nat) (l : List Act) (x : Act) :
    Over t (l ++ [x]) ↔ Over t l ∨ (Began t l ∧ ∃ m, m ≠ updating ∧ x = .status t m) := by
  simp only [Over, pair_snoc, Began]
  constructor
  · rintro ⟨m, hm, h | ⟨h, e⟩⟩
    · exact .inl ⟨m, hm, h⟩
    · exact .inr ⟨h, m, hm, e⟩
  · rintro (⟨m, hm, h⟩ | ⟨h, m, hm, e⟩)
    · exact ⟨m, hm, .inl h⟩
    · exact ⟨m, hm, .inr ⟨h, e⟩⟩

/-- No request comes after the beginning of the update. -/
def Quiet (target : Nat) (l : List Act) : Prop := ∀ pre post, l = pre ++ .status target updating :: post → asks post = []

theorem quiet_snoc {target : Nat} {l : List Act} (x : Act) (h : Quiet target l) (hx : asks [x] = [] ∨ ¬ Began target l) : Quiet target (l ++ [x]) := by
  intro pre post e
  rcases List.eq_nil_or_concat post with rfl | ⟨post', y, rfl⟩
  · rfl
  · have e' : l ++ [x] = (pre ++ .status target updating :: post') ++ [y] := by rw [e]; simp
    have h1 := List.append_inj' e' rfl
    have hy : x = y := by simpa using h1.2
    subst hy
    have hb : Began target l := by rw [h1.1]; simp [Began]
    have := h pre post' h1.1
    rcases hx with hx | hx
    · rw [List.concat_eq_append, asks_append, this, hx]; rfl
    · exact absurd hb hx

structure Inv (target : Nat) (t : Tool) : Prop where
  same : t.target = target
  began : t.started = true ↔ Began target t.log
  over : t.complete = true ↔ Over target t.log
  quiet : Quiet target t.log
  single : t.outstanding + t.deferred.length ≤ 1
  paced : (asks t.log).Pairwise (fun a b => a + 4000 ≤ b)
  past : ∀ a ∈ asks t.log, a ≤ t.now
  due : ∀ d ∈ t.deferred, ∀ a ∈ asks t.log, a + 4000 ≤ d
  fin : t.fin = .finished → t.started = true ∧ t.complete = true

theorem over_began {target : Nat} {l : List Act} (h : Over target l) : Began target l := by
  obtain ⟨m, _, h⟩ := h
  exact h.subset (by simp)

theorem inv_request {target : Nat} {t : Tool} (h : Inv target t) (hs : t.outstanding = 0 ∧ t.deferred = [])
    (hp : ∀ a ∈ asks t.log, a + 4000 ≤ t.now) (hf : t.fin = .running) : Inv target (requestUpdate t) := by
  simp only [requestUpdate]
  split
  · exact h
  · rename_i hst
    refine ⟨h.same, ?_, ?_, ?_, ?_, ?_, ?_, ?_, ?_⟩
    · simp only; rw [began_snoc, h.began]; simp
    · simp only; rw [over_snoc, h.over]; simp
    · exact quiet_snoc _ h.quiet (.inr (fun hb => hst (h.began.2 hb)))
    · simp [hs.1, hs.2]
    · simp only
      rw [asks_append, List.pairwise_append]
      refine ⟨h.paced, by simp [asks], ?_⟩
      intro a ha b hb
      simp [asks] at hb
      exact hb ▸ hp a ha
    · simp only
      rw [asks_append]
      intro a ha
      rcases List.mem_append.1 ha with ha | ha
      · exact h.past a ha
      · simp [asks] at ha; omega
    · simp [hs.2]
    · simp [hf]

theorem inv_step {target : Nat} {t : Tool} (h : Inv target t) (e : Ev) : Inv target (step t e) := by
  simp only [step]
  split
  · exact h
  rename_i hf
  have hf : t.fin = .running := Decidable.not_not.1 hf
  cases e with
  | tick d =>
    refine ⟨h.same, h.began, h.over, h.quiet, h.single, h.paced, ?_, h.due, h.fin⟩
    intro a ha
    have := h.past a ha
    simp only
    omega
  | interrupt => exact ⟨h.same, h.began, h.over, h.quiet, h.single, h.paced, h.past, h.due, fun e => nomatch e⟩
  | pause =>
    simp only
    split
    · rename_i hb
      rw [Bool.and_eq_true] at hb
      exact ⟨h.same, h.began, h.over, h.quiet, h.single, h.paced, h.past, h.due, fun _ => hb⟩
    · exact h
  | fire i =>
    simp only
    split
    · exact h
    · rename_i due hd
      have hm := List.mem_of_getElem? hd
      have hl := List.length_pos_of_mem hm
      have h1 : t.deferred.length = 1 := by have := h.single; omega
      have h0 : t.outstanding = 0 := by have := h.single; omega
      split
      · rename_i hle
        have he : t.deferred.eraseIdx i = [] := by
          have hi := (List.getElem?_eq_some_iff.1 hd).1
          apply List.length_eq_zero_iff.1
          rw [List.length_eraseIdx_of_lt hi]
          omega
        refine inv_request (t := { t with deferred := t.deferred.eraseIdx i }) ?_ ⟨h0, he⟩ ?_ hf
        · refine ⟨h.same, h.began, h.over, h.quiet, ?_, h.paced, h.past, ?_, h.fin⟩
          · simp only; rw [he, h0]; simp
          · simp only; rw [he]; intro d hd; exact nomatch hd
        · intro a ha
          have := h.due due hm a ha
          simp only
          omega
      · exact h
  | answer error =>
    simp only
    split
    · exact h
    · rename_i ho
      have h1 : t.outstanding = 1 := by have := h.single; omega
      have h0 : t.deferred = [] := List.length_eq_zero_iff.1 (by have := h.single; omega)
      have base : Inv target { t with outstanding := t.outstanding - 1, log := t.log ++ [.answer error] } := by
        refine ⟨h.same, ?_, ?_, ?_, ?_, ?_, ?_, ?_, h.fin⟩
        · simp only; rw [began_snoc, h.began]; simp
        · simp only; rw [over_snoc, h.over]; simp
        · exact quiet_snoc _ h.quiet (.inl rfl)
        · simp [h1, h0]
        · simpa [asks_append, asks] using h.paced
        · simpa [asks_append, asks] using h.past
        · simp [h0]
      simp only [onResponse]
      split
      · exact base
      · split
        · refine ⟨base.same, base.began, base.over, base.quiet, ?_, base.paced, base.past, ?_, base.fin⟩
          · simp [h1, h0]
          · simp only [h0]
            intro d hd a ha
            simp at hd
            have := base.past a ha
            simp only at this
            omega
        · exact base
  | status source mode =>
    have hsame := h.same
    subst hsame
    simp only
    have base : (source = t.target → mode = updating → False) → (source = t.target → mode ≠ updating → t.started = false) →
        Inv t.target { t with log := t.log ++ [.status source mode] } := by
      intro n1 n2
      refine ⟨h.same, ?_, ?_, ?_, h.single, ?_, ?_, ?_, h.fin⟩
      · simp only; rw [began_snoc, h.began]
        constructor
        · exact .inl
        · rintro (x | x)
          · exact x
          · injection x with x y; exact absurd y (n1 x)
      · simp only; rw [over_snoc, h.over]
        constructor
        · exact .inl
        · rintro (x | ⟨hb, m, hm, x⟩)
          · exact x
          · injection x with x y
            have := n2 x (y ▸ hm)
            rw [← h.began, this] at hb
            exact nomatch hb
      · exact quiet_snoc _ h.quiet (.inl rfl)
      · simpa [asks_append, asks] using h.paced
      · simpa [asks_append, asks] using h.past
      · simpa [asks_append, asks] using h.due
    simp only [onStatus, softwareUpdate_eq]
    split
    · rename_i hst
      split
      · rename_i hm
        subst hst hm
        refine ⟨h.same, ?_, ?_, ?_, h.single, ?_, ?_, ?_, ?_⟩
        · simp only; rw [began_snoc]; simp
        · simp only; rw [over_snoc, h.over]
          constructor
          · exact .inl
          · rintro (x | ⟨_, m, hm, x⟩)
            · exact x
            · injection x with x y; exact absurd y.symm hm
        · exact quiet_snoc _ h.quiet (.inl rfl)
        · simpa [asks_append, asks] using h.paced
        · simpa [asks_append, asks] using h.past
        · simpa [asks_append, asks] using h.due
        · intro e; simp [hf] at e
      · rename_i hm
        split
        · rename_i hs
          subst hst
          refine ⟨h.same, ?_, ?_, ?_, h.single, ?_, ?_, ?_, ?_⟩
          · simp only; rw [began_snoc]; simp [hs, h.began.1 hs]
          · simp only; rw [over_snoc]
            exact ⟨fun _ => .inr ⟨h.began.1 hs, mode, hm, rfl⟩, fun _ => by trivial⟩
          · exact quiet_snoc _ h.quiet (.inl rfl)
          · simpa [asks_append, asks] using h.paced
          · simpa [asks_append, asks] using h.past
          · simpa [asks_append, asks] using h.due
          · intro e; simp [hf] at e
        · rename_i hs
          exact base (fun _ y => hm y) (fun _ _ => by simpa using hs)
    · rename_i hst
      exact base (fun x _ => hst x) (fun x _ => absurd x hst)

theorem inv_run (target : Nat) (es : List Ev) : Inv target (run target es) := by
  have gen : ∀ (es : List Ev) (t : Tool), Inv target t → Inv target (es.foldl step t) := by
    intro es
    induction es with
    | nil => intro t h; exact h
    | cons e es ih => intro t h; exact ih _ (inv_step h e)
  refine gen es _ (inv_request ?_ ⟨rfl, rfl⟩ (fun a ha => nomatch ha) rfl)
  refine ⟨rfl, ?_, ?_, ?_, by simp, by simp [asks], by simp [asks], by simp, fun e => nomatch e⟩
  · simp [Began]
  · simp [Over]
  · intro pre post e
    simp at e

theorem run_snoc (target : Nat) (es : List Ev) (e : Ev) : run target (es ++ [e]) = step (run target es) e := by
  simp only [run, List.foldl_append, List.foldl_cons, List.foldl_nil]

/-- **C146** (the end): the program ends, unless interrupted, only after the target has been updating and then in another mode. -/
theorem C146_exit (target : Nat) (es : List Ev) (h : (run target es).fin = .finished) : Over target (run target es).log :=
  (inv_run target es).over.1 ((inv_run target es).fin h).2

/-- **C146** (the end): then it does end, when `spin` returns next. -/
theorem C146_exits (target : Nat) (es : List Ev) (h : Over target (run target es).log) (hf : (run target es).fin = .running) :
    (run target (es ++ [.pause])).fin = .finished := by
  have hi := inv_run target es
  rw [run_snoc]
  simp [step, hf, hi.over.2 h, hi.began.2 (over_began h)]

/-- **C146** (requests): no update is requested after the target has begun its update. -/
theorem C146_quiet (target : Nat) (es : List Ev) (pre post : List Act)
    (h : (run target es).log = pre ++ .status target updating :: post) : asks post = [] :=
  (inv_run target es).quiet pre post h

/-- **C146** (requests): there is always at most one request waiting for its answer or planned, and requests are at least four seconds apart. -/
theorem C146_pace (target : Nat) (es : List Ev) :
    (run target es).outstanding + (run target es).deferred.length ≤ 1 ∧ (asks (run target es).log).Pairwise (fun a b => a + 4000 ≤ b) :=
  ⟨(inv_run target es).single, (inv_run target es).paced⟩

/-- The full claim: until the target has begun its update, a request is waiting for its answer or is planned. -/
def C146_statement : Prop := ∀ (target : Nat) (es : List Ev), (run target es).fin = .running → ¬ Began target (run target es).log →
  0 < (run target es).outstanding + (run target es).deferred.length

/-- **C146**, counterexample: if the target does not answer, e.g. while it starts, it is never asked again. -/
theorem C146_counterexample : ¬ C146_statement := by
  intro h
  have := h 10 [.answer none] (by decide) (by unfold Began; decide)
  exact absurd this (by decide)

theorem stopped (target : Nat) (es fs : List Ev) (h : (run target es).outstanding + (run target es).deferred.length = 0) :
    asks (run target (es ++ fs)).log = asks (run target es).log := by
  have gen : ∀ (fs : List Ev) (t : Tool), t.outstanding = 0 → t.deferred = [] → asks (fs.foldl step t).log = asks t.log := by
    intro fs
    induction fs with
    | nil => intro t _ _; rfl
    | cons f fs ih =>
      intro t h1 h2
      have : (step t f).outstanding = 0 ∧ (step t f).deferred = [] ∧ asks (step t f).log = asks t.log := by
        simp only [step]
        split
        · exact ⟨h1, h2, rfl⟩
        · cases f with
          | status s m =>
            simp only [onStatus, softwareUpdate_eq]
            (repeat' split) <;> exact ⟨h1, h2, by simp [asks_append, asks]⟩
          | answer e => simp [h1, h2]
          | tick d => exact ⟨h1, h2, rfl⟩
          | fire i => simp only [h2]; exact ⟨h1, h2, rfl⟩
          | pause => simp only; split <;> exact ⟨h1, h2, rfl⟩
          | interrupt => exact ⟨h1, h2, rfl⟩
      rw [List.foldl_cons, ih _ this.1 this.2.1, this.2.2]
  rw [run, List.foldl_append, ← run]
  exact gen fs _ (by omega) (List.length_eq_zero_iff.1 (by omega))

/-- **C146** (given up): after a request that was not answered, or was answered with "in progress", none is ever made again. -/
theorem C146_given_up (target : Nat) (es fs : List Ev) (e : Option Nat) (he : e = none ∨ e = some beingUpdated)
    (ho : 0 < (run target es).outstanding) (hf : (run target es).fin = .running) :
    asks (run target (es ++ [.answer e] ++ fs)).log = asks (run target es).log := by
  have hi := (inv_run target es).single
  have hs : (run target (es ++ [.answer e])).outstanding + (run target (es ++ [.answer e])).deferred.length = 0 ∧
      asks (run target (es ++ [.answer e])).log = asks (run target es).log := by
    rw [run_snoc]
    have hne : (run target es).outstanding ≠ 0 := by omega
    have h1 : (run target es).outstanding = 1 := by omega
    have h0 : (run target es).deferred = [] := List.length_eq_zero_iff.1 (by omega)
    rcases he with rfl | rfl <;> simp [step, hf, h1, h0, onResponse, inProgress_eq, asks_append, asks]
  rw [stopped _ _ _ hs.1, hs.2]

/-- **C146**, when every request is answered, and not with "in progress": the claim holds. -/
theorem C146_partial (target : Nat) (es : List Ev) (h1 : .answer none ∉ es) (h2 : .answer (some beingUpdated) ∉ es)
    (hb : ¬ Began target (run target es).log) : (run target es).outstanding + (run target es).deferred.length = 1 := by
  have hi := inv_run target es
  have hlt : (run target es).started = false := by
    rw [← Bool.not_eq_true]; exact fun h => hb (hi.began.1 h)
  have gen : ∀ (es : List Ev) (t : Tool), .answer none ∉ es → .answer (some beingUpdated) ∉ es → (t.started = false → 0 < t.outstanding + t.deferred.length) →
      (es.foldl step t).started = false → 0 < (es.foldl step t).outstanding + (es.foldl step t).deferred.length := by
    intro es
    induction es with
    | nil => intro t _ _ h hs; exact h hs
    | cons e es ih =>
      intro t n1 n2 h hs
      refine ih (step t e) (fun x => n1 (List.mem_cons_of_mem _ x)) (fun x => n2 (List.mem_cons_of_mem _ x)) ?_ hs
      intro hst
      simp only [step] at hst ⊢
      split
      · rename_i hf; rw [if_pos hf] at hst; exact h hst
      · rename_i hf
        rw [if_neg hf] at hst
        cases e with
        | status s m =>
          simp only [onStatus, softwareUpdate_eq] at hst ⊢
          split
          · rename_i hs; rw [if_pos hs] at hst
            split
            · rename_i hm; rw [if_pos hm] at hst; exact nomatch hst
            · rename_i hm; rw [if_neg hm] at hst
              split
              · rename_i hx; rw [if_pos hx] at hst; exact h hst
              · rename_i hx; rw [if_neg hx] at hst; exact h hst
          · rename_i hs; rw [if_neg hs] at hst; exact h hst
        | answer e =>
          simp only at hst ⊢
          split
          · rename_i ho; rw [if_pos ho] at hst; exact h hst
          · cases e with
            | none => exact absurd (List.mem_cons_self ..) n1
            | some c =>
              have hc : c ≠ beingUpdated := by rintro rfl; exact n2 (List.mem_cons_self ..)
              simp [onResponse, inProgress_eq, hc]
              omega
        | tick d => exact h hst
        | interrupt => exact h hst
        | pause => simp only at hst ⊢; split <;> (rename_i hp; simp only [hp] at hst; exact h hst)
        | fire i =>
          simp only at hst ⊢
          split
          · rename_i hd; simp only [hd] at hst; exact h hst
          · rename_i d hd
            simp only [hd] at hst
            split
            · rename_i hle
              simp only [hle, if_true, requestUpdate] at hst ⊢
              split
              · rename_i hx; rw [if_pos hx] at hst; simp [hx] at hst
              · simp only; omega
            · rename_i hle; rw [if_neg hle] at hst; exact h hst
  have := gen es _ h1 h2 (fun _ => by simp [requestUpdate]) hlt
  have h3 := hi.single
  simp only [run] at h3 ⊢
  omega

/-- **C146** (again): four seconds after such an answer the target is asked again if it has not begun its update. -/
theorem C146_again (target : Nat) (es : List Ev) (c d : Nat) (hc : c ≠ beingUpdated) (hd : 4000 ≤ d) (ho : 0 < (run target es).outstanding)
    (hf : (run target es).fin = .running) (hb : ¬ Began target (run target es).log) :
    (run target (es ++ [.answer (some c), .tick d, .fire 0])).log =
      (run target es).log ++ [.answer (some c), .ask ((run target es).now + d)] ∧
    (run target (es ++ [.answer (some c), .tick d, .fire 0])).outstanding = 1 := by
  have hi := inv_run target es
  have hs : (run target es).started = false := by
    rw [← Bool.not_eq_true]; exact fun h => hb (hi.began.1 h)
  have h1 : (run target es).outstanding = 1 := by have := hi.single; omega
  have h0 : (run target es).deferred = [] := List.length_eq_zero_iff.1 (by have := hi.single; omega)
  rw [run, List.foldl_append, ← run]
  simp [step, hf, h1, onResponse, inProgress_eq, hc, h0, requestUpdate, hs, hd]

/-- Status messages of other nodes. -/
def foreign (target : Nat) : Ev → Bool
  | .status s _ => s != target
  | _ => false

/-- The same in what was seen. -/
def alien (target : Nat) : Act → Bool
  | .status s _ => s != target
  | _ => false

/-- A tool that has not seen other nodes. -/
def blind (t : Tool) : Tool := { t with log := t.log.filter (fun a => !alien t.target a) }

theorem blind_step (t : Tool) (e : Ev) (hx : foreign t.target e = false) : step (blind t) e = blind (step t e) := by
  obtain ⟨target, started, complete, now, outstanding, deferred, fin, log⟩ := t
  simp only at hx
  by_cases hf : fin = .running
  · subst hf
    cases e with
    | status s m =>
      have hs : s = target := by simpa [foreign] using hx
      subst hs
      by_cases hm : m = updating <;> cases started <;> simp [step, blind, onStatus, softwareUpdate_eq, alien, hm]
    | answer e =>
      by_cases ho : outstanding = 0
      · simp [step, blind, ho]
      · cases e with
        | none => simp [step, blind, ho, onResponse, inProgress_eq, alien]
        | some c => by_cases hc : c = beingUpdated <;> simp [step, blind, ho, onResponse, inProgress_eq, alien, hc]
    | tick d => rfl
    | interrupt => rfl
    | pause => cases started <;> cases complete <;> rfl
    | fire i =>
      cases hd : deferred[i]? with
      | none => simp [step, blind, hd]
      | some due => by_cases hle : due ≤ now <;> cases started <;> simp [step, blind, hd, hle, requestUpdate, alien]
  · simp [step, blind, hf]

theorem step_target (t : Tool) (e : Ev) : (step t e).target = t.target := by
  simp only [step]
  split
  · rfl
  · cases e with
    | status s m => simp only [onStatus]; (repeat' split) <;> rfl
    | answer e => simp only; split; rfl; cases e <;> simp only [onResponse]; split <;> rfl
    | tick d => rfl
    | interrupt => rfl
    | pause => simp only; split <;> rfl
    | fire i => simp only [requestUpdate]; (repeat' split) <;> rfl

/-- **C146** (other nodes): what other nodes report makes no difference. -/
theorem C146_others (target : Nat) (es : List Ev) :
    run target (es.filter (fun e => !foreign target e)) = blind (run target es) := by
  have gen : ∀ (es : List Ev) (t : Tool), t.target = target → (es.filter (fun e => !foreign target e)).foldl step (blind t) = blind (es.foldl step t) := by
    intro es
    induction es with
    | nil => intro t _; rfl
    | cons e es ih =>
      intro t ht
      have hn := ih (step t e) ((step_target t e).trans ht)
      cases hfe : foreign target e with
      | false =>
        have hb := blind_step t e (by rw [ht]; exact hfe)
        simp only [List.filter_cons, hfe, Bool.not_false, if_true, List.foldl_cons, hb, hn]
      | true =>
        have hb : blind (step t e) = blind t := by
          cases e with
          | status s m =>
            have hs : s ≠ target := by simpa [foreign] using hfe
            simp only [step]
            split
            · rfl
            · simp [onStatus, softwareUpdate_eq, ht, hs, blind, alien]
          | _ => exact nomatch hfe
        simp only [List.filter_cons, hfe, Bool.not_true, Bool.false_eq_true, if_false, List.foldl_cons]
        rw [← hn, hb]
  exact gen es (requestUpdate { target := target }) rfl

/-- The target refuses first, is asked again after four seconds, updates and is operational again; another node is in maintenance all the while. -/
def sample : List Ev := [.status 20 2, .answer (some 1), .tick 4100, .fire 0, .status 20 3, .pause, .answer (some 0), .status 10 3, .tick 5000, .fire 0,
  .pause, .status 20 2, .status 10 3, .status 10 0, .pause]

example : (run 10 sample).fin = .finished ∧ asks (run 10 sample).log = [0, 4100] := by decide +kernel

example : Over 10 (run 10 (sample.take 14)).log ∧ (run 10 (sample.take 14)).fin = .running := by
  refine ⟨⟨0, by decide, ?_⟩, by decide +kernel⟩
  decide +kernel

example : 0 < (run 10 []).outstanding ∧ (run 10 []).fin = .running ∧ (.answer none : Ev) ∉ sample ∧ .answer (some beingUpdated) ∉ sample := by decide +kernel

end FirmwareUpdate
end Dronecan
