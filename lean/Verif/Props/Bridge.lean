import Verif.Model.Bridge

/-!
# C138: the bridge forwards every frame once, in order, to every other port
-/

namespace Dronecan
namespace Bridge
open Can

/-! ## Specification -/

/-- The frames that port `i` has received. -/
def receivedBy (i : Nat) (tr : List Ev) : List CANFrame := tr.filterMap fun
  | .received j f => if j = i then some f else none
  | _ => none

/-- The frames that have been given to `send_frame` of port `k` for port `i`. -/
def given (i k : Nat) (tr : List Ev) : List CANFrame := tr.filterMap fun
  | .sent j l f => if j = i ∧ l = k then some f else none
  | .refused j l f _ => if j = i ∧ l = k then some f else none
  | _ => none

/-- The frame is from a node that the bridge is to forward frames from. -/
def Wanted (cfg : Config) (f : CANFrame) : Prop := ∀ ids, cfg.filter = some ids → f.canId.toNat % 128 ∈ ids

/-- The driver's `receive` or `send_frame` raises something that is not `TxQueueFullError`. -/
def Step.raises : Step → Bool
  | .recv _ (.error _) => true
  | .send _ (.error e) => e ≠ .txQueueFull
  | _ => false

/-- C138 in full: whatever the drivers raise, no thread ends; at any time, every port but `i` has been given the frames that port `i` has received and that
are wanted, once and in order, except that the last of them may be missing; none is missing when the thread calls `receive`. -/
def C138_statement : Prop :=
  ∀ (cfg : Config) (h : List Step) (i k : Nat), i < cfg.ports → k < cfg.ports → i ≠ k →
    .died i ∉ (run cfg h).trace ∧
    ∃ last : List CANFrame, last.length ≤ 1 ∧ ((run cfg h).thread i).alive = true ∧
      (receivedBy i (run cfg h).trace).filter (forwards cfg) = given i k (run cfg h).trace ++ last ∧
      (((run cfg h).thread i).work = none → last = [])

/-! ## Proofs -/

theorem forwards_iff (cfg : Config) (f : CANFrame) : forwards cfg f = true ↔ Wanted cfg f := by
  unfold forwards Wanted
  cases cfg.filter with
  | none => simp
  | some ids => simp

/-- What a thread has still to do for port `k`. -/
def owed (t : Thread) (k : Nat) : List CANFrame :=
  match t.work with
  | none => []
  | some (f, ks) => if k ∈ ks then [f] else []

structure Inv (cfg : Config) (s : State) : Prop where
  order : ∀ i k, k < cfg.ports → i ≠ k → (receivedBy i s.trace).filter (forwards cfg) = given i k s.trace ++ owed (s.thread i) k
  self : ∀ i, given i i s.trace = []
  far : ∀ i k, cfg.ports ≤ k → given i k s.trace = []
  todo : ∀ i f ks, (s.thread i).work = some (f, ks) → ks.Nodup ∧ ks ≠ [] ∧ ∀ k ∈ ks, k ≠ i ∧ k < cfg.ports
  count : ∀ i, (s.thread i).count = ((receivedBy i s.trace).filter (forwards cfg)).length
  alive : ∀ i, (s.thread i).alive = true ↔ .died i ∉ s.trace

theorem receivedBy_append (i : Nat) (a b : List Ev) : receivedBy i (a ++ b) = receivedBy i a ++ receivedBy i b := List.filterMap_append

theorem given_append (i k : Nat) (a b : List Ev) : given i k (a ++ b) = given i k a ++ given i k b := List.filterMap_append

theorem owed_rest (f : CANFrame) (ks : List Nat) (k : Nat) (b : Bool) (c : Nat) :
    owed ⟨b, c, rest f ks⟩ k = if k ∈ ks then [f] else [] := by
  cases ks <;> simp [owed, rest]

theorem inv_recv (cfg : Config) (i : Nat) (r : Except Fail (Option CANFrame)) (s : State) (h : Inv cfg s) : Inv cfg (recvStep cfg i r s) := by
  unfold recvStep
  split
  rotate_left
  · exact h
  rename_i hc
  obtain ⟨hi, ha, hw⟩ := hc
  match r with
  | .error e =>
    simp only [emit, set]
    refine ⟨?_, ?_, ?_, ?_, ?_, ?_⟩
    · intro j k hk hjk
      have := h.order j k hk hjk
      simp only [receivedBy_append, given_append]
      by_cases hj : j = i
      · subst hj; simpa [receivedBy, given, owed] using this
      · simpa [receivedBy, given, hj] using this
    · intro j; simpa [given] using h.self j
    · intro j k hk; simpa [given] using h.far j k hk
    · intro j f ks
      have := h.todo j f ks
      by_cases hj : j = i
      · subst hj; simpa using this
      · simpa [hj] using this
    · intro j
      have := h.count j
      by_cases hj : j = i
      · subst hj; simpa [receivedBy] using this
      · simpa [receivedBy, hj] using this
    · intro j
      have := h.alive j
      by_cases hj : j = i
      · subst hj; simp
      · simpa [hj] using this
  | .ok none => exact h
  | .ok (some f) =>
    simp only
    by_cases hf : forwards cfg f = true
    · rw [if_pos hf]
      simp only [emit, set]
      have hne : ∀ k, k < cfg.ports → i ≠ k → k ∈ (List.range cfg.ports).filter (· ≠ i) := by
        intro k hk hik
        simp [hk, Ne.symm hik]
      refine ⟨?_, ?_, ?_, ?_, ?_, ?_⟩
      · intro j k hk hjk
        have := h.order j k hk hjk
        simp only [receivedBy_append, given_append, List.filter_append]
        by_cases hj : j = i
        · subst hj
          simp only [if_true]
          rw [owed_rest, if_pos (hne k hk hjk), this]
          simp [receivedBy, given, hf, owed, hw]
        · simpa [receivedBy, given, hj, Ne.symm hj] using this
      · intro j; simpa [given] using h.self j
      · intro j k hk; simpa [given] using h.far j k hk
      · intro j g ks
        by_cases hj : j = i
        · subst hj
          simp only [if_true]
          intro e
          have hks : (List.range cfg.ports).filter (· ≠ j) = ks ∧ ks ≠ [] := by
            generalize (List.range cfg.ports).filter (· ≠ j) = l at e
            cases l with
            | nil => exact nomatch e
            | cons a l => simp only [rest, Option.some.injEq, Prod.mk.injEq] at e; exact ⟨e.2, by rw [← e.2]; simp⟩
          obtain ⟨rfl, hnil⟩ := hks
          refine ⟨List.nodup_range.filter _, hnil, fun k hk => ?_⟩
          simp only [List.mem_filter, List.mem_range, decide_eq_true_eq] at hk
          exact ⟨hk.2, hk.1⟩
        · simpa [hj] using h.todo j g ks
      · intro j
        have := h.count j
        by_cases hj : j = i
        · subst hj; simp [receivedBy_append, receivedBy, hf] at this ⊢; exact this
        · simpa [receivedBy_append, receivedBy, hj, Ne.symm hj] using this
      · intro j
        have := h.alive j
        by_cases hj : j = i
        · subst hj; simpa using this
        · simpa [hj] using this
    · rw [if_neg hf]
      simp only [emit]
      refine ⟨?_, ?_, ?_, ?_, ?_, ?_⟩
      · intro j k hk hjk
        have := h.order j k hk hjk
        simp only [receivedBy_append, given_append, List.filter_append]
        by_cases hj : j = i
        · subst hj; simpa [receivedBy, given, hf] using this
        · simpa [receivedBy, given, Ne.symm hj] using this
      · intro j; simpa [given] using h.self j
      · intro j k hk; simpa [given] using h.far j k hk
      · exact h.todo
      · intro j
        have := h.count j
        by_cases hj : j = i
        · subst hj; simpa [receivedBy_append, receivedBy, hf] using this
        · simpa [receivedBy_append, receivedBy, Ne.symm hj] using this
      · intro j; simpa using h.alive j

/-- Port `k` is given the frame, by the way of an event that says so. -/
theorem inv_given (cfg : Config) (i k : Nat) (f : CANFrame) (ks : List Nat) (s : State) (h : Inv cfg s) (hw : (s.thread i).work = some (f, k :: ks))
    (e : Ev) (he : e = .sent i k f ∨ ∃ x, e = .refused i k f x) : Inv cfg (emit e (set i { s.thread i with work := rest f ks } s)) := by
  obtain ⟨hnd, -, hks⟩ := h.todo i f (k :: ks) hw
  have g : ∀ j l, given j l [e] = if i = j ∧ k = l then [f] else [] := by
    intro j l
    rcases he with rfl | ⟨x, rfl⟩ <;> simp only [given, List.filterMap_cons, List.filterMap_nil] <;> split <;> simp_all
  have r : ∀ j, receivedBy j [e] = [] := by
    intro j
    rcases he with rfl | ⟨x, rfl⟩ <;> rfl
  have d : ∀ j, .died j ≠ e := by
    intro j
    rcases he with rfl | ⟨x, rfl⟩ <;> simp
  have hk := hks k (by simp)
  simp only [emit, set]
  refine ⟨?_, ?_, ?_, ?_, ?_, ?_⟩
  · intro j l hl hjl
    have := h.order j l hl hjl
    simp only [receivedBy_append, given_append, r, g, List.append_nil]
    by_cases hj : j = i
    · subst hj
      simp only [if_true, owed_rest, true_and]
      rw [this]
      simp only [owed, hw]
      by_cases hkl : k = l
      · subst hkl
        simp [(List.nodup_cons.1 hnd).1]
      · simp [hkl, Ne.symm hkl]
    · rw [if_neg hj, if_neg (fun c => hj c.1.symm), List.append_nil]
      exact this
  · intro j
    rw [given_append, g, h.self, if_neg]
    · rfl
    · rintro ⟨rfl, rfl⟩; exact hk.1 rfl
  · intro j l hl
    rw [given_append, g, h.far j l hl, if_neg]
    · rfl
    · rintro ⟨rfl, rfl⟩; omega
  · intro j g' ks'
    by_cases hj : j = i
    · subst hj
      simp only [if_true]
      cases ks with
      | nil => intro e; exact nomatch e
      | cons a ks =>
        intro e
        simp only [rest, Option.some.injEq, Prod.mk.injEq] at e
        obtain ⟨rfl, rfl⟩ := e
        exact ⟨(List.nodup_cons.1 hnd).2, by simp, fun l hl => hks l (List.mem_cons_of_mem _ hl)⟩
    · simpa [hj] using h.todo j g' ks'
  · intro j
    have := h.count j
    rw [receivedBy_append, r, List.append_nil]
    by_cases hj : j = i
    · subst hj; simpa using this
    · simpa [hj] using this
  · intro j
    have := h.alive j
    rw [List.mem_append, List.mem_singleton, or_iff_left (d j)]
    by_cases hj : j = i
    · subst hj; simpa using this
    · simpa [hj] using this

theorem inv_die (cfg : Config) (i : Nat) (s : State) (h : Inv cfg s) :
    Inv cfg (emit (.died i) (set i { s.thread i with alive := false } s)) := by
  simp only [emit, set]
  refine ⟨?_, ?_, ?_, ?_, ?_, ?_⟩
  · intro j k hk hjk
    have := h.order j k hk hjk
    simp only [receivedBy_append, given_append]
    by_cases hj : j = i
    · subst hj; simpa [receivedBy, given, owed] using this
    · simpa [receivedBy, given, hj] using this
  · intro j; simpa [given] using h.self j
  · intro j k hk; simpa [given] using h.far j k hk
  · intro j f ks
    have := h.todo j f ks
    by_cases hj : j = i
    · subst hj; simpa using this
    · simpa [hj] using this
  · intro j
    have := h.count j
    by_cases hj : j = i
    · subst hj; simpa [receivedBy] using this
    · simpa [receivedBy, hj] using this
  · intro j
    have := h.alive j
    by_cases hj : j = i
    · subst hj; simp
    · simpa [hj] using this

theorem inv_send (cfg : Config) (i : Nat) (r : Except Fail Unit) (s : State) (h : Inv cfg s) : Inv cfg (sendStep i r s) := by
  unfold sendStep
  split
  rotate_left
  · exact h
  split
  rotate_left
  · exact h
  rename_i f k ks hw
  match r with
  | .ok _ => exact inv_given cfg i k f ks s h hw _ (.inl rfl)
  | .error e =>
    have := inv_given cfg i k f ks s h hw (.refused i k f e) (.inr ⟨e, rfl⟩)
    simp only
    split
    · exact this
    · exact inv_die cfg i _ this

theorem inv_steps (cfg : Config) (h : List Step) : ∀ s, Inv cfg s → Inv cfg (h.foldl (step cfg) s) := by
  induction h with
  | nil => exact fun _ h => h
  | cons x h ih =>
    intro s hs
    cases x with
    | recv i r => exact ih _ (inv_recv cfg i r s hs)
    | send i r => exact ih _ (inv_send cfg i r s hs)

theorem inv_run (cfg : Config) (h : List Step) : Inv cfg (run cfg h) := by
  refine inv_steps cfg h _ ⟨?_, ?_, ?_, ?_, ?_, ?_⟩
  · intro i k _ _; rfl
  · intro i; rfl
  · intro i k _; rfl
  · intro i f ks e; exact nomatch e
  · intro i; rfl
  · intro i; exact ⟨fun _ => List.not_mem_nil, fun _ => rfl⟩

/-- Whatever happens: every other port has been given the wanted frames that the port has received, once and in order, except that the last of them may be
missing; none is missing when the thread calls `receive`. -/
theorem C138_order (cfg : Config) (h : List Step) (i k : Nat) (hk : k < cfg.ports) (hik : i ≠ k) :
    ∃ last : List CANFrame, last.length ≤ 1 ∧ (receivedBy i (run cfg h).trace).filter (forwards cfg) = given i k (run cfg h).trace ++ last ∧
      (((run cfg h).thread i).work = none → last = []) := by
  refine ⟨_, ?_, (inv_run cfg h).order i k hk hik, ?_⟩
  · unfold owed
    split
    · simp
    · split <;> simp
  · intro hw
    simp [owed, hw]

/-- With a filter only frames of the nodes named are forwarded, without one all. -/
theorem C138_filter (cfg : Config) (f : CANFrame) : forwards cfg f = true ↔ Wanted cfg f := forwards_iff cfg f

/-- A port is never given the frames that it has received itself. -/
theorem C138_no_echo (cfg : Config) (h : List Step) (i : Nat) (f : CANFrame) (e : Fail) :
    .sent i i f ∉ (run cfg h).trace ∧ .refused i i f e ∉ (run cfg h).trace := by
  have hs := (inv_run cfg h).self i
  constructor <;> intro hm <;>
    · have : f ∈ given i i (run cfg h).trace := List.mem_filterMap.2 ⟨_, hm, by simp⟩
      rw [hs] at this
      cases this

/-- The counter counts the wanted frames received. -/
theorem C138_count (cfg : Config) (h : List Step) (i : Nat) :
    ((run cfg h).thread i).count = ((receivedBy i (run cfg h).trace).filter (forwards cfg)).length := (inv_run cfg h).count i

theorem died_steps (cfg : Config) (h : List Step) (hn : ∀ x ∈ h, x.raises = false) : ∀ s i, .died i ∈ (h.foldl (step cfg) s).trace → .died i ∈ s.trace := by
  induction h with
  | nil => exact fun _ _ h => h
  | cons x h ih =>
    intro s i hd
    have hx := hn x (by simp)
    have h1 := ih (fun y hy => hn y (by simp [hy])) _ i hd
    match x with
    | .recv j (.error e) => simp [Step.raises] at hx
    | .recv j (.ok r) =>
      simp only [step, recvStep] at h1
      split at h1
      · match r with
        | none => exact h1
        | some f =>
          simp only at h1
          split at h1 <;> simpa [emit, set] using h1
      · exact h1
    | .send j r =>
      simp only [step, sendStep] at h1
      split at h1
      · split at h1
        · match r with
          | .ok _ => simpa [emit, set] using h1
          | .error e =>
            simp only [Step.raises, ne_eq, decide_not, Bool.not_eq_false', decide_eq_true_eq] at hx
            simp only [if_pos hx] at h1
            simpa [emit, set] using h1
        · exact h1
      · exact h1

/-- C138 if the drivers raise nothing but `TxQueueFullError`, and that only from `send_frame`. (Missing: other exceptions, `C138_counterexample`.) -/
theorem C138_partial (cfg : Config) (h : List Step) (hn : ∀ x ∈ h, x.raises = false) (i k : Nat) (hk : k < cfg.ports) (hik : i ≠ k) :
    .died i ∉ (run cfg h).trace ∧
    ∃ last : List CANFrame, last.length ≤ 1 ∧ ((run cfg h).thread i).alive = true ∧
      (receivedBy i (run cfg h).trace).filter (forwards cfg) = given i k (run cfg h).trace ++ last ∧
      (((run cfg h).thread i).work = none → last = []) := by
  have hd : .died i ∉ (run cfg h).trace := fun hm => nomatch died_steps cfg h hn _ i hm
  obtain ⟨last, h1, h2, h3⟩ := C138_order cfg h i k hk hik
  exact ⟨hd, last, h1, ((inv_run cfg h).alive i).2 hd, h2, h3⟩

/-- A thread that is alive and is not forwarding a frame forwards the next wanted one to all others: it calls `send_frame` of each, in the order of the ports. -/
theorem C138_forwards (cfg : Config) (h : List Step) (i : Nat) (hi : i < cfg.ports) (ha : ((run cfg h).thread i).alive = true)
    (hw : ((run cfg h).thread i).work = none) (f : CANFrame) (hf : Wanted cfg f) :
    (run cfg (h ++ .recv i (.ok (some f)) :: List.replicate (cfg.ports - 1) (.send i (.ok ())))).trace =
      (run cfg h).trace ++ .received i f :: ((List.range cfg.ports).filter (· ≠ i)).map fun k => .sent i k f := by
  unfold run at *
  rw [List.foldl_append, List.foldl_cons]
  generalize h.foldl (step cfg) {} = s at *
  have key : ∀ (ks : List Nat) (s : State), (s.thread i).alive = true → (s.thread i).work = rest f ks →
      ((List.replicate ks.length (Step.send i (.ok ()))).foldl (step cfg) s).trace = s.trace ++ ks.map fun k => .sent i k f := by
    intro ks
    induction ks with
    | nil => intro s _ _; simp
    | cons k ks ih =>
      intro s ha hw
      rw [List.length_cons, List.replicate_succ, List.foldl_cons]
      have : step cfg s (.send i (.ok ())) = emit (.sent i k f) (set i { s.thread i with work := rest f ks } s) := by
        simp only [step, sendStep, if_pos ha, hw, rest]
      rw [this, ih _ (by simp [emit, set, ha]) (by simp [emit, set])]
      simp [emit, set]
  have hlen : ((List.range cfg.ports).filter (· ≠ i)).length = cfg.ports - 1 := by
    have e : (List.range cfg.ports).filter (· ≠ i) = (List.range cfg.ports).erase i := by
      rw [List.nodup_range.erase_eq_filter]
      apply List.filter_congr
      intro x _
      by_cases hx : x = i <;> simp [hx]
    rw [e, List.length_erase_of_mem (List.mem_range.2 hi), List.length_range]
  have h1 : step cfg s (.recv i (.ok (some f))) = set i { s.thread i with
      count := (s.thread i).count + 1
      work := rest f ((List.range cfg.ports).filter (· ≠ i)) } (emit (.received i f) s) := by
    simp only [step, recvStep, if_pos (And.intro hi (And.intro ha hw)), if_pos ((forwards_iff cfg f).2 hf), emit]
  rw [h1, ← hlen, key _ _ (by simp [set, ha, emit]) (by simp [set])]
  simp [set, emit]

/-- The end of one thread does not affect the others. -/
theorem C138_others (cfg : Config) (h : List Step) (i : Nat)
    (hn : ∀ x ∈ h, x.raises = true → ∀ r, x ≠ .recv i r ∧ ∀ r, x ≠ .send i r) : ((run cfg h).thread i).alive = true := by
  suffices key : ∀ (h : List Step) (s : State), (∀ x ∈ h, x.raises = true → ∀ r, x ≠ .recv i r ∧ ∀ r, x ≠ .send i r) → (s.thread i).alive = true →
      ((h.foldl (step cfg) s).thread i).alive = true from key h {} hn rfl
  intro h
  induction h with
  | nil => exact fun _ _ h => h
  | cons x h ih =>
    intro s hn hs
    refine ih _ (fun y hy => hn y (by simp [hy])) ?_
    have hx := hn x (by simp)
    match x with
    | .recv j r =>
      simp only [step, recvStep]
      split
      · match r with
        | .error e =>
          have hji : i ≠ j := fun e' => (hx rfl (.ok none)).1 |> fun _ => by
            subst e'; exact (hx rfl (.error e)).1 rfl
          simp [emit, set, hji, hs]
        | .ok none => exact hs
        | .ok (some f) =>
          simp only
          split
          · simp only [emit, set]
            split
            · rename_i e; subst e; exact hs
            · exact hs
          · exact hs
      · exact hs
    | .send j r =>
      simp only [step, sendStep]
      split
      · split
        · match r with
          | .ok _ =>
            simp only [emit, set]
            split
            · rename_i e; subst e; exact hs
            · exact hs
          | .error e =>
            simp only
            split
            · simp only [emit, set]
              split
              · rename_i e; subst e; exact hs
              · exact hs
            · rename_i he
              have hji : i ≠ j := fun e' => by
                subst e'; exact (hx (by simp [Step.raises, he]) (.ok none)).2 _ rfl
              simp [emit, set, hji, hs]
        · exact hs
      · exact hs

/-! ## The statement is false -/

def f1 : CANFrame := ⟨0x10015501, [1, 2, 3], true, false⟩
def f2 : CANFrame := ⟨0x10015502, [4], true, true⟩

/-- A driver that cannot send CAN FD frames raises `DriverError`; or the queue to an I/O process is full, and `queue.Full` is raised. The thread ends: the
third port does not get the frame, and no frame from the first port is forwarded any more. -/
theorem C138_counterexample : ¬ C138_statement := by
  intro h
  exact (h ⟨3, none⟩ [.recv 0 (.ok (some f2)), .send 0 (.error .other)] 0 1 (by decide) (by decide) (by decide)).1 (by decide +kernel)

/-- Once a thread has ended, nothing of its port is forwarded. -/
theorem C138_deaf (cfg : Config) (h h' : List Step) (i : Nat) (hd : .died i ∈ (run cfg h).trace) (k : Nat) :
    receivedBy i (run cfg (h ++ h')).trace = receivedBy i (run cfg h).trace ∧ given i k (run cfg (h ++ h')).trace = given i k (run cfg h).trace := by
  have ha : ((run cfg h).thread i).alive = false := by
    cases hb : ((run cfg h).thread i).alive with
    | false => rfl
    | true => exact absurd hd (((inv_run cfg h).alive i).1 hb)
  unfold run at *
  rw [List.foldl_append]
  generalize h.foldl (step cfg) {} = s at *
  suffices key : ∀ (h' : List Step) (s : State), (s.thread i).alive = false →
      receivedBy i (h'.foldl (step cfg) s).trace = receivedBy i s.trace ∧ given i k (h'.foldl (step cfg) s).trace = given i k s.trace from key h' s ha
  intro h'
  induction h' with
  | nil => exact fun _ _ => ⟨rfl, rfl⟩
  | cons x h' ih =>
    intro s ha
    have one : ((step cfg s x).thread i).alive = false ∧ receivedBy i (step cfg s x).trace = receivedBy i s.trace ∧
        given i k (step cfg s x).trace = given i k s.trace := by
      match x with
      | .recv j r =>
        simp only [step, recvStep]
        split
        · rename_i hc
          have hji : j ≠ i := by rintro rfl; rw [ha] at hc; simp at hc
          match r with
          | .error e => simp [emit, set, receivedBy, given, Ne.symm hji, ha]
          | .ok none => exact ⟨ha, rfl, rfl⟩
          | .ok (some f) =>
            simp only
            split <;> simp [emit, set, receivedBy, given, hji, Ne.symm hji, ha]
        · exact ⟨ha, rfl, rfl⟩
      | .send j r =>
        simp only [step, sendStep]
        split
        · rename_i hc
          have hji : j ≠ i := by rintro rfl; rw [ha] at hc; simp at hc
          split
          · match r with
            | .ok _ => simp [emit, set, receivedBy, given, hji, Ne.symm hji, ha]
            | .error e =>
              simp only
              split <;> simp [emit, set, receivedBy, given, hji, Ne.symm hji, ha]
          · exact ⟨ha, rfl, rfl⟩
        · exact ⟨ha, rfl, rfl⟩
    have h2 := ih _ one.1
    rw [List.foldl_cons]
    exact ⟨h2.1.trans one.2.1, h2.2.trans one.2.2⟩

/-- `TransferError` from `receive`, which the code means to ignore, ends the thread. -/
theorem C138_transfer_error : .died 0 ∈ (run ⟨2, none⟩ [.recv 0 (.error .transferError)]).trace := by decide +kernel

/-! ## Ports on the same bus -/

/-- Every frame that a port receives was on its bus: put there by a node, of whose frames `nodes` is the list, or by the bridge through another port. -/
def Fed (bus : Nat → Nat) (nodes : List (Nat × CANFrame)) (tr : List Ev) : Prop :=
  ∀ a b i f, tr = a ++ .received i f :: b → (bus i, f) ∈ nodes ∨ ∃ j k, .sent j k f ∈ a ∧ bus k = bus i ∧ k ≠ i

/-- If two ports are on the same bus, then a single frame of a node may be sent any number of times. -/
theorem C138_storm (f : CANFrame) (n : Nat) :
    ∃ h : List Step, Fed (fun _ => 0) [(0, f)] (run ⟨2, none⟩ h).trace ∧ (given 0 1 (run ⟨2, none⟩ h).trace).length = n := by
  let round : List Step := [.recv 0 (.ok (some f)), .send 0 (.ok ())]
  have key : ∀ n, (run ⟨2, none⟩ (List.replicate n round).flatten).trace = (List.replicate n [Ev.received 0 f, Ev.sent 0 1 f]).flatten ∧
      ((run ⟨2, none⟩ (List.replicate n round).flatten).thread 0).alive = true ∧
      ((run ⟨2, none⟩ (List.replicate n round).flatten).thread 0).work = none := by
    intro n
    induction n with
    | zero => exact ⟨rfl, rfl, rfl⟩
    | succ n ih =>
      obtain ⟨i1, i2, i3⟩ := ih
      unfold run at *
      rw [List.replicate_succ', List.replicate_succ', List.flatten_concat, List.flatten_concat, List.foldl_append]
      generalize (List.replicate n round).flatten.foldl (step ⟨2, none⟩) {} = s at *
      have e : (List.range 2).filter (· ≠ 0) = [1] := by decide
      have e' : rest f ((List.range 2).filter (· ≠ 0)) = some (f, [1]) := by rw [e]; rfl
      have h1 : step ⟨2, none⟩ s (.recv 0 (.ok (some f))) = set 0 { s.thread 0 with
          count := (s.thread 0).count + 1
          work := some (f, [1]) } (emit (.received 0 f) s) := by
        simp only [step, recvStep, i2, i3, and_self, if_pos, forwards, emit, Nat.zero_lt_succ, e']
      have h2 : ∀ t : State, (t.thread 0).alive = true → (t.thread 0).work = some (f, [1]) →
          step ⟨2, none⟩ t (.send 0 (.ok ())) = emit (.sent 0 1 f) (set 0 { t.thread 0 with work := none } t) := by
        intro t t1 t2
        simp only [step, sendStep, if_pos t1, t2, rest]
      simp only [round, List.foldl_cons, List.foldl_nil]
      rw [h1, h2 _ (by simp [set, emit, i2]) (by simp [set])]
      simp [emit, set, i1, i2]
  refine ⟨(List.replicate n round).flatten, ?_, ?_⟩
  · intro a b i g hab
    rw [(key n).1] at hab
    have hm : Ev.received i g ∈ (List.replicate n [Ev.received 0 f, Ev.sent 0 1 f]).flatten := by rw [hab]; simp
    obtain ⟨l, hl, hm⟩ := List.mem_flatten.1 hm
    rw [(List.mem_replicate.1 hl).2] at hm
    simp only [List.mem_cons, Ev.received.injEq, reduceCtorEq, List.not_mem_nil, or_false] at hm
    exact .inl (by simp [hm.2])
  · rw [(key n).1]
    clear key
    induction n with
    | zero => rfl
    | succ n ih => rw [List.replicate_succ', List.flatten_concat, given_append, List.length_append, ih]; rfl

/-! ## Examples -/

/-- Frames of nodes 1 and 2 cross; a queue is full; the filter lets only node 1 pass. -/
example : (run ⟨3, some [1]⟩ [.recv 0 (.ok (some f1)), .recv 1 (.ok (some f2)), .send 0 (.error .txQueueFull), .recv 1 (.ok none), .send 0 (.ok ()),
    .recv 1 (.ok (some f1)), .send 1 (.ok ())]).trace = [.received 0 f1, .received 1 f2, .refused 0 1 f1 .txQueueFull, .sent 0 2 f1, .received 1 f1,
      .sent 1 0 f1] := by decide +kernel

example : ∀ x ∈ [Step.recv 0 (.ok (some f1)), .send 0 (.error .txQueueFull)], x.raises = false := by decide

end Bridge
end Dronecan
