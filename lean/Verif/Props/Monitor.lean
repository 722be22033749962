import Verif.Proofs.Monitor

/-!
# The node monitor (C36, C37, C38)
-/

namespace Dronecan
namespace Monitor
open PyM

variable (env : MEnv)

/-! ## Specification -/

/-- When an operation means that node `k` was heard from: the timestamp of the transfer. -/
def heardFrom (k : Nat) : Op → Option Int
  | .status m _ => if m.src = k then some m.ts else none
  | .info m => if m.src = k then some m.ts else none
  | _ => none

/-- The timestamp of the last transfer heard from node `k`. -/
def lastHeard (k : Nat) (ops : List Op) : Option Int := (ops.filterMap (heardFrom k)).getLast?

/-- What was appended to the trace between two states. -/
def since (s s' : Mon) : List MEv := s'.trace.drop s.trace.length

/-- The timestamp of a request sent for entry `x`. -/
def requestFor (x : Nat) : MEv → Option Int
  | .request y _ t => if y = x then some t else none
  | _ => none

/-- The timestamps of the requests sent for entry `x`. -/
def requestsFor (x : Nat) (tr : List MEv) : List Int := tr.filterMap (requestFor x)

/-- Which callback was called with which event about which entry. -/
def callOf : MEv → Option (Nat × Kind × Nat)
  | .called cb kind e => some (cb, kind, e.serial)
  | _ => none

/-- The calls of the callbacks. -/
def calls (tr : List MEv) : List (Nat × Kind × Nat) := tr.filterMap callOf

/-- The entries (objects) in the registry. -/
def serials (s : Mon) : List Nat := s.registry.map (·.2.serial)

/-- The entries that left the registry between two states. -/
def left (s s' : Mon) : List Nat := (serials s).filter fun x => !(serials s').contains x

/-- The entries that joined the registry between two states. -/
def joined (s s' : Mon) : List Nat := (serials s').filter fun x => !(serials s).contains x

/-- Every callback hears every event, in order. -/
def announce (cbs : List Nat) (evs : List (Kind × Nat)) : List (Nat × Kind × Nat) :=
  evs.flatMap fun ev => cbs.map fun cb => (cb, ev)

/-! ## Invariants -/

/-- The registry is in order. -/
structure RInv (s : Mon) : Prop where
  ok : s.registry.Ok
  lt : ∀ k e, s.registry.get? k = some e → e.serial < s.nextSerial
  inj : ∀ k k' e e', s.registry.get? k = some e → s.registry.get? k' = some e' → e.serial = e'.serial → k = k'
  ret : ∀ k e, s.registry.get? k = some e → e.retries ≤ maxRetries
  nid : ∀ k e, s.registry.get? k = some e → e.nodeId = k

theorem RInv.sub {s s' : Mon} (h : RInv s) (hok : s'.registry.Ok) (hn : s'.nextSerial = s.nextSerial)
    (hs : ∀ k e, s'.registry.get? k = some e → s.registry.get? k = some e) : RInv s' :=
  ⟨hok, fun k e he => hn ▸ h.lt k e (hs k e he), fun k k' e e' he he' => h.inj k k' e e' (hs k e he) (hs k' e' he'),
    fun k e he => h.ret k e (hs k e he), fun k e he => h.nid k e (hs k e he)⟩

variable {env}

theorem Found.serial_lt {s s' : Mon} {nid : Nat} {e0 : Entry} {new : Bool} {evs : List MEv} (h : RInv s)
    (hf : Found env s s' nid e0 new evs) : e0.serial < s'.nextSerial ∧ s.nextSerial ≤ s'.nextSerial := by
  cases new with
  | false =>
    obtain ⟨h1, -, h2, -⟩ := hf.old rfl
    rw [h2]; exact ⟨h.lt _ _ h1, Nat.le_refl _⟩
  | true =>
    obtain ⟨h1, h2, -⟩ := hf.fresh rfl
    rw [h2, h1]; exact ⟨Nat.lt_succ_self _, Nat.le_succ _⟩

theorem Found.serial_ne {s s' : Mon} {nid : Nat} {e0 : Entry} {new : Bool} {evs : List MEv} (h : RInv s)
    (hf : Found env s s' nid e0 new evs) {k : Nat} {e : Entry} (he : s.registry.get? k = some e)
    (hs : e.serial = e0.serial) : k = nid := by
  cases new with
  | false => exact h.inj _ _ _ _ he (hf.old rfl).1 hs
  | true =>
    have := h.lt k e he
    rw [hs, (hf.fresh rfl).1] at this
    exact absurd this (Nat.lt_irrefl _)

theorem RInv.found {s s' : Mon} {nid : Nat} {e0 e2 : Entry} {new : Bool} {evs : List MEv} (h : RInv s)
    (hf : Found env s s' nid e0 new evs) (hg : s'.registry.get? nid = some e2) (hs : e2.serial = e0.serial)
    (hr : e2.retries ≤ maxRetries) (hn : e2.nodeId = nid) : RInv s' := by
  have hlt := hf.serial_lt h
  refine ⟨hf.ok, ?_, ?_, ?_, ?_⟩
  · intro k e he
    by_cases hk : k = nid
    · subst hk
      rw [hg] at he; injection he with he; subst he
      rw [hs]; exact hlt.1
    · rw [hf.others k hk] at he
      exact Nat.lt_of_lt_of_le (h.lt k e he) hlt.2
  · intro k k' e e' he he' hse
    by_cases hk : k = nid <;> by_cases hk' : k' = nid
    · rw [hk, hk']
    · subst hk
      rw [hg] at he; injection he with he; subst he
      rw [hf.others k' hk'] at he'
      exact (hf.serial_ne h he' (hse.symm.trans hs)).symm
    · subst hk'
      rw [hg] at he'; injection he' with he'; subst he'
      rw [hf.others k hk] at he
      exact hf.serial_ne h he (hse.trans hs)
    · rw [hf.others k hk] at he
      rw [hf.others k' hk'] at he'
      exact h.inj k k' e e' he he' hse
  · intro k e he
    by_cases hk : k = nid
    · subst hk
      rw [hg] at he; injection he with he; subst he
      exact hr
    · rw [hf.others k hk] at he
      exact h.ret k e he
  · intro k e he
    by_cases hk : k = nid
    · subst hk
      rw [hg] at he; injection he with he; subst he
      exact hn
    · rw [hf.others k hk] at he
      exact h.nid k e he

theorem Found.retries {s s' : Mon} {nid : Nat} {e0 : Entry} {new : Bool} {evs : List MEv} (h : RInv s)
    (hf : Found env s s' nid e0 new evs) : e0.retries ≤ maxRetries := by
  cases new with
  | false => exact h.ret _ _ (hf.old rfl).1
  | true => rw [(hf.fresh rfl).1]; exact Nat.le_refl _

/-- The parts of an updated entry. -/
theorem updateFromStatus_parts (e : Entry) (m : Status) :
    (e.updateFromStatus m).serial = e.serial ∧ (e.updateFromStatus m).nodeId = m.src ∧
    (e.updateFromStatus m).ts = m.ts ∧ (e.updateFromStatus m).uptime = some m.uptime ∧
    (e.updateFromStatus m).requestedAt = e.requestedAt ∧
    (((∀ u, e.uptime = some u → u ≤ m.uptime) → (e.updateFromStatus m).retries = e.retries ∧
      (e.updateFromStatus m).info = e.info)) ∧
    ((e.updateFromStatus m).retries = e.retries ∨ (e.updateFromStatus m).retries = maxRetries) := by
  simp only [Entry.updateFromStatus]
  cases hu : e.uptime with
  | none => exact ⟨by trivial, by trivial, by trivial, by trivial, by trivial, fun _ => ⟨by trivial, by trivial⟩, Or.inl (by trivial)⟩
  | some u =>
    dsimp only
    split
    · rename_i hlt
      exact ⟨by trivial, by trivial, by trivial, by trivial, by trivial, fun h => absurd (h u rfl) (by omega), Or.inr (by trivial)⟩
    · exact ⟨by trivial, by trivial, by trivial, by trivial, by trivial, fun _ => ⟨by trivial, by trivial⟩, Or.inl (by trivial)⟩

theorem afterInfo_parts (e : Entry) (m : InfoMsg) : (afterInfo e m).serial = e.serial ∧ (afterInfo e m).nodeId = m.src ∧
    (afterInfo e m).ts = m.ts ∧ (afterInfo e m).retries = maxRetries ∧ (afterInfo e m).requestedAt = e.requestedAt := by
  unfold afterInfo
  split <;> exact ⟨rfl, rfl, rfl, rfl, rfl⟩

theorem get?_filter {d : Dict Nat Entry} (h : d.Ok) (keep : Nat → Bool) (k : Nat) :
    Dict.get? (d.filter fun x => keep x.1) k = if keep k then d.get? k else none := by
  induction d with
  | nil => simp [Dict.get?]
  | cons x d ih =>
    obtain ⟨k', v⟩ := x
    obtain ⟨h1, h2⟩ := List.nodup_cons.1 h
    have ih := ih h2
    simp only [List.filter_cons]
    by_cases hk : k' = k
    · subst hk
      cases hc : keep k' with
      | true => simp [Dict.get?]
      | false =>
        rw [hc] at ih
        simpa using ih
    · cases hc : keep k' with
      | true => simp [Dict.get?, hk, ih]
      | false => simp [Dict.get?, hk, ih]

theorem ok_filter {d : Dict Nat Entry} (h : d.Ok) (keep : Nat → Bool) : Dict.Ok (d.filter fun x => keep x.1) :=
  (List.filter_sublist.map Prod.fst).nodup h

/-- What a sweep does to the state. -/
theorem removeStale_spec (s : Mon) (hok : s.registry.Ok) :
    ∃ (keep : Nat → Bool) (r : Except Err Unit) (evs : List MEv) (c : Clock),
    removeStale env s =
      (r, { s with
        registry := s.registry.filter fun x => keep x.1
        clock := c
        trace := s.trace ++ evs }) ∧
    s.clock.now ≤ c.now ∧
    (∀ x ∈ s.registry, keep x.1 = false → x.2.ts + env.offline < c.now) ∧
    (r = .ok () → ∀ x ∈ s.registry, keep x.1 = true → s.clock.now ≤ x.2.ts + env.offline) ∧
    (∀ y ∈ evs, ∃ cb, ∃ x ∈ s.registry, keep x.1 = false ∧ y = .called cb .offline x.2) ∧
    (NoRaise env → r = .ok () ∧
      evs = ((s.registry.filter fun x => !keep x.1).flatMap fun x => s.callbacks.map (.called · .offline x.2))) := by
  obtain ⟨keep, r, evs, c, h⟩ := sweep_spec env s.registry [] s rfl hok
  refine ⟨keep, r, evs, c, ?_⟩
  simp only [removeStale, bind_run, get_run]
  exact h

theorem step_rinv {s : Mon} (h : RInv s) (op : Op) : RInv (step env s op) := by
  cases op with
  | status m a =>
    rcases status_spec env m a s h.ok with hg | ⟨e0, new, evs1, evs2, rs, e2, hf, hg, -, -, -, -, he⟩
    · obtain ⟨-, h1, h2, -⟩ := hg
      exact h.sub (h1 ▸ h.ok) h2 (by simp only [step]; rw [h1]; exact fun _ _ h => h)
    · obtain ⟨p1, p2, -, -, -, -, p3⟩ := updateFromStatus_parts e0 m
      have hr : (e0.updateFromStatus m).retries ≤ maxRetries := by
        rcases p3 with p3 | p3 <;> rw [p3]
        · exact hf.retries h
        · exact Nat.le_refl _
      rcases he with ⟨-, rfl, -⟩ | ⟨-, -, rfl⟩
      · exact h.found hf hg p1 hr p2
      · exact h.found hf hg p1 (Nat.le_trans (Nat.sub_le _ _) hr) p2
  | info m =>
    rcases info_spec env m s h.ok with hg | ⟨e0, new, evs1, evs2, hf, hg, -⟩
    · obtain ⟨-, h1, h2, -⟩ := hg
      exact h.sub (h1 ▸ h.ok) h2 (by simp only [step]; rw [h1]; exact fun _ _ h => h)
    · obtain ⟨p1, p2, -, p3, -⟩ := afterInfo_parts e0 m
      exact h.found hf hg p1 (Nat.le_of_eq p3) p2
  | infoTimeout => exact h
  | sweep =>
    obtain ⟨keep, r, evs, c, h1, -⟩ := removeStale_spec (env := env) s h.ok
    simp only [step, h1]
    refine h.sub (ok_filter h.ok keep) rfl ?_
    intro k e he
    simp only [get?_filter h.ok] at he
    split at he
    · exact he
    · cases he
  | get nid =>
    have hc := getEntry_case env nid s h.ok
    simp only [step]
    generalize getEntry env nid s = x at hc
    cases hc with
    | absent => exact h
    | fresh e hg hf => exact h.sub h.ok rfl fun _ _ h => h
    | stale e evs hg hf hx hn =>
      refine h.sub (Dict.ok_del h.ok nid) rfl ?_
      intro k e' he
      simp only [Dict.get?_del h.ok] at he
      split at he
      · cases he
      · exact he
    | raised e evs err hg hf hx hn => exact h.sub h.ok rfl fun _ _ h => h
  | addHandler cb => exact h.sub h.ok rfl fun _ _ h => h
  | removeHandler cb => exact h.sub h.ok rfl fun _ _ h => h

theorem init_rinv (c : Clock) : RInv (init c) :=
  ⟨Dict.ok_nil, fun _ _ h => (by cases h), fun _ _ _ _ h => (by cases h), fun _ _ h => (by cases h),
    fun _ _ h => (by cases h)⟩

theorem run_rinv {s : Mon} (h : RInv s) (ops : List Op) : RInv (run env s ops) := by
  induction ops generalizing s with
  | nil => exact h
  | cons op ops ih => exact ih (step_rinv h op)

/-- Induction over histories, from the end. -/
theorem history_induction {P : List Op → Mon → Prop} (c : Clock) (h0 : P [] (init c))
    (hstep : ∀ ops op s, RInv s → P ops s → P (ops ++ [op]) (step env s op)) (ops : List Op) :
    P ops (run env (init c) ops) := by
  suffices ∀ (pre : List Op) (s : Mon), RInv s → P pre s → P (pre ++ ops) (run env s ops) from
    this [] _ (init_rinv c) h0
  induction ops with
  | nil => intro pre s _ h; rw [List.append_nil]; exact h
  | cons op ops ih =>
    intro pre s hi h
    have := ih (pre ++ [op]) _ (step_rinv hi op) (hstep pre op s hi h)
    rw [List.append_assoc] at this
    exact this

/-! ## C36 -/

/-- The registry only holds what was heard; without raising callbacks, what was heard last. -/
def HInv (env : MEnv) (ops : List Op) (s : Mon) : Prop :=
  ∀ k e, s.registry.get? k = some e → (∃ op ∈ ops, heardFrom k op = some e.ts) ∧
    (NoRaise env → lastHeard k ops = some e.ts)

theorem lastHeard_snoc (k : Nat) (ops : List Op) (op : Op) :
    lastHeard k (ops ++ [op]) = match heardFrom k op with | some m => some m | none => lastHeard k ops := by
  simp only [lastHeard, List.filterMap_append, List.filterMap_cons, List.filterMap_nil]
  cases heardFrom k op <;> simp

theorem HInv.sub {ops : List Op} {op : Op} {s s' : Mon} (h : HInv env ops s)
    (hs : ∀ k e, s'.registry.get? k = some e → s.registry.get? k = some e)
    (ho : NoRaise env → ∀ k, heardFrom k op = none) : HInv env (ops ++ [op]) s' := by
  intro k e he
  obtain ⟨⟨op', h1, h2⟩, h3⟩ := h k e (hs k e he)
  refine ⟨⟨op', List.mem_append_left _ h1, h2⟩, fun hn => ?_⟩
  rw [lastHeard_snoc, ho hn k]
  exact h3 hn

theorem HInv.found {ops : List Op} {op : Op} {s s' : Mon} {nid : Nat} {e0 e2 : Entry} {new : Bool} {evs : List MEv}
    (h : HInv env ops s) (hf : Found env s s' nid e0 new evs) (hg : s'.registry.get? nid = some e2)
    (h1 : heardFrom nid op = some e2.ts) (h2 : ∀ k, k ≠ nid → heardFrom k op = none) : HInv env (ops ++ [op]) s' := by
  intro k e he
  by_cases hk : k = nid
  · subst hk
    rw [hg] at he; injection he with he; subst he
    refine ⟨⟨op, by simp, h1⟩, fun _ => ?_⟩
    rw [lastHeard_snoc, h1]
  · rw [hf.others k hk] at he
    obtain ⟨⟨op', i1, i2⟩, i3⟩ := h k e he
    refine ⟨⟨op', List.mem_append_left _ i1, i2⟩, fun hn => ?_⟩
    rw [lastHeard_snoc, h2 k hk]
    exact i3 hn

theorem run_hinv (c : Clock) (ops : List Op) : HInv env ops (run env (init c) ops) := by
  refine history_induction (env := env) c (P := HInv env) (fun _ _ h => by cases h) ?_ ops
  intro ops op s hi h
  cases op with
  | status m a =>
    rcases status_spec env m a s hi.ok with hg | ⟨e0, new, evs1, evs2, rs, e2, hf, hg, -, -, -, -, he⟩
    · obtain ⟨h0, h1, -⟩ := hg
      refine h.sub (fun k e he => ?_) (fun hn => absurd hn h0)
      simp only [step] at he
      rw [h1] at he
      exact he
    · obtain ⟨-, -, p1, -⟩ := updateFromStatus_parts e0 m
      refine h.found hf hg ?_ (fun k hk => by simp [heardFrom, Ne.symm hk])
      rcases he with ⟨-, rfl, -⟩ | ⟨-, -, rfl⟩ <;> simp [heardFrom, p1]
  | info m =>
    rcases info_spec env m s hi.ok with hg | ⟨e0, new, evs1, evs2, hf, hg, -⟩
    · obtain ⟨h0, h1, -⟩ := hg
      refine h.sub (fun k e he => ?_) (fun hn => absurd hn h0)
      simp only [step] at he
      rw [h1] at he
      exact he
    · refine h.found hf hg ?_ (fun k hk => by simp [heardFrom, Ne.symm hk])
      simp [heardFrom, (afterInfo_parts e0 m).2.2.1]
  | infoTimeout => exact h.sub (fun _ _ h => h) (fun _ _ => rfl)
  | sweep =>
    refine h.sub (fun k e he => ?_) (fun _ _ => rfl)
    obtain ⟨keep, r, evs, c, h1, -⟩ := removeStale_spec (env := env) s hi.ok
    simp only [step, h1, get?_filter hi.ok] at he
    split at he
    · exact he
    · cases he
  | get nid =>
    refine h.sub (fun k e he => ?_) (fun _ _ => rfl)
    have hc := getEntry_case env nid s hi.ok
    simp only [step] at he
    generalize getEntry env nid s = x at hc he
    cases hc with
    | absent => exact he
    | fresh => exact he
    | stale e evs hg hf hx hn =>
      simp only [Dict.get?_del hi.ok] at he
      split at he
      · cases he
      · exact he
    | raised => exact he
  | addHandler cb => exact h.sub (fun _ _ h => h) (fun _ _ => rfl)
  | removeHandler cb => exact h.sub (fun _ _ h => h) (fun _ _ => rfl)

variable (env)

/-- Every listed entry belongs to a node that was heard from, at the time the entry records. -/
theorem C36_heard (c : Clock) (ops : List Op) (k : Nat) (e : Entry)
    (h : (run env (init c) ops).registry.get? k = some e) : e.nodeId = k ∧ ∃ op ∈ ops, heardFrom k op = some e.ts :=
  ⟨(run_rinv (init_rinv c) ops).nid k e h, (run_hinv c ops k e h).1⟩

/-- If no callback raises, that is the time at which the node was heard from last. -/
theorem C36_last_heard (hn : NoRaise env) (c : Clock) (ops : List Op) (k : Nat) (e : Entry)
    (h : (run env (init c) ops).registry.get? k = some e) : lastHeard k ops = some e.ts :=
  (run_hinv c ops k e h).2 hn

/-- After a completed sweep every listed entry was heard from within the timeout before the sweep. -/
theorem C36_sweep (c : Clock) (ops : List Op) (s' : Mon)
    (h : removeStale env (run env (init c) ops) = (.ok (), s')) (k : Nat) (e : Entry)
    (he : s'.registry.get? k = some e) :
    (run env (init c) ops).registry.get? k = some e ∧ ∃ op ∈ ops, ∃ t, heardFrom k op = some t ∧
      (run env (init c) ops).clock.now ≤ t + env.offline := by
  have hi := run_rinv (env := env) (init_rinv c) ops
  have hh := run_hinv (env := env) c ops
  generalize run env (init c) ops = s at *
  obtain ⟨keep, r, evs, c', h1, -, -, h2, -⟩ := removeStale_spec (env := env) s hi.ok
  rw [h1] at h
  injection h with h3 h4
  subst h4
  simp only [get?_filter hi.ok] at he
  split at he
  · rename_i hk
    refine ⟨he, ?_⟩
    obtain ⟨⟨op, ho, ht⟩, -⟩ := hh k e he
    exact ⟨op, ho, e.ts, ht, h2 h3 (k, e) ((Dict.mem_iff_get? hi.ok k e).2 he) hk⟩
  · cases he

/-- A sweep never removes an entry that was heard from within the timeout before the end of the sweep; this holds
even if callbacks raise. -/
theorem C36_kept (c : Clock) (ops : List Op) (k : Nat) (e : Entry)
    (he : (run env (init c) ops).registry.get? k = some e)
    (hf : (removeStale env (run env (init c) ops)).2.clock.now ≤ e.ts + env.offline) :
    (removeStale env (run env (init c) ops)).2.registry.get? k = some e := by
  have hi := run_rinv (env := env) (init_rinv c) ops
  generalize run env (init c) ops = s at *
  obtain ⟨keep, r, evs, c', h1, -, h2, -⟩ := removeStale_spec (env := env) s hi.ok
  rw [h1] at hf ⊢
  simp only [get?_filter hi.ok] at hf ⊢
  cases hk : keep k with
  | true => simpa using he
  | false =>
    have := h2 (k, e) ((Dict.mem_iff_get? hi.ok k e).2 he) hk
    simp only at this
    omega

/-- `get` returns only entries heard from within the timeout before the moment it looks at the clock. -/
theorem C36_get (c : Clock) (ops : List Op) (nid : Nat) (e : Entry) (s' : Mon)
    (h : getEntry env nid (run env (init c) ops) = (.ok e, s')) :
    (run env (init c) ops).clock.now ≤ s'.clock.now ∧ s'.clock.now ≤ e.ts + env.offline ∧
      s'.registry.get? nid = some e ∧ e.nodeId = nid ∧ ∃ op ∈ ops, heardFrom nid op = some e.ts := by
  have hi := run_rinv (env := env) (init_rinv c) ops
  have hh := run_hinv (env := env) c ops
  generalize run env (init c) ops = s at *
  have hc := getEntry_case env nid s hi.ok
  rw [h] at hc
  cases hc with
  | fresh e hg hf => exact ⟨tick_le _ _, hf, hg, hi.nid _ _ hg, (hh _ _ hg).1⟩

/-! ## C37 -/

variable {env}

theorem since_append {s s' : Mon} {evs : List MEv} (h : s'.trace = s.trace ++ evs) : since s s' = evs := by
  simp [since, h]

/-- The trace of a step, in general. -/
structure StepTrace (s s' : Mon) (rs : List MEv) : Prop where
  ext : ∃ evs, s'.trace = s.trace ++ (evs ++ rs) ∧ ∀ x ∈ evs, ∃ cb kind e, x = .called cb kind e

theorem StepTrace.requests {s s' : Mon} {rs : List MEv} (h : StepTrace s s' rs) (x : Nat) :
    requestsFor x s'.trace = requestsFor x s.trace ++ requestsFor x rs := by
  obtain ⟨evs, h1, h2⟩ := h.ext
  have : requestsFor x evs = [] := by
    simp only [requestsFor, List.filterMap_eq_nil_iff]
    intro y hy
    obtain ⟨cb, kind, e, rfl⟩ := h2 y hy
    rfl
  rw [h1]
  simp only [requestsFor, List.filterMap_append] at *
  rw [this, List.nil_append]

/-- What a step does to the requests and to the entries: either it sends one request, for an entry that is not
discovered, in answer to a status message, or none. -/
inductive ReqCase (s : Mon) (op : Op) (s' : Mon) : Prop
  | none (ht : StepTrace s s' []) (hn : s'.nextSerial = s.nextSerial)
      (hs : ∀ k e, s'.registry.get? k = some e → s.registry.get? k = some e)
  | status (m : Status) (a : Bool) (hop : op = .status m a) (e0 : Entry) (new : Bool) (evs rs : List MEv) (e2 : Entry)
      (hf : Found env s s' m.src e0 new evs) (hg : s'.registry.get? m.src = some e2) (ht : StepTrace s s' rs)
      (he : (rs = [] ∧ e2 = e0.updateFromStatus m) ∨
        (rs = [.request e0.serial m.src m.ts] ∧ asks a (e0.updateFromStatus m) = true ∧
        e2 = { e0.updateFromStatus m with
          requestedAt := m.ts
          retries := (e0.updateFromStatus m).retries - 1 }))
  | info (m : InfoMsg) (hop : op = .info m) (e0 : Entry) (new : Bool) (evs : List MEv)
      (hf : Found env s s' m.src e0 new evs) (hg : s'.registry.get? m.src = some (afterInfo e0 m))
      (ht : StepTrace s s' [])

theorem Found.called {s s' : Mon} {nid : Nat} {e0 : Entry} {new : Bool} {evs : List MEv}
    (hf : Found env s s' nid e0 new evs) : ∀ x ∈ evs, ∃ cb kind e, x = .called cb kind e := by
  intro x hx
  cases new with
  | false => rw [(hf.old rfl).2.2.2] at hx; cases hx
  | true =>
    rcases (hf.fresh rfl).2.2 with ⟨-, h⟩ | ⟨e, -, -, h, -⟩
    · rw [h] at hx; cases hx
    · obtain ⟨cb, rfl⟩ := h x hx
      exact ⟨cb, _, _, rfl⟩

theorem req_case {s : Mon} (hi : RInv s) (op : Op) : ReqCase (env := env) s op (step env s op) := by
  have hsame : ∀ s' : Mon, s'.trace = s.trace → StepTrace s s' [] := fun s' h =>
    ⟨[], by simp [h], by simp⟩
  cases op with
  | status m a =>
    rcases status_spec env m a s hi.ok with hg | ⟨e0, new, evs1, evs2, rs, e2, hf, hg, ht, h2, h3, -, he⟩
    · obtain ⟨-, h1, h2, -, -, e, evs, -, -, h3, h4⟩ := hg
      refine .none ⟨evs, by simpa [step] using h3, fun x hx => ?_⟩ h2 (fun k e he => ?_)
      · obtain ⟨cb, rfl⟩ := h4 x hx; exact ⟨cb, _, _, rfl⟩
      · simp only [step] at he; rw [h1] at he; exact he
    · refine .status m a rfl e0 new evs1 rs e2 hf hg ⟨evs1 ++ evs2, ht, fun x hx => ?_⟩ ?_
      · rcases List.mem_append.1 hx with hx | hx
        · exact hf.called x hx
        · obtain ⟨cb, rfl⟩ := h3 x hx; exact ⟨cb, _, _, rfl⟩
      · rcases he with ⟨h1, h2, -⟩ | h
        · exact .inl ⟨h1, h2⟩
        · exact .inr h
  | info m =>
    rcases info_spec env m s hi.ok with hg | ⟨e0, new, evs1, evs2, hf, hg, ht, -, h3, -⟩
    · obtain ⟨-, h1, h2, -, -, e, evs, -, -, h3, h4⟩ := hg
      refine .none ⟨evs, by simpa [step] using h3, fun x hx => ?_⟩ h2 (fun k e he => ?_)
      · obtain ⟨cb, rfl⟩ := h4 x hx; exact ⟨cb, _, _, rfl⟩
      · simp only [step] at he; rw [h1] at he; exact he
    · refine .info m rfl e0 new evs1 hf hg ⟨evs1 ++ evs2, by simpa [step] using ht, fun x hx => ?_⟩
      rcases List.mem_append.1 hx with hx | hx
      · exact hf.called x hx
      · obtain ⟨cb, rfl⟩ := h3 x hx; exact ⟨cb, _, _, rfl⟩
  | infoTimeout => exact .none (hsame _ rfl) rfl fun _ _ h => h
  | sweep =>
    obtain ⟨keep, r, evs, c, h1, -, -, -, h2, -⟩ := removeStale_spec (env := env) s hi.ok
    simp only [step, h1]
    refine .none ⟨evs, by simp, fun x hx => ?_⟩ rfl fun k e he => ?_
    · obtain ⟨cb, y, -, -, rfl⟩ := h2 x hx; exact ⟨cb, _, _, rfl⟩
    · simp only [get?_filter hi.ok] at he
      split at he
      · exact he
      · cases he
  | get nid =>
    have hc := getEntry_case env nid s hi.ok
    simp only [step]
    generalize getEntry env nid s = x at hc
    cases hc with
    | absent => exact .none (hsame _ rfl) rfl fun _ _ h => h
    | fresh e hg hf => exact .none (hsame _ rfl) rfl fun _ _ h => h
    | stale e evs hg hf hx hn =>
      refine .none ⟨evs, by simp, fun x h => ?_⟩ rfl ?_
      · obtain ⟨cb, rfl⟩ := hx x h; exact ⟨cb, _, _, rfl⟩
      · intro k e' he
        simp only [Dict.get?_del hi.ok] at he
        split at he
        · cases he
        · exact he
    | raised e evs err hg hf hx hn =>
      refine .none ⟨evs, by simp, fun x h => ?_⟩ rfl fun _ _ h => h
      obtain ⟨cb, rfl⟩ := hx x h; exact ⟨cb, _, _, rfl⟩
  | addHandler cb => exact .none (hsame _ rfl) rfl fun _ _ h => h
  | removeHandler cb => exact .none (hsame _ rfl) rfl fun _ _ h => h

/-- Requests of one entry are spaced. -/
structure Spaced (s : Mon) : Prop where
  pw : ∀ x, (requestsFor x s.trace).Pairwise fun a b => a + minRetryInterval < b
  le : ∀ k e, s.registry.get? k = some e → ∀ t ∈ requestsFor e.serial s.trace, t ≤ e.requestedAt
  fresh : ∀ x, s.nextSerial ≤ x → requestsFor x s.trace = []

theorem Spaced.keep {s s' : Mon} (h : Spaced s) (ht : StepTrace s s' []) (hn : s.nextSerial ≤ s'.nextSerial)
    (hs : ∀ k e, s'.registry.get? k = some e →
      (∃ e', s.registry.get? k = some e' ∧ e'.serial = e.serial ∧ e'.requestedAt = e.requestedAt) ∨
      s.nextSerial ≤ e.serial) : Spaced s' := by
  have hr : ∀ x, requestsFor x s'.trace = requestsFor x s.trace := fun x => by
    rw [ht.requests x]; simp [requestsFor]
  refine ⟨fun x => by rw [hr]; exact h.pw x, fun k e he t hm => ?_, fun x hx => by rw [hr]; exact h.fresh x (by omega)⟩
  rw [hr] at hm
  rcases hs k e he with ⟨e', h1, h2, h3⟩ | h1
  · rw [← h3]; exact h.le k e' h1 t (h2 ▸ hm)
  · rw [h.fresh _ h1] at hm; cases hm

theorem spaced_step {s : Mon} (hi : RInv s) (h : Spaced s) (op : Op) : Spaced (step env s op) := by
  have hc := req_case (env := env) hi op
  generalize step env s op = s' at hc
  cases hc with
  | none ht hn hs => exact h.keep ht (Nat.le_of_eq hn.symm) fun k e he => .inl ⟨e, hs k e he, rfl, rfl⟩
  | info m hop e0 new evs hf hg ht =>
    refine h.keep ht (hf.serial_lt hi).2 fun k e he => ?_
    by_cases hk : k = m.src
    · subst hk
      rw [hg] at he; injection he with he; subst he
      obtain ⟨p1, -, -, -, p2⟩ := afterInfo_parts e0 m
      rw [p1, p2]
      cases new with
      | false => exact .inl ⟨e0, (hf.old rfl).1, rfl, rfl⟩
      | true => right; rw [(hf.fresh rfl).1]; exact Nat.le_refl _
    · rw [hf.others k hk] at he; exact .inl ⟨e, he, rfl, rfl⟩
  | status m a hop e0 new evs rs e2 hf hg ht he =>
    obtain ⟨p1, -, p3, -, p5, -⟩ := updateFromStatus_parts e0 m
    rcases he with ⟨rfl, rfl⟩ | ⟨rfl, ha, rfl⟩
    · refine h.keep ht (hf.serial_lt hi).2 fun k e he => ?_
      by_cases hk : k = m.src
      · subst hk
        rw [hg] at he; injection he with he; subst he
        rw [p1, p5]
        cases new with
        | false => exact .inl ⟨e0, (hf.old rfl).1, rfl, rfl⟩
        | true => right; rw [(hf.fresh rfl).1]; exact Nat.le_refl _
      · rw [hf.others k hk] at he; exact .inl ⟨e, he, rfl, rfl⟩
    · have hold : ∀ t ∈ requestsFor e0.serial s.trace, t ≤ e0.requestedAt := by
        cases new with
        | false => exact h.le _ _ (hf.old rfl).1
        | true =>
          intro t hm
          rw [(hf.fresh rfl).1, h.fresh _ (Nat.le_refl _)] at hm
          cases hm
      have hgap : e0.requestedAt + minRetryInterval < m.ts := by
        simp only [asks, Bool.and_eq_true, decide_eq_true_eq, p3, p5] at ha
        omega
      have hr : ∀ x, requestsFor x s'.trace =
          requestsFor x s.trace ++ if e0.serial = x then [m.ts] else [] := by
        intro x
        rw [ht.requests x]
        congr 1
        simp only [requestsFor, List.filterMap_cons, List.filterMap_nil, requestFor]
        split <;> rename_i hx
        · split at hx
          · cases hx
          · simp [*]
        · split at hx
          · injection hx with hx; simp [*]
          · cases hx
      refine ⟨fun x => ?_, fun k e he t hm => ?_, fun x hx => ?_⟩
      · rw [hr]
        split
        · rename_i hx
          subst hx
          rw [List.pairwise_append]
          refine ⟨h.pw _, List.pairwise_singleton _ _, fun a ha b hb => ?_⟩
          rw [List.mem_singleton] at hb
          subst hb
          have := hold a ha
          omega
        · rw [List.append_nil]; exact h.pw x
      · rw [hr] at hm
        by_cases hk : k = m.src
        · subst hk
          rw [hg] at he; injection he with he; subst he
          simp only [p1, if_true] at hm ⊢
          rcases List.mem_append.1 hm with hm | hm
          · have := hold t hm
            simp only [minRetryInterval] at hgap
            omega
          · rw [List.mem_singleton] at hm; omega
        · rw [hf.others k hk] at he
          rw [if_neg (fun hs => hk (hf.serial_ne hi he hs.symm)), List.append_nil] at hm
          exact h.le k e he t hm
      · have := hf.serial_lt hi
        rw [hr, if_neg (by omega), List.append_nil]
        exact h.fresh x (by omega)

/-- Does this operation, in this state, reset the discovery of entry `x`? It does if it is a GetNodeInfo transfer from
the node of that entry, or a status message of that node whose uptime went backwards. -/
def resets (x : Nat) (s : Mon) : Op → Bool
  | .info m => match s.registry.get? m.src with
    | some e => e.serial == x
    | none => false
  | .status m _ => match s.registry.get? m.src with
    | some e => e.serial == x && match e.uptime with
      | some u => decide (m.uptime < u)
      | none => false
    | none => false
  | _ => false

/-- No operation of the history resets the discovery of entry `x`. -/
def Undisturbed (env : MEnv) (x : Nat) : Mon → List Op → Prop
  | _, [] => True
  | s, op :: ops => resets x s op = false ∧ Undisturbed env x (step env s op) ops

/-- How many requests may still be sent for entry `x`. -/
def Budget (x : Nat) (s : Mon) (n : Nat) : Prop :=
  (∃ k e, s.registry.get? k = some e ∧ e.serial = x ∧ (if e.info.isSome then 0 else e.retries) ≤ n) ∨
  ((∀ k e, s.registry.get? k = some e → e.serial ≠ x) ∧ (s.nextSerial ≤ x → maxRetries ≤ n))

theorem budget_step {s : Mon} (hi : RInv s) (x n : Nat) (hb : Budget x s n) (op : Op) (hr : resets x s op = false) :
    ∃ j, j ≤ n ∧ Budget x (step env s op) (n - j) ∧
      (requestsFor x (step env s op).trace).length = (requestsFor x s.trace).length + j := by
  have hc := req_case (env := env) hi op
  generalize step env s op = s' at hc
  have hzero : ∀ rs, StepTrace s s' rs → requestsFor x rs = [] →
      (requestsFor x s'.trace).length = (requestsFor x s.trace).length + 0 := by
    intro rs ht h; rw [ht.requests, h]; simp
  -- a step that finds another entry than `x`, or none, or makes a new one that is not `x`
  have other : ∀ (nid : Nat) (e0 : Entry) (new : Bool) (evs : List MEv) (e2 : Entry), Found env s s' nid e0 new evs →
      s'.registry.get? nid = some e2 → e2.serial = e0.serial → e0.serial ≠ x → Budget x s' n := by
    intro nid e0 new evs e2 hf hg hs hne
    have hlt := hf.serial_lt hi
    rcases hb with ⟨k, e, h1, h2, h3⟩ | ⟨h1, h2⟩
    · by_cases hk : k = nid
      · -- `x` was replaced
        subst hk
        right
        refine ⟨fun k' e' he' => ?_, fun hx => ?_⟩
        · by_cases hk' : k' = k
          · subst hk'; rw [hg] at he'; injection he' with he'; subst he'; rw [hs]; exact hne
          · rw [hf.others k' hk'] at he'
            intro hx
            exact hk' (hi.inj _ _ _ _ he' h1 (hx.trans h2.symm))
        · have := hi.lt _ _ h1
          omega
      · left
        exact ⟨k, e, by rw [hf.others k hk]; exact h1, h2, h3⟩
    · right
      refine ⟨fun k' e' he' => ?_, fun hx => h2 (by omega)⟩
      by_cases hk' : k' = nid
      · subst hk'; rw [hg] at he'; injection he' with he'; subst he'; rw [hs]; exact hne
      · rw [hf.others k' hk'] at he'
        exact h1 k' e' he'
  -- the entry found is `x`
  have budget0 : ∀ (nid : Nat) (e0 : Entry) (new : Bool) (evs : List MEv), Found env s s' nid e0 new evs →
      e0.serial = x → (if e0.info.isSome then 0 else e0.retries) ≤ n := by
    intro nid e0 new evs hf hx
    cases new with
    | false =>
      rcases hb with ⟨k, e, h1, h2, h3⟩ | ⟨h1, h2⟩
      · have hk := hf.serial_ne hi h1 (h2.trans hx.symm)
        subst hk
        rw [(hf.old rfl).1] at h1
        injection h1 with h1
        subst h1
        exact h3
      · exact absurd hx (h1 _ _ (hf.old rfl).1)
    | true =>
      have h0 := (hf.fresh rfl).1
      rcases hb with ⟨k, e, h1, h2, h3⟩ | ⟨h1, h2⟩
      · have := hi.lt _ _ h1
        rw [h2, ← hx, h0] at this
        exact absurd this (Nat.lt_irrefl _)
      · rw [h0]
        exact h2 (by rw [← hx, h0]; exact Nat.le_refl _)
  cases hc with
  | none ht hn hs =>
    refine ⟨0, Nat.zero_le _, ?_, hzero _ ht rfl⟩
    rw [Nat.sub_zero]
    rcases hb with ⟨k, e, h1, h2, h3⟩ | ⟨h1, h2⟩
    · cases hg : s'.registry.get? k with
      | some e' =>
        have := hs k e' hg
        rw [h1] at this
        injection this with this
        subst this
        exact .inl ⟨k, e, hg, h2, h3⟩
      | none =>
        right
        refine ⟨fun k' e' he' hx => ?_, fun hx => ?_⟩
        · have := hi.inj _ _ _ _ (hs k' e' he') h1 (hx.trans h2.symm)
          subst this
          rw [hg] at he'; cases he'
        · have := hi.lt _ _ h1
          omega
    · exact .inr ⟨fun k e he => h1 k e (hs k e he), fun hx => h2 (by omega)⟩
  | info m hop e0 new evs hf hg ht =>
    refine ⟨0, Nat.zero_le _, ?_, hzero _ ht rfl⟩
    rw [Nat.sub_zero]
    obtain ⟨p1, -, -, p4, -⟩ := afterInfo_parts e0 m
    by_cases hx : e0.serial = x
    · cases new with
      | false =>
        subst hop
        rw [resets, (hf.old rfl).1] at hr
        simp [hx] at hr
      | true =>
        have h0 := (hf.fresh rfl).1
        have hb0 := budget0 m.src e0 true evs hf hx
        rw [h0] at hb0
        refine .inl ⟨m.src, _, hg, p1.trans hx, ?_⟩
        rw [p4]
        split
        · exact Nat.zero_le _
        · exact hb0
    · exact other m.src e0 new evs _ hf hg p1 hx
  | status m a hop e0 new evs rs e2 hf hg ht he =>
    obtain ⟨p1, -, p3, -, p5, p6, -⟩ := updateFromStatus_parts e0 m
    by_cases hx : e0.serial = x
    · have hb0 := budget0 m.src e0 new evs hf hx
      have hup : ∀ u, e0.uptime = some u → u ≤ m.uptime := by
        intro u hu
        cases new with
        | false =>
          subst hop
          rw [resets, (hf.old rfl).1] at hr
          simp only [hx, hu, beq_self_eq_true, Bool.true_and, decide_eq_false_iff_not] at hr
          omega
        | true => rw [(hf.fresh rfl).1] at hu; cases hu
      obtain ⟨q1, q2⟩ := p6 hup
      rcases he with ⟨rfl, rfl⟩ | ⟨rfl, ha, rfl⟩
      · refine ⟨0, Nat.zero_le _, .inl ⟨m.src, _, hg, p1.trans hx, ?_⟩, hzero _ ht rfl⟩
        rw [q1, q2]
        exact hb0
      · simp only [asks, Entry.discovered, q1, q2, Bool.and_eq_true, Bool.not_eq_true', Bool.or_eq_false_iff,
          beq_eq_false_iff_ne] at ha
        obtain ⟨⟨⟨hinfo, hret⟩, -⟩, -⟩ := ha
        rw [if_neg (by simp [hinfo])] at hb0
        refine ⟨1, by omega, .inl ⟨m.src, _, hg, p1.trans hx, ?_⟩, ?_⟩
        · simp only [q1, q2, hinfo]
          simp only [Bool.false_eq_true, if_false]
          omega
        · rw [ht.requests]
          simp [requestsFor, requestFor, hx]
    · refine ⟨0, Nat.zero_le _, ?_, hzero rs ht ?_⟩
      · rw [Nat.sub_zero]
        refine other m.src e0 new evs e2 hf hg ?_ hx
        rcases he with ⟨-, rfl⟩ | ⟨-, -, rfl⟩ <;> exact p1
      · rcases he with ⟨rfl, -⟩ | ⟨rfl, -⟩
        · rfl
        · simp [requestsFor, requestFor, hx]

theorem budget_run {s : Mon} (hi : RInv s) (x n : Nat) (hb : Budget x s n) (ops : List Op)
    (hu : Undisturbed env x s ops) :
    (requestsFor x (run env s ops).trace).length ≤ (requestsFor x s.trace).length + n := by
  induction ops generalizing s n with
  | nil => exact Nat.le_add_right _ _
  | cons op ops ih =>
    obtain ⟨j, h1, h2, h3⟩ := budget_step (env := env) hi x n hb op hu.1
    have := ih (step_rinv hi op) (n - j) h2 hu.2
    simp only [run, List.foldl_cons] at this ⊢
    omega

theorem step_trace {s : Mon} (hi : RInv s) (op : Op) : s.trace <+: (step env s op).trace := by
  have hc := req_case (env := env) hi op
  have : ∀ rs s', StepTrace s s' rs → s.trace <+: s'.trace := fun rs s' h => by
    obtain ⟨evs, h1, -⟩ := h.ext
    rw [h1]; exact List.prefix_append _ _
  generalize step env s op = s' at hc
  cases hc with
  | none ht => exact this _ _ ht
  | info m hop e0 new evs hf hg ht => exact this _ _ ht
  | status m a hop e0 new evs rs e2 hf hg ht => exact this _ _ ht

theorem run_trace {s : Mon} (hi : RInv s) (ops : List Op) : s.trace <+: (run env s ops).trace := by
  induction ops generalizing s with
  | nil => exact List.prefix_refl _
  | cons op ops ih => exact (step_trace hi op).trans (ih (step_rinv hi op))

theorem requests_since {s s' : Mon} (h : s.trace <+: s'.trace) (x : Nat) :
    (requestsFor x s'.trace).length = (requestsFor x s.trace).length + (requestsFor x (since s s')).length := by
  obtain ⟨t, h⟩ := h
  simp [since, ← h, requestsFor, List.filterMap_append]

variable (env)

/-- Any two requests sent for the same entry are more than half a second apart (by the timestamps of the status messages
that triggered them), in every history. -/
theorem C37_spacing (c : Clock) (ops : List Op) (x : Nat) :
    (requestsFor x (run env (init c) ops).trace).Pairwise fun a b => a + 500000 < b := by
  have : Spaced (run env (init c) ops) := by
    refine history_induction (env := env) c (P := fun _ => Spaced) ?_ (fun _ op s hi h => spaced_step hi h op) ops
    exact ⟨fun x => List.Pairwise.nil, fun _ _ h => (by cases h), fun _ _ => rfl⟩
  exact this.pw x

/-- The time of the last request that an entry keeps is the time of a request, or 0 if there was none. -/
def Asked (s : Mon) : Prop := ∀ k e, s.registry.get? k = some e →
  e.requestedAt = 0 ∨ e.requestedAt ∈ requestsFor e.serial s.trace

theorem Asked.keep {s s' : Mon} {rs : List MEv} (h : Asked s) (ht : StepTrace s s' rs) {k : Nat} {e e' : Entry}
    (he : s.registry.get? k = some e) (h1 : e'.serial = e.serial) (h2 : e'.requestedAt = e.requestedAt) :
    e'.requestedAt = 0 ∨ e'.requestedAt ∈ requestsFor e'.serial s'.trace := by
  rw [h1, h2, ht.requests]
  exact (h k e he).imp id fun h => List.mem_append_left _ h

theorem asked_step {s : Mon} (hi : RInv s) (h : Asked s) (op : Op) : Asked (step env s op) := by
  have hc := req_case (env := env) hi op
  generalize step env s op = s' at hc
  intro k e he
  cases hc with
  | none ht hn hs => exact h.keep ht (hs k e he) rfl rfl
  | info m hop e0 new evs hf hg ht =>
    by_cases hk : k = m.src
    · subst hk
      rw [hg] at he; injection he with he; subst he
      obtain ⟨p1, -, -, -, p2⟩ := afterInfo_parts e0 m
      cases new with
      | false => exact h.keep ht (hf.old rfl).1 p1 p2
      | true => left; rw [p2, (hf.fresh rfl).1]
    · rw [hf.others k hk] at he; exact h.keep ht he rfl rfl
  | status m a hop e0 new evs rs e2 hf hg ht he2 =>
    obtain ⟨p1, -, p3, -, p5, -⟩ := updateFromStatus_parts e0 m
    by_cases hk : k = m.src
    · subst hk
      rw [hg] at he; injection he with he; subst he
      rcases he2 with ⟨rfl, rfl⟩ | ⟨rfl, ha, rfl⟩
      · cases new with
        | false => exact h.keep ht (hf.old rfl).1 p1 p5
        | true => left; rw [p5, (hf.fresh rfl).1]
      · right
        rw [ht.requests]
        refine List.mem_append_right _ ?_
        simp [requestsFor, requestFor, p1]
    · rw [hf.others k hk] at he; exact h.keep ht he rfl rfl

/-- A node that the monitor hears from is asked: after a status message the node's entry is discovered (or was asked ten
times in vain), or a request was sent for it not longer than half a second before the message. The exception is the first
half second of the monotonic clock. -/
theorem C37_asked (hn : NoRaise env) (c : Clock) (ops : List Op) (m : Status) (hm : 500000 < m.ts) :
    ∃ e, (run env (init c) (ops ++ [.status m false])).registry.get? m.src = some e ∧
      (e.discovered = true ∨ ∃ t ∈ requestsFor e.serial (run env (init c) (ops ++ [.status m false])).trace, m.ts ≤ t + 500000) := by
  have hask : Asked (run env (init c) (ops ++ [.status m false])) :=
    history_induction (env := env) c (P := fun _ => Asked) (fun _ _ h => (by cases h)) (fun _ op s hi h => asked_step env hi h op) _
  have hi := run_rinv (env := env) (init_rinv c) ops
  have hrun : run env (init c) (ops ++ [.status m false]) = (onNodeStatus env m false (run env (init c) ops)).2 := by
    simp [run, step]
  rw [hrun] at hask ⊢
  rcases status_spec env m false _ hi.ok with hg | ⟨e0, new, evs1, evs2, rs, e2, hf, hg, ht, -, -, -, he⟩
  · exact absurd hn hg.1
  · refine ⟨e2, hg, ?_⟩
    obtain ⟨p1, -, p3, -, p5, -⟩ := updateFromStatus_parts e0 m
    rcases he with ⟨-, rfl, ha⟩ | ⟨rfl, -, rfl⟩
    · have ha := ha hn
      simp only [asks, p3, p5, minRetryInterval, Bool.not_false, Bool.and_true] at ha
      cases hd : (e0.updateFromStatus m).discovered with
      | true => exact .inl rfl
      | false =>
        rw [hd] at ha
        simp only [Bool.not_false, Bool.true_and, decide_eq_false_iff_not] at ha
        rcases hask m.src _ hg with h0 | h0
        · rw [p5] at h0; omega
        · exact .inr ⟨_, h0, by rw [p5]; omega⟩
    · right
      refine ⟨m.ts, ?_, by omega⟩
      rw [ht]
      simp [requestsFor, requestFor, p1]

/-- After any history, as long as nothing resets the discovery of entry `x`, at most ten requests are sent for it. The
entry may exist already or be created later. -/
theorem C37_bounded (c : Clock) (ops more : List Op) (x : Nat)
    (hu : Undisturbed env x (run env (init c) ops) more) :
    (requestsFor x (since (run env (init c) ops) (run env (run env (init c) ops) more))).length ≤ 10 := by
  have hi := run_rinv (env := env) (init_rinv c) ops
  generalize run env (init c) ops = s at *
  have hb : Budget x s maxRetries := by
    by_cases h : ∃ k e, s.registry.get? k = some e ∧ e.serial = x
    · obtain ⟨k, e, h1, h2⟩ := h
      refine .inl ⟨k, e, h1, h2, ?_⟩
      split
      · exact Nat.zero_le _
      · exact hi.ret k e h1
    · exact .inr ⟨fun k e h1 h2 => h ⟨k, e, h1, h2⟩, fun _ => Nat.le_refl _⟩
  have h1 := budget_run (env := env) hi x maxRetries hb more hu
  have h2 := requests_since (run_trace (env := env) hi more) x
  simp only [maxRetries] at h1
  omega

/-- Once an entry is discovered, no request is sent for it until its discovery is reset. -/
theorem C37_discovered (c : Clock) (ops more : List Op) (k : Nat) (e : Entry)
    (he : (run env (init c) ops).registry.get? k = some e) (hd : e.discovered = true)
    (hu : Undisturbed env e.serial (run env (init c) ops) more) :
    requestsFor e.serial (since (run env (init c) ops) (run env (run env (init c) ops) more)) = [] := by
  have hi := run_rinv (env := env) (init_rinv c) ops
  generalize run env (init c) ops = s at *
  have hb : Budget e.serial s 0 := by
    refine .inl ⟨k, e, he, rfl, ?_⟩
    simp only [Entry.discovered, Bool.or_eq_true, beq_iff_eq] at hd
    rcases hd with hd | hd
    · simp [hd]
    · simp [hd]
  have h1 := budget_run (env := env) hi e.serial 0 hb more hu
  have h2 := requests_since (run_trace (env := env) hi more) e.serial
  exact List.length_eq_zero_iff.1 (by omega)

/-! Examples: a node that never answers is asked ten times; a GetNodeInfo *request* from that node (which carries no
info, and makes the handler raise) makes the monitor start over. -/

/-- A clock that stands still, and the usual timeout. -/
def stillEnv : MEnv := { adv := fun _ => 0, offline := 3000000 }

/-- `n` status messages, one second apart, beginning at second `k`. -/
def statuses (k n : Nat) : List Op := (List.range n).map fun i => .status ⟨5, ((k + i : Nat) : Int) * 1000000, k + i⟩ false

example : (requestsFor 0 (run stillEnv (init ⟨0, 0⟩) (statuses 1 15)).trace).length = 10 := by decide +kernel
example : Undisturbed stillEnv 0 (init ⟨0, 0⟩) (statuses 1 2) := by
  show _ ∧ _ ∧ True
  refine ⟨?_, ?_, trivial⟩ <;> decide +kernel
example : (requestsFor 0 (run stillEnv (init ⟨0, 0⟩)
    (statuses 1 15 ++ [.info ⟨5, 16000000, none, true⟩] ++ statuses 17 15)).trace).length = 20 := by decide +kernel
example : ((removeStale stillEnv (run stillEnv (init ⟨5000000, 0⟩) (statuses 1 1 ++ [.status ⟨6, 4000000, 0⟩ false]))).2.registry.map
    (·.1)) = [6] := by decide +kernel

/-! ## C38 -/

theorem filter_single {l : List Nat} (hnd : l.Nodup) {p : Nat → Bool} {x : Nat} (hx : x ∈ l)
    (h : ∀ y ∈ l, p y = true ↔ y = x) : l.filter p = [x] := by
  induction l with
  | nil => cases hx
  | cons a l ih =>
    obtain ⟨h1, h2⟩ := List.nodup_cons.1 hnd
    by_cases ha : a = x
    · subst ha
      rw [List.filter_cons_of_pos ((h a List.mem_cons_self).2 rfl)]
      congr 1
      rw [List.filter_eq_nil_iff]
      intro y hy hp
      have := (h y (List.mem_cons_of_mem _ hy)).1 hp
      subst this
      exact h1 hy
    · rw [List.filter_cons_of_neg (fun hp => ha ((h a List.mem_cons_self).1 hp))]
      refine ih h2 ?_ fun y hy => h y (List.mem_cons_of_mem _ hy)
      rcases List.mem_cons.1 hx with hx | hx
      · exact absurd hx.symm ha
      · exact hx

theorem mem_serials {s : Mon} (hi : RInv s) (x : Nat) :
    x ∈ serials s ↔ ∃ k e, s.registry.get? k = some e ∧ e.serial = x := by
  simp only [serials, List.mem_map]
  constructor
  · rintro ⟨⟨k, e⟩, h1, h2⟩; exact ⟨k, e, (Dict.mem_iff_get? hi.ok k e).1 h1, h2⟩
  · rintro ⟨k, e, h1, h2⟩; exact ⟨(k, e), (Dict.mem_iff_get? hi.ok k e).2 h1, h2⟩

theorem serials_nodup {s : Mon} (hi : RInv s) : (serials s).Nodup := by
  have h1 : s.registry.Pairwise fun a b => a.1 ≠ b.1 := List.pairwise_map.1 hi.ok
  refine List.pairwise_map.2 (h1.imp_of_mem ?_)
  rintro ⟨k, e⟩ ⟨k', e'⟩ hm hm' hne hs
  exact hne (hi.inj _ _ _ _ ((Dict.mem_iff_get? hi.ok k e).1 hm) ((Dict.mem_iff_get? hi.ok k' e').1 hm') hs)

theorem left_nil {s s' : Mon} (h : ∀ x ∈ serials s, x ∈ serials s') : left s s' = [] := by
  simp only [left, List.filter_eq_nil_iff]
  intro x hx
  simp [h x hx]

theorem left_single {s s' : Mon} (hi : RInv s) (x : Nat) (hx : x ∈ serials s) (hx' : x ∉ serials s')
    (h : ∀ y ∈ serials s, y ≠ x → y ∈ serials s') : left s s' = [x] := by
  refine filter_single (serials_nodup hi) hx fun y hy => ?_
  simp only [Bool.not_eq_true', List.contains_eq_mem, decide_eq_false_iff_not]
  constructor
  · intro hn
    by_cases hyx : y = x
    · exact hyx
    · exact absurd (h y hy hyx) hn
  · rintro rfl; exact hx'

theorem joined_eq (s s' : Mon) : joined s s' = left s' s := rfl

variable {env}

/-- Finding an entry neither adds nor removes one; making one adds it and removes the old one. -/
theorem Found.left_joined {s s' : Mon} {nid : Nat} {e0 e2 : Entry} {new : Bool} {evs : List MEv} (hi : RInv s)
    (hi' : RInv s') (hf : Found env s s' nid e0 new evs) (hg : s'.registry.get? nid = some e2)
    (hs : e2.serial = e0.serial) (hn : NoRaise env) :
    calls evs = announce s.callbacks ((left s s').map (Kind.offline, ·)) ∧
    joined s s' = if new then [e0.serial] else [] := by
  have hkeep : ∀ k e, k ≠ nid → s.registry.get? k = some e → e.serial ∈ serials s' := fun k e hk he =>
    (mem_serials hi' _).2 ⟨k, e, by rw [hf.others k hk]; exact he, rfl⟩
  have hkeep' : ∀ k e, k ≠ nid → s'.registry.get? k = some e → e.serial ∈ serials s := fun k e hk he =>
    (mem_serials hi _).2 ⟨k, e, by rw [← hf.others k hk]; exact he, rfl⟩
  cases new with
  | false =>
    obtain ⟨h1, -, -, rfl⟩ := hf.old rfl
    rw [joined_eq, left_nil, left_nil]
    · exact ⟨rfl, rfl⟩
    · intro x hx
      obtain ⟨k, e, he, rfl⟩ := (mem_serials hi' _).1 hx
      by_cases hk : k = nid
      · subst hk
        rw [hg] at he; injection he with he; subst he
        exact (mem_serials hi _).2 ⟨k, e0, h1, hs.symm⟩
      · exact hkeep' k e hk he
    · intro x hx
      obtain ⟨k, e, he, rfl⟩ := (mem_serials hi _).1 hx
      by_cases hk : k = nid
      · subst hk
        rw [h1] at he; injection he with he; subst he
        exact (mem_serials hi' _).2 ⟨k, e2, hg, hs⟩
      · exact hkeep k e hk he
  | true =>
    obtain ⟨h0, -, h1⟩ := hf.fresh rfl
    have hnew : e0.serial ∉ serials s := by
      intro hm
      obtain ⟨k, e, he, hse⟩ := (mem_serials hi _).1 hm
      have := hi.lt k e he
      rw [hse, h0] at this
      exact Nat.lt_irrefl _ this
    have hjoin : joined s s' = [e0.serial] := by
      rw [joined_eq]
      refine left_single hi' _ ((mem_serials hi' _).2 ⟨nid, e2, hg, hs⟩) hnew fun y hy hne => ?_
      obtain ⟨k, e, he, rfl⟩ := (mem_serials hi' _).1 hy
      by_cases hk : k = nid
      · subst hk
        rw [hg] at he; injection he with he; subst he
        exact absurd hs hne
      · exact hkeep' k e hk he
    refine ⟨?_, by simpa using hjoin⟩
    rcases h1 with ⟨h1, rfl⟩ | ⟨e, h1, -, -, h2⟩
    · rw [left_nil]
      · rfl
      · intro x hx
        obtain ⟨k, e, he, rfl⟩ := (mem_serials hi _).1 hx
        by_cases hk : k = nid
        · subst hk; rw [h1] at he; cases he
        · exact hkeep k e hk he
    · rw [left_single hi e.serial ((mem_serials hi _).2 ⟨nid, e, h1, rfl⟩), h2 hn]
      · simp [calls, announce, List.filterMap_map, Function.comp_def, callOf]
      · intro hm
        obtain ⟨k, e', he', hse⟩ := (mem_serials hi' _).1 hm
        by_cases hk : k = nid
        · subst hk
          rw [hg] at he'; injection he' with he'; subst he'
          have := hi.lt _ _ h1
          rw [← hse, hs, h0] at this
          exact Nat.lt_irrefl _ this
        · rw [hf.others k hk] at he'
          exact hk (hi.inj _ _ _ _ he' h1 hse)
      · intro y hy hne
        obtain ⟨k, e', he, rfl⟩ := (mem_serials hi _).1 hy
        by_cases hk : k = nid
        · subst hk
          rw [h1] at he; injection he with he; subst he
          exact absurd rfl hne
        · exact hkeep k e' hk he

theorem calls_map (cbs : List Nat) (kind : Kind) (e : Entry) :
    calls (cbs.map (.called · kind e)) = announce cbs [(kind, e.serial)] := by
  simp [calls, announce, List.filterMap_map, Function.comp_def, callOf]

variable (env)

/-- What else a callback hears in an operation: of entries created by a status message, and of node info. -/
def expectedNews (s s' : Mon) : Op → List (Kind × Nat)
  | .status _ _ => (joined s s').map (Kind.new, ·)
  | .info m => if m.body.isSome && m.nameOk then
      match s'.registry.get? m.src with
      | some e => [(Kind.infoUpdate, e.serial)]
      | none => []
    else []
  | _ => []

theorem announce_append (cbs : List Nat) (a b : List (Kind × Nat)) :
    announce cbs (a ++ b) = announce cbs a ++ announce cbs b := by simp [announce]

theorem calls_append (a b : List MEv) : calls (a ++ b) = calls a ++ calls b := by simp [calls]

/-- C38 in full: whatever the callbacks do, an OFFLINE event about an entry is emitted in an operation if and only if the
entry leaves the registry in it. -/
def C38_statement : Prop :=
  ∀ (env : MEnv) (c : Clock) (ops : List Op) (op : Op) (x : Nat),
    let s := run env (init c) ops
    let s' := step env s op
    s.callbacks ≠ [] → ((∃ cb, (cb, Kind.offline, x) ∈ calls (since s s')) ↔ x ∈ left s s')

/-- It is false if a callback raises: `get` announces the entry, the callback raises, and the entry stays. -/
theorem C38_counterexample : ¬ C38_statement := by
  intro h
  have := h { adv := fun _ => 0, offline := 3000000, raises := fun _ _ => some .valueError } ⟨9000000, 0⟩
    [.status ⟨5, 1000000, 0⟩ false, .addHandler 7] (.get 5) 0 (by decide +kernel)
  have h1 := this.1 ⟨7, by decide +kernel⟩
  revert h1
  decide +kernel

/-- If no callback raises: in every operation after every history, every callback hears (in registration order, once
for each event) an OFFLINE event for each entry that leaves the registry, then one NEW event for an entry that is
created by a status message, then an INFO_UPDATE event for node info (if the node's name can be decoded); and nothing
else. -/
theorem C38_events_partial (hn : NoRaise env) (c : Clock) (ops : List Op) (op : Op) :
    let s := run env (init c) ops
    let s' := step env s op
    calls (since s s') = announce s.callbacks ((left s s').map (Kind.offline, ·) ++ expectedNews s s' op) := by
  have hi := run_rinv (env := env) (init_rinv c) ops
  generalize run env (init c) ops = s at *
  have hi' := step_rinv (env := env) hi op
  have same : ∀ s' : Mon, s'.registry = s.registry → s'.trace = s.trace →
      calls (since s s') = announce s.callbacks ((left s s').map (Kind.offline, ·) ++ []) := by
    intro s' h1 h2
    rw [left_nil (by simp [serials, h1])]
    simp [since, h2, calls, announce]
  cases op with
  | status m a =>
    rcases status_spec env m a s hi.ok with hg | ⟨e0, new, evs1, evs2, rs, e2, hf, hg, ht, h2, -, h4, he⟩
    · exact absurd hn hg.1
    · obtain ⟨p1, -⟩ := updateFromStatus_parts e0 m
      have hs2 : e2.serial = e0.serial := by rcases he with ⟨-, rfl, -⟩ | ⟨-, -, rfl⟩ <;> exact p1
      obtain ⟨h5, h6⟩ := hf.left_joined hi hi' hg hs2 hn
      have hrs : calls rs = [] := by rcases he with ⟨rfl, -⟩ | ⟨rfl, -⟩ <;> rfl
      show calls (since s (onNodeStatus env m a s).2) = _
      rw [since_append ht, calls_append, calls_append, h5, hrs, List.append_nil, announce_append]
      congr 1
      simp only [expectedNews]
      rw [h6]
      cases new with
      | false => rw [h2 rfl]; rfl
      | true => rw [h4 rfl hn, calls_map, p1]; rfl
  | info m =>
    rcases info_spec env m s hi.ok with hg | ⟨e0, new, evs1, evs2, hf, hg, ht, h2, -, h4⟩
    · exact absurd hn hg.1
    · obtain ⟨p1, -⟩ := afterInfo_parts e0 m
      obtain ⟨h5, -⟩ := hf.left_joined hi hi' hg p1 hn
      show calls (since s (onInfoResponse env m s).2) = _
      rw [since_append ht, calls_append, h5, announce_append]
      congr 1
      have hg' : (step env s (.info m)).registry.get? m.src = some (afterInfo e0 m) := hg
      simp only [expectedNews, hg']
      cases hb : m.body with
      | none => rw [h2 (.inl hb)]; rfl
      | some b =>
        cases hname : m.nameOk with
        | false => rw [h2 (.inr hname)]; rfl
        | true => rw [h4 (by rw [hb]; nofun) hname hn, calls_map]; rfl
  | infoTimeout => exact same _ rfl rfl
  | sweep =>
    obtain ⟨keep, r, evs, c', h1, -, -, -, -, h2⟩ := removeStale_spec (env := env) s hi.ok
    have h3 := (h2 hn).2
    have hl : left s (step env s .sweep) = (s.registry.filter fun x => !keep x.1).map (·.2.serial) := by
      simp only [left, serials, List.filter_map]
      congr 1
      apply List.filter_congr
      rintro ⟨k, e⟩ hm
      have hke := (Dict.mem_iff_get? hi.ok k e).1 hm
      simp only [Function.comp_apply, List.contains_eq_mem, List.mem_map, step, h1, List.mem_filter]
      cases hk : keep k with
      | true =>
        simp only [Bool.not_true, Bool.not_eq_false', decide_eq_true_eq]
        exact List.mem_map.2 ⟨(k, e), List.mem_filter.2 ⟨hm, hk⟩, rfl⟩
      | false =>
        simp only [Bool.not_false, Bool.not_eq_true', decide_eq_false_iff_not]
        intro hmem
        obtain ⟨⟨k', e'⟩, hmem, hse⟩ := List.mem_map.1 hmem
        obtain ⟨hm', hk'⟩ := List.mem_filter.1 hmem
        have := hi.inj _ _ _ _ ((Dict.mem_iff_get? hi.ok k' e').1 hm') hke hse
        subst this
        simp only at hk'
        rw [hk] at hk'; cases hk'
    dsimp only
    rw [hl]
    simp only [step, h1, expectedNews, List.append_nil]
    rw [since_append rfl, h3]
    simp only [calls, announce, List.filterMap_flatMap, List.map_map, List.flatMap_map, List.filterMap_map,
      Function.comp_def, callOf, List.filterMap_eq_map']
  | get nid =>
    have hc := getEntry_case env nid s hi.ok
    simp only [step, expectedNews] at hi' ⊢
    generalize getEntry env nid s = x at hc hi'
    cases hc with
    | absent => exact same _ rfl rfl
    | fresh => exact same _ rfl rfl
    | stale e evs hg hf hx h2 =>
      rw [since_append rfl, h2 hn, calls_map, left_single hi e.serial ((mem_serials hi _).2 ⟨nid, e, hg, rfl⟩)]
      · rfl
      · intro hm
        obtain ⟨k, e', he', hse⟩ := (mem_serials hi' _).1 hm
        simp only [Dict.get?_del hi.ok] at he'
        split at he'
        · cases he'
        · rename_i hk
          exact hk (hi.inj _ _ _ _ hg he' hse.symm)
      · intro y hy hne
        obtain ⟨k, e', he, rfl⟩ := (mem_serials hi _).1 hy
        refine (mem_serials hi' _).2 ⟨k, e', ?_, rfl⟩
        simp only [Dict.get?_del hi.ok]
        rw [if_neg]
        · exact he
        · intro hk
          subst hk
          rw [hg] at he; injection he with he; subst he
          exact hne rfl
    | raised e evs err hg hf hx h2 => exact absurd hn h2
  | addHandler cb => exact same _ rfl rfl
  | removeHandler cb => exact same _ rfl rfl

/-- An example: a node appears, answers, and goes offline; the callback hears all of it. -/
example : calls (run { adv := fun _ => 100000, offline := 3000000 } (init ⟨0, 0⟩) ([.addHandler 7] ++ statuses 1 1 ++
    [.info ⟨5, 1000000, some (1, []), true⟩] ++ List.replicate 50 .sweep)).trace =
    [(7, .new, 0), (7, .infoUpdate, 0), (7, .offline, 0)] := by decide +kernel

end Monitor
end Dronecan
