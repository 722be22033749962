import Verif.Props.Monitor

/-!
# C68: what the node monitor knows about a node
-/

namespace Dronecan
namespace Monitor
open PyM

variable {env : MEnv}

/-! ## Specification -/

/-- What was heard from a node: its uptime, its uptime and unique ID, or a GetNodeInfo request. -/
inductive Heard
  | status (uptime : Nat)
  | info (uptime : Nat) (uid : List Byte)
  | query

/-- What an operation lets us hear from node `k`. -/
def heard (k : Nat) : Op → Option Heard
  | .status m _ => if m.src = k then some (.status m.uptime) else none
  | .info m => if m.src = k then
      match m.body with
      | some (u, uid) => some (.info u uid)
      | none => some .query
    else none
  | _ => none

/-- Everything heard from node `k`. -/
def allHeard (k : Nat) (ops : List Op) : List Heard := ops.filterMap (heard k)

/-- The last uptime and the node info: the info is forgotten when the uptime goes backwards. -/
def view (v : Option Nat × Option (List Byte)) : Heard → Option Nat × Option (List Byte)
  | .status t => (some t, match v.1 with
    | some u => if t < u then none else v.2
    | none => v.2)
  | .info t uid => (some t, some uid)
  | .query => v

/-! ## Node info -/

/-- Every entry shows what was heard since it was created. -/
def VInv (env : MEnv) (ops : List Op) (s : Mon) : Prop :=
  NoRaise env → ∀ k e, s.registry.get? k = some e → ∃ before l, allHeard k ops = before ++ l ∧ l ≠ [] ∧
    (e.uptime, e.info) = l.foldl view (none, none)

theorem allHeard_snoc (k : Nat) (ops : List Op) (op : Op) :
    allHeard k (ops ++ [op]) = allHeard k ops ++ (heard k op).toList := by
  simp only [allHeard, List.filterMap_append, List.filterMap_cons, List.filterMap_nil]
  cases heard k op <;> simp

theorem VInv.sub {ops : List Op} {op : Op} {s s' : Mon} (h : VInv env ops s)
    (hs : ∀ k e, s'.registry.get? k = some e → s.registry.get? k = some e)
    (ho : NoRaise env → ∀ k, heard k op = none) : VInv env (ops ++ [op]) s' := by
  intro hn k e he
  rw [allHeard_snoc, ho hn k]
  simpa using h hn k e (hs k e he)

theorem VInv.found {ops : List Op} {op : Op} {s s' : Mon} {nid : Nat} {e0 e2 : Entry} {new : Bool} {evs : List MEv}
    (h : VInv env ops s) (hf : Found env s s' nid e0 new evs) (hg : s'.registry.get? nid = some e2) (x : Heard)
    (h1 : heard nid op = some x) (h2 : ∀ k, k ≠ nid → heard k op = none)
    (h3 : (e2.uptime, e2.info) = view (e0.uptime, e0.info) x) : VInv env (ops ++ [op]) s' := by
  intro hn k e he
  rw [allHeard_snoc]
  by_cases hk : k = nid
  · subst hk
    rw [hg] at he; injection he with he; subst he
    rw [h1]
    cases new with
    | false =>
      obtain ⟨b, l, e1, -, e3⟩ := h hn k e0 (hf.old rfl).1
      refine ⟨b, l ++ [x], by rw [e1]; simp, by simp, ?_⟩
      rw [List.foldl_append, ← e3]
      exact h3
    | true =>
      refine ⟨allHeard k ops, [x], rfl, by simp, ?_⟩
      rw [(hf.fresh rfl).1] at h3
      exact h3
  · rw [hf.others k hk] at he
    rw [h2 k hk]
    simpa using h hn k e he

theorem updateFromStatus_view (e : Entry) (m : Status) :
    ((e.updateFromStatus m).uptime, (e.updateFromStatus m).info) = view (e.uptime, e.info) (.status m.uptime) := by
  simp only [Entry.updateFromStatus, view]
  cases e.uptime with
  | none => rfl
  | some u =>
    dsimp only
    split <;> rfl

theorem run_vinv (c : Clock) (ops : List Op) : VInv env ops (run env (init c) ops) := by
  refine history_induction (env := env) c (P := VInv env) (fun _ _ _ h => by cases h) ?_ ops
  intro ops op s hi h
  cases op with
  | status m a =>
    rcases status_spec env m a s hi.ok with hg | ⟨e0, new, evs1, evs2, rs, e2, hf, hg, -, -, -, -, he⟩
    · intro hn; exact absurd hn hg.1
    · refine h.found hf hg (.status m.uptime) (by simp [heard]) (fun k hk => by simp [heard, Ne.symm hk]) ?_
      rw [← updateFromStatus_view]
      rcases he with ⟨-, rfl, -⟩ | ⟨-, -, rfl⟩ <;> rfl
  | info m =>
    rcases info_spec env m s hi.ok with hg | ⟨e0, new, evs1, evs2, hf, hg, -⟩
    · intro hn; exact absurd hn hg.1
    · have hoth : ∀ k, k ≠ m.src → heard k (.info m) = none := fun k hk => by simp [heard, Ne.symm hk]
      cases hb : m.body with
      | none =>
        refine h.found hf hg .query (by simp [heard, hb]) hoth ?_
        simp [afterInfo, hb, Entry.updateFromInfo1, view]
      | some p =>
        obtain ⟨u, uid⟩ := p
        refine h.found hf hg (.info u uid) (by simp [heard, hb]) hoth ?_
        simp [afterInfo, hb, view]
  | infoTimeout => exact h.sub (fun _ _ h => h) (fun _ _ => rfl)
  | sweep =>
    refine h.sub (fun k e he => ?_) (fun _ _ => rfl)
    obtain ⟨keep, r, evs, c, h1, -⟩ := removeStale_spec (env := env) s hi.ok
    simp only [step, h1, get?_filter hi.ok] at he
    split at he
    · exact he
    · cases he
  | get nid =>
    refine h.sub (fun k e he => ?_) (fun _ _ => rfl)
    have hc := getEntry_case env nid s hi.ok
    simp only [step] at he
    generalize getEntry env nid s = x at hc he
    cases hc with
    | absent => exact he
    | fresh => exact he
    | stale e evs hg hf hx hn =>
      simp only [Dict.get?_del hi.ok] at he
      split at he
      · cases he
      · exact he
    | raised => exact he
  | addHandler cb => exact h.sub (fun _ _ h => h) (fun _ _ => rfl)
  | removeHandler cb => exact h.sub (fun _ _ h => h) (fun _ _ => rfl)

/-- If no callback raises, every listed entry shows the last uptime heard and the node info of the last answer, unless the node
restarted since; only what was heard since the entry was created counts, and something was. -/
theorem C68_view (hn : NoRaise env) (c : Clock) (ops : List Op) (k : Nat) (e : Entry)
    (h : (run env (init c) ops).registry.get? k = some e) :
    ∃ before l, allHeard k ops = before ++ l ∧ l ≠ [] ∧ (e.uptime, e.info) = l.foldl view (none, none) :=
  run_vinv c ops hn k e h

/-! ## Discovery -/

/-- Attempts used up were made. -/
def Attempts (s : Mon) : Prop :=
  ∀ k e, s.registry.get? k = some e → maxRetries ≤ e.retries + (requestsFor e.serial s.trace).length

theorem updateFromStatus_retries (e : Entry) (m : Status) (n : Nat) (h : maxRetries ≤ e.retries + n) :
    maxRetries ≤ (e.updateFromStatus m).retries + n := by
  rcases (updateFromStatus_parts e m).2.2.2.2.2.2 with h1 | h1
  · rw [h1]; exact h
  · rw [h1]; omega

theorem attempts_step {s : Mon} (hi : RInv s) (h : Attempts s) (op : Op) : Attempts (step env s op) := by
  have hc := req_case (env := env) hi op
  generalize step env s op = s' at hc
  cases hc with
  | none ht hn hs =>
    intro k e he
    rw [ht.requests]
    have := h k e (hs k e he)
    simp only [List.length_append]
    omega
  | info m hop e0 new evs hf hg ht =>
    intro k e he
    rw [ht.requests]
    simp only [List.length_append]
    by_cases hk : k = m.src
    · subst hk
      rw [hg] at he; injection he with he; subst he
      rw [(afterInfo_parts e0 m).2.2.2.1]
      omega
    · rw [hf.others k hk] at he
      have := h k e he
      omega
  | status m a hop e0 new evs rs e2 hf hg ht he2 =>
    have h0 : maxRetries ≤ e0.retries + (requestsFor e0.serial s.trace).length := by
      cases new with
      | false => exact h m.src e0 (hf.old rfl).1
      | true => rw [(hf.fresh rfl).1]; exact Nat.le_add_right _ _
    have h1 := updateFromStatus_retries e0 m _ h0
    have hser := (updateFromStatus_parts e0 m).1
    intro k e he
    rw [ht.requests]
    simp only [List.length_append]
    by_cases hk : k = m.src
    · subst hk
      rw [hg] at he; injection he with he; subst he
      rcases he2 with ⟨rfl, rfl⟩ | ⟨rfl, -, rfl⟩
      · rw [hser]; omega
      · have hone : (requestsFor e0.serial [MEv.request e0.serial m.src m.ts]).length = 1 := by simp [requestsFor, requestFor]
        simp only [hser]
        rw [hone]
        omega
    · rw [hf.others k hk] at he
      have := h k e he
      omega

/-- `are_all_nodes_discovered` returns true only if for every listed entry the node info is known or at least ten requests for it
were sent, and returns true if the info of all entries is known. -/
theorem C68_discovered (c : Clock) (ops : List Op) :
    (allDiscovered (run env (init c) ops) = true → ∀ k e, (run env (init c) ops).registry.get? k = some e →
      (∃ uid, e.info = some uid) ∨ 10 ≤ (requestsFor e.serial (run env (init c) ops).trace).length) ∧
    ((∀ k e, (run env (init c) ops).registry.get? k = some e → ∃ uid, e.info = some uid) → allDiscovered (run env (init c) ops) = true) := by
  have hat : Attempts (run env (init c) ops) :=
    history_induction (env := env) c (P := fun _ s => Attempts s) (fun _ _ h => by cases h) (fun _ op s hi h => attempts_step hi h op) ops
  have hok := (run_rinv (env := env) (init_rinv c) ops).ok
  generalize run env (init c) ops = s at hat hok
  constructor
  · intro hd k e he
    have hall : ∀ x ∈ s.registry, x.2.discovered = true := by
      intro x hx
      cases hxd : x.2.discovered with
      | true => rfl
      | false =>
        have : x ∈ s.registry.filter fun x => !x.2.discovered := List.mem_filter.2 ⟨hx, by simp [hxd]⟩
        simp only [allDiscovered, beq_iff_eq, List.length_eq_zero_iff] at hd
        rw [hd] at this
        cases this
    have hm : e.discovered = true := hall (k, e) ((Dict.mem_iff_get? hok _ _).2 he)
    simp only [Entry.discovered, Bool.or_eq_true, beq_iff_eq] at hm
    rcases hm with hm | hm
    · exact .inl (Option.isSome_iff_exists.1 hm)
    · have := hat k e he
      rw [hm] at this
      simp only [maxRetries] at this
      exact .inr (by omega)
  · intro h
    simp only [allDiscovered, beq_iff_eq, List.length_eq_zero_iff, List.filter_eq_nil_iff]
    intro x hx
    obtain ⟨uid, hu⟩ := h x.1 x.2 ((Dict.mem_iff_get? hok _ _).1 hx)
    simp [Entry.discovered, hu]

/-- A node that answers and restarts; a node that never answers. -/
example : NoRaise stillEnv := fun _ _ => rfl

example :
    (run stillEnv (init ⟨0, 0⟩) [.status ⟨5, 1000000, 7⟩ false, .info ⟨5, 1100000, some (7, [1, 2]), true⟩]).registry.get? 5 =
      some { serial := 0, nodeId := 5, uptime := some 7, info := some [1, 2], ts := 1100000, retries := 10, requestedAt := 1000000 } ∧
    ((run stillEnv (init ⟨0, 0⟩) [.status ⟨5, 1000000, 7⟩ false, .info ⟨5, 1100000, some (7, [1, 2]), true⟩,
      .status ⟨5, 1200000, 0⟩ false]).registry.get? 5).map (·.info) = some none ∧
    allDiscovered (run stillEnv (init ⟨0, 0⟩) (statuses 1 9)) = false ∧ allDiscovered (run stillEnv (init ⟨0, 0⟩) (statuses 1 10)) = true := by
  decide +kernel

end Monitor
end Dronecan
