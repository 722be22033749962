import Verif.Model.MonitorUse
import Verif.Proofs.Monitor

/-!
# The node monitor used by its own update callbacks (C119)
-/

namespace Dronecan
namespace Monitor
open PyM

/-! ## Specification -/

/-- The callbacks and the requests raise nothing of their own. -/
structure Silent (env : UEnv) : Prop where
  callbacks : ∀ cb tr, env.base.raises cb tr = none
  requests : ∀ tr, env.base.requestRaises tr = none

/-- `get` returns the entry or raises `KeyError`. -/
def Answers (r : Except Err Entry) : Prop := (∃ e, r = .ok e) ∨ r = .error .keyError

/-- At the time `t` nothing has been heard from the node for longer than the timeout. -/
def Stale (env : UEnv) (t : Int) (e : Entry) : Prop := e.ts + env.base.offline < t

/-- If the callbacks do nothing but look up nodes, then, given enough stack, nothing in the monitor raises, but for the
`KeyError` of `get`, and the sweep removes all that are stale. -/
def C119_statement : Prop := ∀ env : UEnv, Silent env → ∃ d, ∀ depth, d ≤ depth → ∀ (c : Clock) (ops : List Op),
  (removeStaleU env depth (runU env depth (init c) ops)).1 = .ok () ∧
  (∀ nid e, (removeStaleU env depth (runU env depth (init c) ops)).2.registry.get? nid = some e →
    ¬ Stale env (runU env depth (init c) ops).clock.now e) ∧
  (∀ nid, Answers (getU env depth nid (runU env depth (init c) ops)).1) ∧
  (∀ m a, (onNodeStatusU env depth m a (runU env depth (init c) ops)).1 = .ok ()) ∧
  (∀ m, m.body.isSome → m.nameOk = true → (onInfoResponseU env depth m (runU env depth (init c) ops)).1 = .ok ())

/-- No callback looks up a node while it is told that some node is offline. -/
def QuietOffline (env : UEnv) : Prop := ∀ cb tr e, env.lookups cb (tr ++ [.called cb .offline e]) = []

/-! ## The registry is a dictionary, whatever the callbacks do -/

/-- The statement keeps the keys of the registry distinct. -/
def Keeps {α : Type} (m : PyM Mon α) : Prop := ∀ s, s.registry.Ok → (m s).2.registry.Ok

theorem keeps_bind {α β : Type} {m : PyM Mon α} {f : α → PyM Mon β} (hm : Keeps m) (hf : ∀ a, Keeps (f a)) :
    Keeps (m >>- f) := by
  intro s hs
  have := hm s hs
  rw [bind_run]
  match h : m s with
  | (.ok a, s') => rw [h] at this; exact hf a s' this
  | (.error e, s') => rw [h] at this; exact this

theorem keeps_try {α : Type} {m : PyM Mon α} {f : Err → PyM Mon α} (hm : Keeps m) (hf : ∀ a, Keeps (f a)) :
    Keeps (PyM.tryCatch m f) := by
  intro s hs
  have := hm s hs
  unfold PyM.tryCatch
  match h : m s with
  | (.ok a, s') => rw [h] at this; exact this
  | (.error e, s') => rw [h] at this; exact hf e s' this

theorem keeps_forEach {β : Type} (xs : List β) (f : β → PyM Mon Unit) (hf : ∀ x, Keeps (f x)) : Keeps (forEach xs f) := by
  induction xs with
  | nil => exact fun s hs => hs
  | cons x xs ih => exact keeps_bind (hf x) fun _ => ih

theorem keeps_pure {α : Type} (a : α) : Keeps (PyM.pure a) := fun _ h => h
theorem keeps_raise {α : Type} (e : Err) : Keeps (raise e : PyM Mon α) := fun _ h => h
theorem keeps_get : Keeps PyM.get := fun _ h => h
theorem keeps_log (x : MEv) : Keeps (log x) := fun _ h => h
theorem keeps_monotonic (env : MEnv) : Keeps (monotonic env) := fun _ h => h
theorem keeps_store (nid : Nat) (e : Entry) : Keeps (store nid e) := fun _ h => Dict.ok_set h _ _
theorem keeps_create (nid : Nat) : Keeps (create nid) := fun _ h => Dict.ok_set h _ _

theorem keeps_lookup (nid : Nat) : Keeps (lookup nid) := by
  intro s h
  unfold lookup
  split <;> exact h

theorem keeps_remove (nid : Nat) : Keeps (remove nid) := by
  intro s h
  unfold remove
  split
  · exact Dict.ok_del h _
  · exact h

theorem keeps_handlers (env : UEnv) (g : Nat → PyM Mon Entry) (hg : ∀ n, Keeps (g n)) (kind : Kind) (e : Entry) :
    Keeps (callHandlersU env g kind e) := by
  refine keeps_bind keeps_get fun s => keeps_forEach _ _ fun cb => ?_
  refine keeps_bind (keeps_log _) fun _ => keeps_bind keeps_get fun s => keeps_bind (keeps_forEach _ _ fun nid => ?_) fun _ => ?_
  · refine keeps_try (keeps_bind (hg nid) fun _ => keeps_pure _) fun e => ?_
    split
    · exact keeps_pure _
    · exact keeps_raise _
  · split
    · exact keeps_raise _
    · exact keeps_pure _

theorem keeps_getU (env : UEnv) (depth : Nat) : ∀ nid, Keeps (getU env depth nid) := by
  induction depth with
  | zero => exact fun _ => keeps_raise _
  | succ depth ih =>
    intro nid
    refine keeps_bind (keeps_lookup nid) fun e => keeps_bind (keeps_monotonic _) fun now => keeps_bind ?_ fun _ => keeps_lookup nid
    split
    · exact keeps_bind (keeps_handlers env _ ih _ _) fun _ => keeps_remove nid
    · exact keeps_pure _

theorem keeps_entryFor (env : UEnv) (depth nid : Nat) : Keeps (entryForU env depth nid) := by
  refine keeps_try (keeps_bind (keeps_getU env depth nid) fun _ => keeps_pure _) fun e => ?_
  split
  · exact keeps_bind (keeps_create nid) fun _ => keeps_pure _
  · exact keeps_raise _

theorem keeps_askInfo (env : MEnv) (a : Bool) (nid : Nat) (e : Entry) : Keeps (askInfo env a nid e) := by
  unfold askInfo
  split
  · split
    · refine keeps_bind (keeps_store _ _) fun _ => ?_
      split
      · exact keeps_raise _
      · refine keeps_bind (keeps_store _ _) fun _ => keeps_bind (keeps_log _) fun _ => keeps_bind keeps_get fun s => ?_
        split
        · exact keeps_raise _
        · exact keeps_pure _
    · exact keeps_pure _
  · exact keeps_pure _

theorem keeps_status (env : UEnv) (depth : Nat) (m : Status) (a : Bool) : Keeps (onNodeStatusU env depth m a) := by
  refine keeps_bind (keeps_entryFor env depth _) fun r => keeps_bind (keeps_store _ _) fun _ => keeps_bind ?_ fun _ => ?_
  · split
    · exact keeps_handlers env _ (keeps_getU env depth) _ _
    · exact keeps_pure _
  · intro s h
    unfold askIfThere
    split
    · exact keeps_askInfo _ _ _ _ s h
    · exact h

theorem keeps_info (env : UEnv) (depth : Nat) (m : InfoMsg) : Keeps (onInfoResponseU env depth m) := by
  refine keeps_bind (keeps_entryFor env depth _) fun r => keeps_bind (keeps_store _ _) fun _ => ?_
  split
  · exact keeps_raise _
  · refine keeps_bind (keeps_store _ _) fun _ => ?_
    split
    · exact keeps_handlers env _ (keeps_getU env depth) _ _
    · exact keeps_raise _

theorem keeps_sweepOne (env : UEnv) (depth : Nat) (x : Nat × Entry) : Keeps (sweepOneU env depth x) := by
  refine keeps_bind (keeps_monotonic _) fun now => ?_
  split
  · exact keeps_bind (keeps_remove _) fun _ => keeps_handlers env _ (keeps_getU env depth) _ _
  · exact keeps_pure _

theorem run_ok (env : UEnv) (depth : Nat) (ops : List Op) : ∀ s : Mon, s.registry.Ok → (runU env depth s ops).registry.Ok := by
  induction ops with
  | nil => exact fun s h => h
  | cons op ops ih =>
    intro s h
    refine ih (stepU env depth s op) ?_
    cases op with
    | status m a => exact keeps_status env depth m a s h
    | info m => exact keeps_info env depth m s h
    | infoTimeout => exact h
    | sweep => exact keeps_bind keeps_get (fun s => keeps_forEach _ _ (keeps_sweepOne env depth)) s h
    | get nid => exact keeps_getU env depth nid s h
    | addHandler cb => exact h
    | removeHandler cb => exact h

/-! ## Callbacks that look nothing up when a node goes offline -/

section
variable {env : UEnv} (hs : Silent env) (hq : QuietOffline env)
include hs hq

theorem handlers_offline (g : Nat → PyM Mon Entry) (e : Entry) (s : Mon) :
    ∃ tr, callHandlersU env g .offline e s = (.ok (), { s with trace := tr }) := by
  have hl : ∀ (cbs : List Nat) (s : Mon), ∃ tr, forEach cbs (callOneU env g .offline e) s = (.ok (), { s with trace := tr }) := by
    intro cbs
    induction cbs with
    | nil => exact fun s => ⟨s.trace, rfl⟩
    | cons cb cbs ih =>
      intro s
      obtain ⟨tr, h⟩ := ih { s with trace := s.trace ++ [.called cb .offline e] }
      refine ⟨tr, ?_⟩
      simp only [forEach, callOneU, log, bind_run, modify_run, get_run, hq cb s.trace e, pure_run, hs.callbacks]
      exact h
  obtain ⟨tr, h⟩ := hl s.callbacks s
  exact ⟨tr, h⟩

theorem getU_quiet (depth nid : Nat) (s : Mon) :
    Answers (getU env (depth + 1) nid s).1 ∧ s.clock.now ≤ (getU env (depth + 1) nid s).2.clock.now := by
  have ht := tick_le env.base.adv s.clock
  unfold getU
  cases hl : s.registry.get? nid with
  | none => simp only [lookup, bind_run, hl]; exact ⟨.inr rfl, Int.le_refl _⟩
  | some e =>
    simp only [lookup, bind_run, hl, monotonic]
    by_cases hst : e.ts + env.base.offline < (s.clock.tick env.base.adv).now
    · rw [if_pos hst]
      obtain ⟨tr, h⟩ := handlers_offline hs hq (getU env depth) e { s with clock := s.clock.tick env.base.adv }
      simp only [bind_run, h, remove]
      by_cases hc : s.registry.contains nid = true
      · simp only [hc, if_true]
        cases (s.registry.del nid).get? nid with
        | none => exact ⟨.inr rfl, ht⟩
        | some e' => exact ⟨.inl ⟨e', rfl⟩, ht⟩
      · simp only [hc]
        exact ⟨.inr rfl, ht⟩
    · rw [if_neg hst]
      simp only [pure_run, hl]
      exact ⟨.inl ⟨e, rfl⟩, ht⟩

theorem lookUp_quiet (depth nid : Nat) (s : Mon) : (lookUp (getU env (depth + 1)) nid s).1 = .ok () := by
  have h := (getU_quiet hs hq depth nid s).1
  unfold lookUp PyM.tryCatch
  rw [bind_run]
  match hg : getU env (depth + 1) nid s with
  | (.ok e, s') => rfl
  | (.error err, s') =>
    rw [hg] at h
    rcases h with ⟨e, h⟩ | h
    · cases h
    · injection h with h
      subst h
      rfl

omit hs hq in
theorem forEach_ok {β : Type} (f : β → PyM Mon Unit) (hf : ∀ x s, (f x s).1 = .ok ()) (xs : List β) :
    ∀ s, (forEach xs f s).1 = .ok () := by
  induction xs with
  | nil => exact fun _ => rfl
  | cons x xs ih =>
    intro s
    simp only [forEach, bind_run]
    have := hf x s
    match h : f x s with
    | (.ok _, s') => exact ih s'
    | (.error e, s') => rw [h] at this; cases this

theorem handlers_quiet (depth : Nat) (kind : Kind) (e : Entry) (s : Mon) :
    (callHandlersU env (getU env (depth + 1)) kind e s).1 = .ok () := by
  refine forEach_ok _ (fun cb s => ?_) s.callbacks s
  simp only [callOneU, log, bind_run, modify_run, get_run]
  have := forEach_ok _ (lookUp_quiet hs hq depth) (env.lookups cb (s.trace ++ [.called cb kind e]))
    { s with trace := s.trace ++ [.called cb kind e] }
  generalize forEach (env.lookups cb (s.trace ++ [.called cb kind e])) (lookUp (getU env (depth + 1)))
    { s with trace := s.trace ++ [.called cb kind e] } = out at this ⊢
  obtain ⟨r, s'⟩ := out
  cases this
  simp only [hs.callbacks]
  rfl

theorem entryFor_quiet (depth nid : Nat) (s : Mon) : ∃ x s', entryForU env (depth + 1) nid s = (.ok x, s') := by
  have h := (getU_quiet hs hq depth nid s).1
  unfold entryForU PyM.tryCatch
  rw [bind_run]
  match hg : getU env (depth + 1) nid s with
  | (.ok e, s') => exact ⟨_, _, rfl⟩
  | (.error err, s') =>
    rw [hg] at h
    rcases h with ⟨e, h⟩ | h
    · cases h
    · injection h with h
      subst h
      exact ⟨_, _, rfl⟩

omit hq in
theorem askInfo_quiet (a : Bool) (nid : Nat) (e : Entry) (s : Mon) : (askInfo env.base a nid e s).1 = .ok () := by
  unfold askInfo
  split
  · rename_i hd
    split
    · simp only [bind_run, store, modify_run]
      split
      · rename_i hr
        simp [Entry.discovered, hr] at hd
      · simp only [bind_run, modify_run, log, get_run, hs.requests]
        rfl
    · rfl
  · rfl

theorem sweep_quiet (depth : Nat) (L : List (Nat × Entry)) : ∀ s : Mon, s.registry.Ok → (L.map Prod.fst).Nodup →
    (∀ x ∈ L, s.registry.get? x.1 = some x.2) →
    (forEach L (sweepOneU env depth) s).1 = .ok () ∧
    (∀ k, k ∉ L.map Prod.fst → (forEach L (sweepOneU env depth) s).2.registry.get? k = s.registry.get? k) ∧
    (∀ x ∈ L, ∀ e, (forEach L (sweepOneU env depth) s).2.registry.get? x.1 = some e → ¬ Stale env s.clock.now e) := by
  induction L with
  | nil => exact fun s _ _ _ => ⟨rfl, fun _ _ => rfl, fun _ h => nomatch h⟩
  | cons x L ih =>
    intro s hok hnd hL
    obtain ⟨k, e⟩ := x
    have ht := tick_le env.base.adv s.clock
    rw [List.map_cons, List.nodup_cons] at hnd
    have hx := hL (k, e) List.mem_cons_self
    simp only at hx hnd
    simp only [forEach, sweepOneU, monotonic, bind_run]
    by_cases hst : e.ts + env.base.offline < (s.clock.tick env.base.adv).now
    · rw [if_pos hst]
      simp only [bind_run, remove, Dict.contains, hx, Option.isSome_some, if_true]
      obtain ⟨tr, h⟩ := handlers_offline hs hq (getU env depth) e
        { s with clock := s.clock.tick env.base.adv, registry := s.registry.del k }
      rw [h]
      dsimp only
      obtain ⟨a1, a2, a3⟩ := ih { s with clock := s.clock.tick env.base.adv, registry := s.registry.del k, trace := tr }
        (Dict.ok_del hok k) hnd.2 (fun x hx' => by
          have hne : k ≠ x.1 := fun h => hnd.1 (h ▸ List.mem_map_of_mem hx')
          simp only
          rw [Dict.get?_del_ne _ hne]
          exact hL x (List.mem_cons_of_mem _ hx'))
      refine ⟨a1, fun k' hk' => ?_, fun x hx' e' he' => ?_⟩
      · rw [List.map_cons, List.mem_cons, not_or] at hk'
        rw [a2 k' hk'.2]
        exact Dict.get?_del_ne _ (Ne.symm hk'.1)
      · rcases List.mem_cons.1 hx' with hx' | hx'
        · subst hx'
          rw [a2 k hnd.1] at he'
          simp only at he'
          rw [Dict.get?_del_self hok] at he'
          cases he'
        · have := a3 x hx' e' he'
          unfold Stale at this ⊢
          simp only at this
          omega
    · rw [if_neg hst]
      simp only [pure_run]
      obtain ⟨a1, a2, a3⟩ := ih { s with clock := s.clock.tick env.base.adv } hok hnd.2
        (fun x hx' => hL x (List.mem_cons_of_mem _ hx'))
      refine ⟨a1, fun k' hk' => ?_, fun x hx' e' he' => ?_⟩
      · rw [List.map_cons, List.mem_cons, not_or] at hk'
        exact a2 k' hk'.2
      · rcases List.mem_cons.1 hx' with hx' | hx'
        · subst hx'
          rw [a2 k hnd.1] at he'
          simp only at he'
          rw [hx] at he'
          injection he' with he'
          subst he'
          unfold Stale
          omega
        · have := a3 x hx' e' he'
          unfold Stale at this ⊢
          simp only at this
          omega

end

/-! ## C119 -/

/-- C119 if no callback looks up a node while it is told that some node is offline. (Missing: callbacks that do, see
`C119_recursion` and `C119_sweep`.) -/
theorem C119_partial (env : UEnv) (hs : Silent env) (hq : QuietOffline env) (depth : Nat) (hd : 1 ≤ depth) (c : Clock)
    (ops : List Op) :
    (removeStaleU env depth (runU env depth (init c) ops)).1 = .ok () ∧
    (∀ nid e, (removeStaleU env depth (runU env depth (init c) ops)).2.registry.get? nid = some e →
      ¬ Stale env (runU env depth (init c) ops).clock.now e) ∧
    (∀ nid, Answers (getU env depth nid (runU env depth (init c) ops)).1) ∧
    (∀ m a, (onNodeStatusU env depth m a (runU env depth (init c) ops)).1 = .ok ()) ∧
    (∀ m, m.body.isSome → m.nameOk = true → (onInfoResponseU env depth m (runU env depth (init c) ops)).1 = .ok ()) := by
  have hok := run_ok env depth ops (init c) Dict.ok_nil
  generalize runU env depth (init c) ops = s at hok ⊢
  obtain ⟨depth, rfl⟩ : ∃ d, depth = d + 1 := ⟨depth - 1, by omega⟩
  obtain ⟨a1, a2, a3⟩ := sweep_quiet hs hq (depth + 1) s.registry s hok hok (fun x hx => (Dict.mem_iff_get? hok _ _).1 hx)
  refine ⟨a1, fun nid e he => ?_, fun nid => (getU_quiet hs hq depth nid s).1, fun m a => ?_, fun m hb hn => ?_⟩
  · by_cases hm : nid ∈ s.registry.map Prod.fst
    · obtain ⟨x, hx, rfl⟩ := List.mem_map.1 hm
      exact a3 x hx e he
    · have h2 := a2 nid hm
      have : s.registry.get? nid = none := (Dict.get?_eq_none_iff _ _).2 hm
      rw [this] at h2
      have he' : (forEach s.registry (sweepOneU env (depth + 1)) s).2.registry.get? nid = some e := he
      rw [h2] at he'
      cases he'
  · obtain ⟨x, s1, h1⟩ := entryFor_quiet hs hq depth m.src s
    simp only [onNodeStatusU, bind_run, h1, store, modify_run]
    have hask : ∀ e' s', (askIfThere env a m.src e' s').1 = .ok () := by
      intro e' s'
      unfold askIfThere
      split <;> exact askInfo_quiet hs a m.src e' s'
    cases x.2 with
    | false => simp only [Bool.false_eq_true, if_false, pure_run]; exact hask _ _
    | true =>
      simp only [if_true]
      have := handlers_quiet hs hq depth .new (x.1.updateFromStatus m)
        { s1 with registry := s1.registry.set m.src (x.1.updateFromStatus m) }
      generalize callHandlersU env (getU env (depth + 1)) .new (x.1.updateFromStatus m)
        { s1 with registry := s1.registry.set m.src (x.1.updateFromStatus m) } = out at this ⊢
      obtain ⟨r, s'⟩ := out
      cases this
      exact hask _ _
  · obtain ⟨x, s1, h1⟩ := entryFor_quiet hs hq depth m.src s
    obtain ⟨⟨uptime, uid⟩, hbody⟩ := Option.isSome_iff_exists.1 hb
    simp only [onInfoResponseU, bind_run, h1, store, modify_run, hbody, hn, if_true]
    exact handlers_quiet hs hq depth _ _ _

/-- A callback that looks up the node that it is told to be offline: `get` of a stale node calls itself until the stack
is exhausted, whatever its size. -/
theorem C119_recursion (env : UEnv) (nid cb : Nat) (rest : List Nat) (e : Entry)
    (hl : ∀ tr, ∃ more, env.lookups cb (tr ++ [.called cb .offline e]) = nid :: more) (depth : Nat) :
    ∀ s : Mon, s.registry.get? nid = some e → Stale env s.clock.now e → s.callbacks = cb :: rest →
      (getU env depth nid s).1 = .error .runtimeError := by
  induction depth with
  | zero => exact fun _ _ _ _ => rfl
  | succ depth ih =>
    intro s hg hst hc
    have ht := tick_le env.base.adv s.clock
    have hst' : e.ts + env.base.offline < (s.clock.tick env.base.adv).now := by unfold Stale at hst; omega
    obtain ⟨more, hm⟩ := hl s.trace
    have := ih { s with clock := s.clock.tick env.base.adv, trace := s.trace ++ [.called cb .offline e] } hg hst' hc
    unfold getU
    simp only [lookup, bind_run, hg, monotonic]
    rw [if_pos hst']
    simp only [callHandlersU, bind_run, get_run, hc, forEach, callOneU, log, modify_run, hm, lookUp, PyM.tryCatch]
    rw [hc] at this
    generalize getU env depth nid
      { s with clock := s.clock.tick env.base.adv, callbacks := cb :: rest, trace := s.trace ++ [.called cb .offline e] } = out at this ⊢
    obtain ⟨r, s'⟩ := out
    cases this
    rfl

/-- Two stale nodes, and a callback that looks up the second when it is told that the first is offline: the sweep raises
`KeyError` and does not look at the nodes after them. -/
theorem C119_sweep (env : UEnv) (hs : Silent env) (a b cb : Nat) (ea eb : Entry) (more : Dict Nat Entry)
    (hla : ∀ tr, env.lookups cb (tr ++ [.called cb .offline ea]) = [b])
    (hlb : ∀ tr, env.lookups cb (tr ++ [.called cb .offline eb]) = []) (depth : Nat) (s : Mon) (hok : s.registry.Ok)
    (hr : s.registry = (a, ea) :: (b, eb) :: more) (ha : Stale env s.clock.now ea) (hb : Stale env s.clock.now eb)
    (hc : s.callbacks = [cb]) :
    (removeStaleU env (depth + 1) s).1 = .error .keyError ∧ (removeStaleU env (depth + 1) s).2.registry = more := by
  have ht := tick_le env.base.adv s.clock
  have ht2 := tick_le env.base.adv (s.clock.tick env.base.adv)
  have ht3 := tick_le env.base.adv ((s.clock.tick env.base.adv).tick env.base.adv)
  unfold Stale at ha hb
  have hnb : more.get? b = none := by
    rw [hr] at hok
    have : b ∉ Dict.keys more := (List.nodup_cons.1 (List.nodup_cons.1 hok).2).1
    exact (Dict.get?_eq_none_iff _ _).2 this
  obtain ⟨registry, callbacks, clock, nextSerial, trace⟩ := s
  simp only at hr hc ha hb ht ht2 ht3
  subst hr hc
  have c1 : ea.ts + env.base.offline < (clock.tick env.base.adv).now := by omega
  have c2 : eb.ts + env.base.offline < ((clock.tick env.base.adv).tick env.base.adv).now := by omega
  have c3 : eb.ts + env.base.offline < (((clock.tick env.base.adv).tick env.base.adv).tick env.base.adv).now := by omega
  have hlb' : env.lookups cb (trace ++ [.called cb .offline ea, .called cb .offline eb]) = [] := by
    have := hlb (trace ++ [.called cb .offline ea])
    simpa using this
  simp [removeStaleU, forEach, sweepOneU, monotonic, c1, c2, c3, remove, Dict.contains, Dict.get?, Dict.del, callHandlersU,
    callOneU, log, hla, hlb', lookUp, PyM.tryCatch, getU, lookup, hs.callbacks, hnb]

/-- Callback 7 looks up the node that it is told to be offline. The clock advances by two seconds at every reading; the
timeout is one second. -/
def selfish : UEnv where
  base := { adv := fun _ => 2000000, offline := 1000000 }
  lookups cb tr := match tr.getLast? with
    | some (.called _ .offline e) => if cb = 7 then [e.nodeId] else []
    | _ => []

/-- A node was heard from once. -/
theorem C119_counterexample : ¬ C119_statement := by
  intro h
  obtain ⟨d, h⟩ := h selfish ⟨fun _ _ => rfl, fun _ => rfl⟩
  have h1 := (h (d + 1) (by omega) { now := 0 } [.addHandler 7, .status { src := 42, ts := -1000001, uptime := 1 } true]).2.2.1 42
  have hrun : runU selfish (d + 1) (init { now := 0 }) [.addHandler 7, .status { src := 42, ts := -1000001, uptime := 1 } true] =
      { registry := [(42, { serial := 0, nodeId := 42, uptime := some 1, ts := -1000001 })], callbacks := [7], clock := { now := 0 },
        nextSerial := 1, trace := [.called 7 .new { serial := 0, nodeId := 42, uptime := some 1, ts := -1000001 }] } := by
    rfl
  rw [hrun] at h1
  have h2 := C119_recursion selfish 42 7 [] { serial := 0, nodeId := 42, uptime := some 1, ts := -1000001 }
    (fun tr => ⟨[], by simp [selfish]⟩) (d + 1)
    { registry := [(42, { serial := 0, nodeId := 42, uptime := some 1, ts := -1000001 })], callbacks := [7], clock := { now := 0 },
      nextSerial := 1, trace := [.called 7 .new { serial := 0, nodeId := 42, uptime := some 1, ts := -1000001 }] }
    rfl (by unfold Stale; decide) rfl
  rcases h1 with ⟨e, h1⟩ | h1 <;> rw [h2] at h1 <;> cases h1

/-! ## Examples -/

/-- Callback 7 looks up node 43 when it is told of node 42. -/
def curious : UEnv where
  base := { adv := fun _ => 600000, offline := 1000000 }
  lookups cb tr := match tr.getLast? with
    | some (.called _ _ e) => if cb = 7 ∧ e.nodeId = 42 then [43] else []
    | _ => []

/-- Three nodes are heard from, and then nothing; the sweep fails with `KeyError` and leaves node 44. -/
example : let s := runU curious 100 (init { now := 0 }) [.addHandler 7, .status { src := 42, ts := 0, uptime := 1 } true,
      .status { src := 43, ts := 0, uptime := 1 } true, .status { src := 44, ts := 0, uptime := 1 } true]
    (removeStaleU curious 100 { s with clock := { now := 5000000 } }).1 = .error .keyError ∧
    (removeStaleU curious 100 { s with clock := { now := 5000000 } }).2.registry.map (·.1) = [44] := by
  decide +kernel

/-- Callback 7 looks up node 43 when it is told of a new node. -/
def modest : UEnv where
  base := { adv := fun _ => 300000, offline := 1000000 }
  lookups cb tr := match tr.getLast? with
    | some (.called _ .new _) => if cb = 7 then [43] else []
    | _ => []

example : Silent modest ∧ QuietOffline modest :=
  ⟨⟨fun _ _ => rfl, fun _ => rfl⟩, fun cb tr e => by simp [modest]⟩

/-- When node 42 appears, the callback is told of it and looks up node 43, which is still there; the sweep removes node 43. -/
example : let s := runU modest 100 (init { now := 0 }) [.addHandler 7, .status { src := 43, ts := 0, uptime := 1 } true,
      .status { src := 42, ts := 800000, uptime := 1 } true, .status { src := 44, ts := 900000, uptime := 1 } true]
    s.registry.map (·.1) = [43, 42, 44] ∧ (removeStaleU modest 100 s).2.registry.map (·.1) = [42, 44] := by
  decide +kernel

/-! ## Callbacks that do not look up anything -/

theorem callHandlersU_none (env : UEnv) (hl : ∀ cb tr, env.lookups cb tr = []) (g : Nat → PyM Mon Entry) (kind : Kind) (e : Entry) :
    callHandlersU env g kind e = callHandlers env.base kind e := by
  have h : callOneU env g kind e = callOne env.base kind e := by
    funext cb s
    simp only [callOneU, callOne, bind_run, get_run, hl, forEach, pure_run, log, modify_run]
    cases env.base.raises cb (s.trace ++ [MEv.called cb kind e]) <;> rfl
  simp only [callHandlersU, callHandlers, h]

theorem getU_none (env : UEnv) (hl : ∀ cb tr, env.lookups cb tr = []) (depth nid : Nat) : getU env (depth + 1) nid = getEntry env.base nid := by
  simp only [getU, getEntry, callHandlersU_none env hl]

theorem entryForU_none (env : UEnv) (hl : ∀ cb tr, env.lookups cb tr = []) (depth nid : Nat) : entryForU env (depth + 1) nid = entryFor env.base nid := by
  simp only [entryForU, entryFor, getU_none env hl]

theorem statusU_none (env : UEnv) (hl : ∀ cb tr, env.lookups cb tr = []) (depth : Nat) (m : Status) (a : Bool) :
    onNodeStatusU env (depth + 1) m a = onNodeStatus env.base m a := by
  funext s
  simp only [onNodeStatusU, onNodeStatus, entryForU_none env hl, callHandlersU_none env hl, bind_run]
  cases hr : entryFor env.base m.src s with
  | mk r s1 =>
    cases r with
    | error err => rfl
    | ok r =>
      simp only [store, modify_run]
      have there : ∀ evs, askIfThere env a m.src (r.1.updateFromStatus m)
          { s1 with registry := s1.registry.set m.src (r.1.updateFromStatus m), trace := evs } =
          askInfo env.base a m.src (r.1.updateFromStatus m)
          { s1 with registry := s1.registry.set m.src (r.1.updateFromStatus m), trace := evs } := by
        intro evs
        simp only [askIfThere]
        rw [if_pos]
        rw [Dict.get?_set_self]
        rfl
      cases hn : r.2 with
      | false =>
        simp only [Bool.false_eq_true, if_false, pure_run]
        exact there s1.trace
      | true =>
        simp only [if_true]
        obtain ⟨x, evs, i1, -⟩ := callHandlers_eq env.base .new (r.1.updateFromStatus m)
          { s1 with registry := s1.registry.set m.src (r.1.updateFromStatus m) }
        rw [i1]
        cases x with
        | error err => rfl
        | ok u => exact there _

/-- Then the monitor is that of the other properties (C36-C38), whatever the callbacks and requests raise. -/
theorem C119_without (env : UEnv) (hl : ∀ cb tr, env.lookups cb tr = []) (depth : Nat) (hd : 1 ≤ depth) (s : Mon) (ops : List Op) :
    runU env depth s ops = run env.base s ops ∧ (∀ nid, getU env depth nid = getEntry env.base nid) ∧
    (∀ m a, onNodeStatusU env depth m a = onNodeStatus env.base m a) ∧ (∀ m, onInfoResponseU env depth m = onInfoResponse env.base m) ∧
    removeStaleU env depth = removeStale env.base := by
  obtain ⟨depth, rfl⟩ : ∃ d, depth = d + 1 := ⟨depth - 1, by omega⟩
  have hg := getU_none env hl depth
  have hst := statusU_none env hl depth
  have hi : ∀ m, onInfoResponseU env (depth + 1) m = onInfoResponse env.base m := by
    intro m
    simp only [onInfoResponseU, onInfoResponse, entryForU_none env hl, callHandlersU_none env hl]
    cases m.body <;> rfl
  have hsw : removeStaleU env (depth + 1) = removeStale env.base := by
    have : sweepOneU env (depth + 1) = sweepOne env.base := by
      funext x
      simp only [sweepOneU, sweepOne, callHandlersU_none env hl]
    simp only [removeStaleU, removeStale, this]
  refine ⟨?_, hg, hst, hi, hsw⟩
  have : stepU env (depth + 1) = step env.base := by
    funext s op
    cases op <;> simp only [stepU, step, hg, hst, hi, hsw]
  simp only [runU, run, this]

end Monitor
end Dronecan
