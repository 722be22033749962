import Verif.Model.Monitor
import Verif.Proofs.Dict

/-!
# Lemmas about the node monitor
-/

namespace Dronecan
namespace Monitor
open PyM

variable (env : MEnv)

/-- No callback raises. -/
def NoRaise : Prop := ∀ cb tr, env.raises cb tr = none

theorem tick_le (adv : Nat → Nat) (c : Clock) : c.now ≤ (c.tick adv).now := by simp [Clock.tick]; omega

/-- Calling the callbacks only appends to the trace. -/
theorem forEach_callOne (kind : Kind) (e : Entry) (cbs : List Nat) : ∀ s : Mon, ∃ r evs,
    forEach cbs (callOne env kind e) s = (r, { s with trace := s.trace ++ evs }) ∧
    (∀ x ∈ evs, ∃ cb, x = .called cb kind e) ∧
    (NoRaise env → r = .ok () ∧ evs = cbs.map (.called · kind e)) := by
  induction cbs with
  | nil => intro s; exact ⟨.ok (), [], by simp [forEach], by simp, fun _ => ⟨rfl, rfl⟩⟩
  | cons cb cbs ih =>
    intro s
    simp only [forEach, bind_run, callOne, log, modify_run, get_run]
    cases hr : env.raises cb (s.trace ++ [.called cb kind e]) with
    | some err =>
      refine ⟨.error err, [.called cb kind e], by simp, by simp, fun h => ?_⟩
      rw [h] at hr; cases hr
    | none =>
      obtain ⟨r, evs, h1, h2, h3⟩ := ih { s with trace := s.trace ++ [.called cb kind e] }
      refine ⟨r, .called cb kind e :: evs, ?_, ?_, ?_⟩
      · simp only [pure_run, callOne, log, bind_run, modify_run, get_run] at h1 ⊢
        rw [h1]
        simp
      · intro x hx
        rcases List.mem_cons.1 hx with rfl | hx
        · exact ⟨cb, rfl⟩
        · exact h2 x hx
      · intro h
        obtain ⟨h4, h5⟩ := h3 h
        exact ⟨h4, by rw [h5]; rfl⟩

theorem callHandlers_eq (kind : Kind) (e : Entry) (s : Mon) : ∃ r evs,
    callHandlers env kind e s = (r, { s with trace := s.trace ++ evs }) ∧
    (∀ x ∈ evs, ∃ cb, x = .called cb kind e) ∧
    (NoRaise env → r = .ok () ∧ evs = s.callbacks.map (.called · kind e)) := by
  simp only [callHandlers, bind_run, get_run]
  exact forEach_callOne env kind e s.callbacks s

/-- The outcomes of `get`. -/
inductive GetCase (nid : Nat) (s : Mon) : Except Err Entry × Mon → Prop
  | absent (h : s.registry.get? nid = none) : GetCase nid s (.error .keyError, s)
  | fresh (e : Entry) (h : s.registry.get? nid = some e) (hf : (s.clock.tick env.adv).now ≤ e.ts + env.offline) :
      GetCase nid s (.ok e, { s with clock := s.clock.tick env.adv })
  | stale (e : Entry) (evs : List MEv) (h : s.registry.get? nid = some e)
      (hf : e.ts + env.offline < (s.clock.tick env.adv).now) (hx : ∀ x ∈ evs, ∃ cb, x = .called cb .offline e)
      (hn : NoRaise env → evs = s.callbacks.map (.called · .offline e)) :
      GetCase nid s (.error .keyError,
        { s with
          clock := s.clock.tick env.adv
          registry := s.registry.del nid
          trace := s.trace ++ evs })
  | raised (e : Entry) (evs : List MEv) (err : Err) (h : s.registry.get? nid = some e)
      (hf : e.ts + env.offline < (s.clock.tick env.adv).now) (hx : ∀ x ∈ evs, ∃ cb, x = .called cb .offline e)
      (hn : ¬ NoRaise env) :
      GetCase nid s (.error err, { s with clock := s.clock.tick env.adv, trace := s.trace ++ evs })

theorem getEntry_case (nid : Nat) (s : Mon) (hok : s.registry.Ok) : GetCase env nid s (getEntry env nid s) := by
  cases hg : s.registry.get? nid with
  | none =>
    have : getEntry env nid s = (.error .keyError, s) := by simp [getEntry, lookup, hg]
    rw [this]; exact .absent hg
  | some e =>
    by_cases hf : e.ts + env.offline < (s.clock.tick env.adv).now
    · obtain ⟨r, evs, h1, h2, h3⟩ := callHandlers_eq env .offline e { s with clock := s.clock.tick env.adv }
      cases r with
      | ok u =>
        have hk : s.registry.contains nid = true := by simp [Dict.contains, hg]
        have : getEntry env nid s = (.error .keyError,
            { s with
              clock := s.clock.tick env.adv
              registry := s.registry.del nid
              trace := s.trace ++ evs }) := by
          simp only [getEntry, bind_run, lookup, hg, monotonic, hf, if_true, h1, remove, hk, Dict.get?_del_self hok]
        rw [this]
        exact .stale e evs hg hf h2 fun h => (h3 h).2
      | error err =>
        have : getEntry env nid s = (.error err, { s with clock := s.clock.tick env.adv, trace := s.trace ++ evs }) := by
          simp only [getEntry, bind_run, lookup, hg, monotonic, hf, if_true, h1]
        rw [this]
        exact .raised e evs err hg hf h2 fun h => by cases (h3 h).1
    · have : getEntry env nid s = (.ok e, { s with clock := s.clock.tick env.adv }) := by
        simp only [getEntry, bind_run, lookup, hg, monotonic, hf, if_false, pure_run]
      rw [this]
      exact .fresh e hg (by omega)

/-- The outcomes of looking up or creating the entry of a node. -/
inductive ForCase (nid : Nat) (s : Mon) : Except Err (Entry × Bool) × Mon → Prop
  /-- The entry exists and is fresh. -/
  | fresh (e : Entry) (h : s.registry.get? nid = some e) (hf : (s.clock.tick env.adv).now ≤ e.ts + env.offline) :
      ForCase nid s (.ok (e, false), { s with clock := s.clock.tick env.adv })
  /-- There is none; a new one is made. -/
  | created (h : s.registry.get? nid = none) :
      ForCase nid s (.ok ({ serial := s.nextSerial }, true),
        { s with
          registry := s.registry.set nid { serial := s.nextSerial }
          nextSerial := s.nextSerial + 1 })
  /-- The entry is old: it is removed and a new one is made. -/
  | replaced (e : Entry) (evs : List MEv) (h : s.registry.get? nid = some e)
      (hf : e.ts + env.offline < (s.clock.tick env.adv).now) (hx : ∀ x ∈ evs, ∃ cb, x = .called cb .offline e)
      (hn : NoRaise env → evs = s.callbacks.map (.called · .offline e)) (reg : Dict Nat Entry)
      (hr : reg = s.registry.del nid ∨ ¬ NoRaise env ∧ reg = s.registry) :
      ForCase nid s (.ok ({ serial := s.nextSerial }, true),
        { s with
          clock := s.clock.tick env.adv
          registry := Dict.set reg nid { serial := s.nextSerial }
          nextSerial := s.nextSerial + 1
          trace := s.trace ++ evs })
  /-- The entry is old and a callback raises. -/
  | raised (e : Entry) (evs : List MEv) (err : Err) (h : s.registry.get? nid = some e)
      (hf : e.ts + env.offline < (s.clock.tick env.adv).now) (hx : ∀ x ∈ evs, ∃ cb, x = .called cb .offline e)
      (hn : ¬ NoRaise env) :
      ForCase nid s (.error err, { s with clock := s.clock.tick env.adv, trace := s.trace ++ evs })

theorem entryFor_case (nid : Nat) (s : Mon) (hok : s.registry.Ok) : ForCase env nid s (entryFor env nid s) := by
  have h := getEntry_case env nid s hok
  simp only [entryFor, PyM.tryCatch, bind_run]
  generalize getEntry env nid s = x at h
  cases h with
  | absent h => exact .created h
  | fresh e h hf => exact .fresh e h hf
  | stale e evs h hf hx hn => exact .replaced e evs h hf hx hn _ (.inl rfl)
  | raised e evs err h hf hx hn =>
    simp only
    split
    · exact .replaced e evs h hf hx (fun h => absurd h hn) _ (.inr ⟨hn, rfl⟩)
    · exact .raised e evs err h hf hx hn

/-- Does the monitor ask entry `e` for its info now? -/
def asks (anonymous : Bool) (e : Entry) : Bool :=
  !e.discovered && !anonymous && decide (e.ts - e.requestedAt > minRetryInterval)

theorem askInfo_eq (anonymous : Bool) (nid : Nat) (e : Entry) (s : Mon) : ∃ r, askInfo env anonymous nid e s =
    (r, if asks anonymous e then
        { s with
          registry := (s.registry.set nid { e with requestedAt := e.ts }).set nid
            { e with requestedAt := e.ts, retries := e.retries - 1 }
          trace := s.trace ++ [.request e.serial nid e.ts] }
      else s) := by
  unfold askInfo asks
  cases hd : e.discovered <;> cases anonymous
  · by_cases ht : e.ts - e.requestedAt > minRetryInterval
    · have hr : e.retries ≠ 0 := by
        intro h
        simp [Entry.discovered, h] at hd
      simp only [ht, hr, Bool.not_false, Bool.and_self, if_true, if_false, store, log, bind_run, modify_run, get_run,
        decide_true]
      cases env.requestRaises (s.trace ++ [.request e.serial nid e.ts])
      · exact ⟨_, rfl⟩
      · exact ⟨_, rfl⟩
    · simp only [ht, Bool.not_false, Bool.and_self, if_true, if_false, decide_false, Bool.and_false, Bool.false_eq_true]
      exact ⟨_, rfl⟩
  all_goals exact ⟨_, rfl⟩

/-- The entry `e0` of node `nid` was found (`new = false`) or made (`new = true`) on the way from `s` to `s'`; `evs` are
the callbacks called for an entry that was too old. -/
structure Found (s s' : Mon) (nid : Nat) (e0 : Entry) (new : Bool) (evs : List MEv) : Prop where
  ok : s'.registry.Ok
  cbs : s'.callbacks = s.callbacks
  clock : s.clock.now ≤ s'.clock.now
  old : new = false → s.registry.get? nid = some e0 ∧ s.clock.now ≤ e0.ts + env.offline ∧
    s'.nextSerial = s.nextSerial ∧ evs = []
  fresh : new = true → e0 = { serial := s.nextSerial } ∧ s'.nextSerial = s.nextSerial + 1 ∧
    ((s.registry.get? nid = none ∧ evs = []) ∨
      ∃ e, s.registry.get? nid = some e ∧ e.ts + env.offline < s'.clock.now ∧
        (∀ x ∈ evs, ∃ cb, x = .called cb .offline e) ∧ (NoRaise env → evs = s.callbacks.map (.called · .offline e)))
  others : ∀ k, k ≠ nid → s'.registry.get? k = s.registry.get? k

/-- A callback raised while an entry that was too old was to be removed: nothing but the trace and the clock change. -/
def Gave (s s' : Mon) (nid : Nat) : Prop :=
  ¬ NoRaise env ∧ s'.registry = s.registry ∧ s'.nextSerial = s.nextSerial ∧ s'.callbacks = s.callbacks ∧
    s.clock.now ≤ s'.clock.now ∧ ∃ e evs, s.registry.get? nid = some e ∧ e.ts + env.offline < s'.clock.now ∧
      s'.trace = s.trace ++ evs ∧ ∀ x ∈ evs, ∃ cb, x = .called cb .offline e

theorem entryFor_spec (nid : Nat) (s : Mon) (hok : s.registry.Ok) :
    (∃ err s', entryFor env nid s = (.error err, s') ∧ Gave env s s' nid) ∨
    ∃ e0 new s' evs, entryFor env nid s = (.ok (e0, new), s') ∧ Found env s s' nid e0 new evs ∧
      s'.trace = s.trace ++ evs := by
  have h := entryFor_case env nid s hok
  generalize entryFor env nid s = x at h
  cases h with
  | fresh e h hf =>
    right
    refine ⟨e, false, _, [], rfl, ⟨hok, rfl, tick_le _ _, fun _ => ⟨h, ?_, rfl, rfl⟩, nofun, fun _ _ => rfl⟩, by simp⟩
    have := tick_le env.adv s.clock
    omega
  | created h =>
    right
    exact ⟨_, true, _, [], rfl, ⟨Dict.ok_set hok _ _, rfl, Int.le_refl _, nofun, fun _ => ⟨rfl, rfl, .inl ⟨h, rfl⟩⟩,
      fun k hk => Dict.get?_set_ne _ _ (Ne.symm hk)⟩, by simp⟩
  | replaced e evs h hf hx hn reg hr =>
    right
    have hreg : reg.Ok ∧ ∀ k, k ≠ nid → reg.get? k = s.registry.get? k := by
      rcases hr with rfl | ⟨-, rfl⟩
      · exact ⟨Dict.ok_del hok _, fun k hk => Dict.get?_del_ne _ (Ne.symm hk)⟩
      · exact ⟨hok, fun _ _ => rfl⟩
    refine ⟨_, true, _, evs, rfl, ⟨Dict.ok_set hreg.1 _ _, rfl, tick_le _ _, nofun,
      fun _ => ⟨rfl, rfl, .inr ⟨e, h, hf, hx, hn⟩⟩, fun k hk => ?_⟩, rfl⟩
    show (Dict.set reg nid _).get? k = _
    rw [Dict.get?_set_ne _ _ (Ne.symm hk)]
    exact hreg.2 k hk
  | raised e evs err h hf hx hn =>
    left
    exact ⟨err, _, rfl, hn, rfl, rfl, rfl, tick_le _ _, e, evs, h, hf, rfl, hx⟩

/-- What the arrival of a status message does. -/
theorem status_spec (m : Status) (a : Bool) (s : Mon) (hok : s.registry.Ok) :
    let s' := (onNodeStatus env m a s).2
    Gave env s s' m.src ∨
    ∃ e0 new evs1 evs2 rs e2, Found env s s' m.src e0 new evs1 ∧ s'.registry.get? m.src = some e2 ∧
      s'.trace = s.trace ++ (evs1 ++ evs2 ++ rs) ∧
      (new = false → evs2 = []) ∧
      (∀ x ∈ evs2, ∃ cb, x = .called cb .new (e0.updateFromStatus m)) ∧
      (new = true → NoRaise env → evs2 = s.callbacks.map (.called · .new (e0.updateFromStatus m))) ∧
      ((rs = [] ∧ e2 = e0.updateFromStatus m ∧ (NoRaise env → asks a e2 = false)) ∨
       (rs = [.request e0.serial m.src m.ts] ∧ asks a (e0.updateFromStatus m) = true ∧
        e2 = { e0.updateFromStatus m with
          requestedAt := m.ts
          retries := (e0.updateFromStatus m).retries - 1 })) := by
  rcases entryFor_spec env m.src s hok with ⟨err, s1, h1, h2⟩ | ⟨e0, new, s1, evs1, h1, h2, h3⟩
  · left
    simp only [onNodeStatus, bind_run, h1]
    exact h2
  · right
    have hser : (e0.updateFromStatus m).serial = e0.serial ∧ (e0.updateFromStatus m).ts = m.ts := by
      simp only [Entry.updateFromStatus]
      cases e0.uptime with
      | none => exact ⟨rfl, rfl⟩
      | some u => dsimp only; split <;> exact ⟨rfl, rfl⟩
    generalize he1 : e0.updateFromStatus m = e1 at hser ⊢
    simp only [onNodeStatus, bind_run, h1, store, modify_run]
    have hset : ∀ k, k ≠ m.src → (s1.registry.set m.src e1).get? k = s.registry.get? k := fun k hk => by
      rw [Dict.get?_set_ne _ _ (Ne.symm hk)]; exact h2.others k hk
    -- the second callback list
    have hcall : ∃ r evs2, (if new = true then callHandlers env .new e1 else PyM.pure ())
        { s1 with registry := s1.registry.set m.src e1 } =
        (r, { s1 with registry := s1.registry.set m.src e1, trace := s1.trace ++ evs2 }) ∧
        (new = false → evs2 = []) ∧ (∀ x ∈ evs2, ∃ cb, x = .called cb .new e1) ∧
        (NoRaise env → r = .ok ()) ∧
        (new = true → NoRaise env → evs2 = s.callbacks.map (.called · .new e1)) := by
      cases new with
      | false => exact ⟨.ok (), [], by simp, fun _ => rfl, by simp, fun _ => rfl, nofun⟩
      | true =>
        obtain ⟨r, evs, i1, i2, i3⟩ := callHandlers_eq env .new e1 { s1 with registry := s1.registry.set m.src e1 }
        refine ⟨r, evs, i1, nofun, i2, fun h => (i3 h).1, fun _ h => ?_⟩
        rw [(i3 h).2]
        show s1.callbacks.map _ = _
        rw [h2.cbs]
    obtain ⟨r, evs2, c1, c2, c3, c4, c5⟩ := hcall
    rw [he1, c1]
    cases r with
    | error err =>
      refine ⟨e0, new, evs1, evs2, [], e1, ⟨Dict.ok_set h2.ok _ _, h2.cbs, h2.clock, h2.old, h2.fresh, hset⟩,
        Dict.get?_set_self _ _ _, by simp [h3], c2, by rw [he1]; exact c3, by rw [he1]; exact c5,
        .inl ⟨rfl, he1.symm, fun h => by cases c4 h⟩⟩
    | ok u =>
      obtain ⟨r, a1⟩ := askInfo_eq env a m.src e1
        { s1 with registry := s1.registry.set m.src e1, trace := s1.trace ++ evs2 }
      simp only [a1]
      by_cases ha : asks a e1 = true
      · rw [if_pos ha]
        refine ⟨e0, new, evs1, evs2, _, _, ⟨?_, h2.cbs, h2.clock, h2.old, h2.fresh, ?_⟩,
          Dict.get?_set_self _ _ _, ?_, c2, by rw [he1]; exact c3, by rw [he1]; exact c5, .inr ⟨rfl, by rw [he1]; exact ha, ?_⟩⟩
        · exact Dict.ok_set (Dict.ok_set (Dict.ok_set h2.ok _ _) _ _) _ _
        · intro k hk
          show (Dict.set (Dict.set (Dict.set s1.registry _ _) _ _) _ _).get? k = _
          rw [Dict.get?_set_ne _ _ (Ne.symm hk), Dict.get?_set_ne _ _ (Ne.symm hk)]
          exact hset k hk
        · simp [h3, hser.1, hser.2]
        · rw [he1, hser.2]
      · rw [if_neg ha]
        exact ⟨e0, new, evs1, evs2, [], e1, ⟨Dict.ok_set h2.ok _ _, h2.cbs, h2.clock, h2.old, h2.fresh, hset⟩,
          Dict.get?_set_self _ _ _, by simp [h3], c2, by rw [he1]; exact c3, by rw [he1]; exact c5,
          .inl ⟨rfl, he1.symm, fun _ => by simpa using ha⟩⟩

/-- The entry after a GetNodeInfo transfer. -/
def afterInfo (e : Entry) (m : InfoMsg) : Entry :=
  match m.body with
  | none => e.updateFromInfo1 m
  | some (u, uid) => { e.updateFromInfo1 m with uptime := some u, info := some uid }

/-- What the arrival of a GetNodeInfo transfer does. -/
theorem info_spec (m : InfoMsg) (s : Mon) (hok : s.registry.Ok) :
    let s' := (onInfoResponse env m s).2
    Gave env s s' m.src ∨
    ∃ e0 new evs1 evs2, Found env s s' m.src e0 new evs1 ∧ s'.registry.get? m.src = some (afterInfo e0 m) ∧
      s'.trace = s.trace ++ (evs1 ++ evs2) ∧
      (m.body = none ∨ m.nameOk = false → evs2 = []) ∧
      (∀ x ∈ evs2, ∃ cb, x = .called cb .infoUpdate (afterInfo e0 m)) ∧
      (m.body ≠ none → m.nameOk = true → NoRaise env →
        evs2 = s.callbacks.map (.called · .infoUpdate (afterInfo e0 m))) := by
  rcases entryFor_spec env m.src s hok with ⟨err, s1, h1, h2⟩ | ⟨e0, new, s1, evs1, h1, h2, h3⟩
  · left
    simp only [onInfoResponse, bind_run, h1]
    exact h2
  · right
    have hset : ∀ (e : Entry) k, k ≠ m.src → (s1.registry.set m.src e).get? k = s.registry.get? k := fun e k hk => by
      rw [Dict.get?_set_ne _ _ (Ne.symm hk)]; exact h2.others k hk
    have hset2 : ∀ (e e' : Entry) k, k ≠ m.src → ((s1.registry.set m.src e).set m.src e').get? k = s.registry.get? k :=
      fun e e' k hk => by rw [Dict.get?_set_ne _ _ (Ne.symm hk)]; exact hset e k hk
    simp only [onInfoResponse, bind_run, h1, store, modify_run]
    cases hb : m.body with
    | none =>
      simp only [raise_run, afterInfo, hb]
      exact ⟨e0, new, evs1, [], ⟨Dict.ok_set h2.ok _ _, h2.cbs, h2.clock, h2.old, h2.fresh, hset _⟩,
        Dict.get?_set_self _ _ _, by simp [h3], fun _ => rfl, by simp, fun h => absurd rfl h⟩
    | some b =>
      obtain ⟨u, uid⟩ := b
      simp only [afterInfo, hb, bind_run, modify_run]
      cases hn : m.nameOk with
      | false =>
        simp only [Bool.false_eq_true, if_false, raise_run]
        exact ⟨e0, new, evs1, [], ⟨Dict.ok_set (Dict.ok_set h2.ok _ _) _ _, h2.cbs, h2.clock, h2.old, h2.fresh,
          hset2 _ _⟩, Dict.get?_set_self _ _ _, by simp [h3], fun _ => rfl, by simp, fun _ h => by cases h⟩
      | true =>
        simp only [if_true]
        generalize he2 : ({ e0.updateFromInfo1 m with uptime := some u, info := some uid } : Entry) = e2
        obtain ⟨r, evs, i1, i2, i3⟩ := callHandlers_eq env .infoUpdate e2
          { s1 with registry := (s1.registry.set m.src (e0.updateFromInfo1 m)).set m.src e2 }
        rw [i1]
        refine ⟨e0, new, evs1, evs, ⟨Dict.ok_set (Dict.ok_set h2.ok _ _) _ _, h2.cbs, h2.clock, h2.old, h2.fresh,
          hset2 _ _⟩, he2 ▸ Dict.get?_set_self _ _ _, by simp [h3], ?_, he2 ▸ i2, fun _ _ h => ?_⟩
        · rintro (h | h) <;> cases h
        · rw [(i3 h).2, he2]
          show s1.callbacks.map _ = _
          rw [h2.cbs]

theorem del_eq_filter {κ ν : Type} [DecidableEq κ] {d : Dict κ ν} (h : d.Ok) (k : κ) :
    d.del k = d.filter fun x => decide (x.1 ≠ k) := by
  induction d with
  | nil => rfl
  | cons x d ih =>
    obtain ⟨k', v⟩ := x
    obtain ⟨h1, h2⟩ := List.nodup_cons.1 h
    simp only [Dict.del]
    split
    · rename_i hk
      subst hk
      rw [List.filter_cons_of_neg (by simp), List.filter_eq_self.2]
      intro y hy
      simp only [decide_eq_true_eq]
      intro he
      exact h1 (List.mem_map.2 ⟨y, hy, he⟩)
    · rename_i hk
      rw [List.filter_cons_of_pos (by simpa using hk), ih h2]

/-- What a sweep does: `keep` says which entries stay. -/
theorem sweep_spec (L : List (Nat × Entry)) : ∀ (pre : List (Nat × Entry)) (s : Mon), s.registry = pre ++ L →
    s.registry.Ok → ∃ (keep : Nat → Bool) (r : Except Err Unit) (evs : List MEv) (c : Clock),
    forEach L (sweepOne env) s =
      (r, { s with
        registry := pre ++ L.filter fun x => keep x.1
        clock := c
        trace := s.trace ++ evs }) ∧
    s.clock.now ≤ c.now ∧
    (∀ x ∈ L, keep x.1 = false → x.2.ts + env.offline < c.now) ∧
    (r = .ok () → ∀ x ∈ L, keep x.1 = true → s.clock.now ≤ x.2.ts + env.offline) ∧
    (∀ y ∈ evs, ∃ cb, ∃ x ∈ L, keep x.1 = false ∧ y = .called cb .offline x.2) ∧
    (NoRaise env → r = .ok () ∧
      evs = ((L.filter fun x => !keep x.1).flatMap fun x => s.callbacks.map (.called · .offline x.2))) := by
  induction L with
  | nil =>
    intro pre s h hok
    refine ⟨fun _ => true, .ok (), [], s.clock, ?_, Int.le_refl _, by simp, by simp, by simp, fun _ => ⟨rfl, rfl⟩⟩
    simp only [forEach, pure_run, List.append_nil, List.filter_nil]
    simp only [List.append_nil] at h
    rw [← h]
  | cons x L ih =>
    intro pre s h hok
    obtain ⟨nid, e⟩ := x
    have hk : Dict.keys (pre ++ (nid, e) :: L) = Dict.keys pre ++ nid :: Dict.keys L := by simp [Dict.keys]
    have hnd : (Dict.keys pre ++ nid :: Dict.keys L).Nodup := by
      rw [← hk, ← h]; exact hok
    have hnL : nid ∉ Dict.keys L := by
      rw [List.nodup_append] at hnd
      exact (List.nodup_cons.1 hnd.2.1).1
    have hnP : nid ∉ Dict.keys pre := by
      rw [List.nodup_append] at hnd
      intro hm
      exact hnd.2.2 _ hm _ List.mem_cons_self rfl
    have htick := tick_le env.adv s.clock
    simp only [forEach, bind_run, sweepOne, monotonic]
    by_cases hf : e.ts + env.offline < (s.clock.tick env.adv).now
    · -- removed
      have hc : s.registry.contains nid = true := by
        rw [Dict.contains, ← Dict.mem_keys_iff, h, hk]
        simp
      have hdel : s.registry.del nid = pre ++ L := by
        rw [del_eq_filter hok, h, List.filter_append, List.filter_cons_of_neg (by simp)]
        congr 1
        · rw [List.filter_eq_self]
          intro y hy
          simp only [decide_eq_true_eq]
          intro he
          exact hnP (List.mem_map.2 ⟨y, hy, he⟩)
        · rw [List.filter_eq_self]
          intro y hy
          simp only [decide_eq_true_eq]
          intro he
          exact hnL (List.mem_map.2 ⟨y, hy, he⟩)
      simp only [hf, if_true, bind_run, remove, hc]
      obtain ⟨r, evs, i1, i2, i3⟩ := callHandlers_eq env .offline e
        { s with clock := s.clock.tick env.adv, registry := s.registry.del nid }
      rw [i1]
      cases r with
      | error err =>
        refine ⟨fun k => k != nid, .error err, evs, s.clock.tick env.adv, ?_, htick, ?_, nofun, ?_,
          fun h => by cases (i3 h).1⟩
        · have : L.filter (fun x => x.1 != nid) = L := by
            rw [List.filter_eq_self]
            intro y hy
            simp only [bne_iff_ne]
            intro he
            exact hnL (List.mem_map.2 ⟨y, hy, he⟩)
          simp [hdel, this]
        · intro y hy hkeep
          rcases List.mem_cons.1 hy with rfl | hy
          · exact hf
          · simp only [bne_eq_false_iff_eq] at hkeep
            exact absurd (List.mem_map.2 ⟨y, hy, hkeep⟩) hnL
        · intro y hy
          obtain ⟨cb, rfl⟩ := i2 y hy
          exact ⟨cb, (nid, e), List.mem_cons_self, by simp, rfl⟩
      | ok u =>
        obtain ⟨keep, r, evs', c, j1, j2, j3, j4, j5, j6⟩ := ih pre
          { s with
            clock := s.clock.tick env.adv
            registry := s.registry.del nid
            trace := s.trace ++ evs } hdel (Dict.ok_del hok nid)
        have hsame : ∀ y ∈ L, (y.1 != nid && keep y.1) = keep y.1 := by
          intro y hy
          have : y.1 ≠ nid := fun he => hnL (List.mem_map.2 ⟨y, hy, he⟩)
          simp [this]
        refine ⟨fun k => k != nid && keep k, r, evs ++ evs', c, ?_, Int.le_trans htick j2, ?_, ?_, ?_, ?_⟩
        · dsimp only at j1 ⊢
          rw [j1]
          simp only [List.filter_cons, bne_self_eq_false, Bool.false_and, Bool.false_eq_true, if_false,
            List.append_assoc]
          rw [List.filter_congr hsame]
        · intro y hy hkeep
          rcases List.mem_cons.1 hy with rfl | hy
          · simp only at j2 ⊢; omega
          · exact j3 y hy ((hsame y hy).symm.trans hkeep)
        · intro hr y hy hkeep
          rcases List.mem_cons.1 hy with rfl | hy
          · simp at hkeep
          · have := j4 hr y hy ((hsame y hy).symm.trans hkeep)
            simp only at this
            omega
        · intro y hy
          rcases List.mem_append.1 hy with hy | hy
          · obtain ⟨cb, rfl⟩ := i2 y hy
            exact ⟨cb, (nid, e), List.mem_cons_self, by simp, rfl⟩
          · obtain ⟨cb, x, hx, hkx, rfl⟩ := j5 y hy
            exact ⟨cb, x, List.mem_cons_of_mem _ hx, (hsame x hx).trans hkx, rfl⟩
        · intro hnr
          refine ⟨(j6 hnr).1, ?_⟩
          rw [(j6 hnr).2, (i3 hnr).2]
          simp only [List.filter_cons, bne_self_eq_false, Bool.false_and, Bool.not_false, if_true, List.flatMap_cons]
          congr 2
          apply List.filter_congr
          intro y hy
          rw [hsame y hy]
    · -- kept
      simp only [hf, if_false, pure_run]
      obtain ⟨keep, r, evs', c, j1, j2, j3, j4, j5, j6⟩ := ih (pre ++ [(nid, e)])
        { s with clock := s.clock.tick env.adv } (by simp [h]) hok
      have hsame : ∀ y ∈ L, (y.1 == nid || keep y.1) = keep y.1 := by
        intro y hy
        have : y.1 ≠ nid := fun he => hnL (List.mem_map.2 ⟨y, hy, he⟩)
        simp [this]
      refine ⟨fun k => k == nid || keep k, r, evs', c, ?_, Int.le_trans htick j2, ?_, ?_, ?_, ?_⟩
      · rw [j1]
        simp only [List.filter_cons, beq_self_eq_true, Bool.true_or, if_true, List.append_assoc, List.singleton_append]
        rw [List.filter_congr hsame]
      · intro y hy hkeep
        rcases List.mem_cons.1 hy with rfl | hy
        · simp at hkeep
        · exact j3 y hy ((hsame y hy).symm.trans hkeep)
      · intro hr y hy hkeep
        rcases List.mem_cons.1 hy with rfl | hy
        · simp only; omega
        · have := j4 hr y hy ((hsame y hy).symm.trans hkeep)
          simp only at this
          omega
      · intro y hy
        obtain ⟨cb, x, hx, hkx, rfl⟩ := j5 y hy
        exact ⟨cb, x, List.mem_cons_of_mem _ hx, (hsame x hx).trans hkx, rfl⟩
      · intro hnr
        refine ⟨(j6 hnr).1, ?_⟩
        rw [(j6 hnr).2]
        simp only [List.filter_cons, beq_self_eq_true, Bool.true_or, Bool.not_true, Bool.false_eq_true, if_false]
        congr 1
        apply List.filter_congr
        intro y hy
        rw [hsame y hy]

end Monitor
end Dronecan
