import Verif.Model.IoHooks

/-!
# The I/O hooks of a driver (C106)
-/

namespace Dronecan
namespace IoHooks
open Can PyM

/-! ## Specification -/

/-- The hooks called for frame number `n`, in order. -/
def callsFor (n : Nat) (t : List Ev) : List Nat := t.filterMap fun
  | .called h k _ _ => if k = n then some h else none
  | _ => none

/-- How an event changes the list of registered hooks. -/
def upd (l : List Nat) : Ev → List Nat
  | .added h => l ++ [h]
  | .removed h => l.filter (· ≠ h)
  | _ => l

/-- The hooks registered after a history. -/
def live (t : List Ev) : List Nat := t.foldl upd []

/-- C106 in full: whatever the hooks do, the hooks registered when a frame passes, and not removed meanwhile, are called for it, each exactly
once, in the order of their registration. -/
def C106_statement : Prop :=
  ∀ (env : Env) (depth : Nat) (acts : List Act) (incoming : Bool) (f : CANFrame) (new : List Ev),
    (run env (depth + 1) {} (acts ++ [.frame incoming f])).trace = (run env (depth + 1) {} acts).trace ++ new →
    (callsFor (run env (depth + 1) {} acts).nextNum new).filter (fun h => h ∈ live (run env (depth + 1) {} acts).trace ∧ Ev.removed h ∉ new) =
      (live (run env (depth + 1) {} acts).trace).filter (fun h => Ev.removed h ∉ new)

/-! ## What every computation preserves -/

structure WF (s : State) : Prop where
  sorted : s.hooks.Pairwise (· < ·)
  below : ∀ h ∈ s.hooks, h < s.nextHook

theorem WF.nodup {s : State} (h : WF s) : s.hooks.Nodup := h.sorted.imp fun h => Nat.ne_of_lt h

theorem callsFor_append (n : Nat) (a b : List Ev) : callsFor n (a ++ b) = callsFor n a ++ callsFor n b := List.filterMap_append

theorem mem_callsFor {n h : Nat} {t : List Ev} (hm : h ∈ callsFor n t) : ∃ i f, Ev.called h n i f ∈ t := by
  obtain ⟨e, he, heq⟩ := List.mem_filterMap.1 hm
  cases e with
  | called h' k i f =>
    simp only at heq
    split at heq
    · rename_i hk
      cases heq
      exact ⟨i, f, hk ▸ he⟩
    · cases heq
  | _ => cases heq

theorem callsFor_nil {n : Nat} {t : List Ev} (h : ∀ x i f, Ev.called x n i f ∉ t) : callsFor n t = [] := by
  cases hc : callsFor n t with
  | nil => rfl
  | cons x l =>
    obtain ⟨i, f, hm⟩ := mem_callsFor (n := n) (h := x) (t := t) (by rw [hc]; simp)
    exact absurd hm (h x i f)

/-- The numbers of the frames that are passing already, with their arguments. -/
abbrev Own := Nat → Bool → CANFrame → Prop

/-- The events of a computation. -/
structure Events (own : Own) (s s' : State) (new : List Ev) : Prop where
  trace : s'.trace = s.trace ++ new
  nums : ∀ h k i f, Ev.called h k i f ∈ new → own k i f ∨ (s.nextNum ≤ k ∧ k < s'.nextNum ∧ Ev.passes k i f ∈ new)
  passes : ∀ k i f, Ev.passes k i f ∈ new → s.nextNum ≤ k ∧ k < s'.nextNum
  unique : ∀ k i f i' f', Ev.passes k i f ∈ new → Ev.passes k i' f' ∈ new → i = i' ∧ f = f'
  live : WF s → s'.hooks = new.foldl upd s.hooks
  was : WF s → ∀ a b h k i f, new = a ++ Ev.called h k i f :: b → h ∈ a.foldl upd s.hooks
  pre : ∀ pre, pre <+: s.hooks → (∀ h ∈ pre, Ev.removed h ∉ new) → pre <+: s'.hooks
  sorted : ∀ k, s.nextNum ≤ k → (callsFor k new).Pairwise (· < ·)

/-- How a computation changes the state. -/
structure Change (own : Own) (s s' : State) : Prop where
  hooks : ∃ kept new, s'.hooks = kept ++ new ∧ kept.Sublist s.hooks ∧ new.Pairwise (· < ·) ∧ ∀ h ∈ new, s.nextHook ≤ h ∧ h < s'.nextHook
  nextHook : s.nextHook ≤ s'.nextHook
  nextNum : s.nextNum ≤ s'.nextNum
  events : ∃ new, Events own s s' new

theorem Change.wf {own : Own} {s s' : State} (h : Change own s s') (hw : WF s) : WF s' := by
  obtain ⟨kept, new, h1, h2, h3, h4⟩ := h.hooks
  have hk : ∀ x ∈ kept, x < s.nextHook := fun x hx => hw.below x (h2.subset hx)
  constructor
  · rw [h1, List.pairwise_append]
    refine ⟨hw.sorted.sublist h2, h3, fun a ha b hb => ?_⟩
    have := hk a ha
    have := (h4 b hb).1
    omega
  · intro x hx
    rw [h1, List.mem_append] at hx
    rcases hx with hx | hx
    · exact Nat.lt_of_lt_of_le (hk x hx) h.nextHook
    · exact (h4 x hx).2

theorem Change.refl (own : Own) (s : State) : Change own s s where
  hooks := ⟨s.hooks, [], by simp, List.Sublist.refl _, .nil, fun _ h => (nomatch h)⟩
  nextHook := Nat.le_refl _
  nextNum := Nat.le_refl _
  events := ⟨[], by simp, fun _ _ _ _ h => (nomatch h), fun _ _ _ h => (nomatch h), fun _ _ _ _ _ h => (nomatch h), fun _ => rfl,
    fun _ a b h k i f he => (by cases a <;> cases he), fun _ h _ => h, fun _ _ => .nil⟩

theorem Events.trans {own : Own} {a b c : State} {n1 n2 : List Ev} (h1 : Change own a b) (e1 : Events own a b n1) (h2 : Change own b c)
    (e2 : Events own b c n2) (hown : ∀ k i f, own k i f → k < a.nextNum) : Events own a c (n1 ++ n2) where
  trace := by rw [e2.trace, e1.trace, List.append_assoc]
  nums h k i f hm := by
    rcases List.mem_append.1 hm with hm | hm
    · rcases e1.nums h k i f hm with h | ⟨p, q, r⟩
      · exact .inl h
      · exact .inr ⟨p, Nat.lt_of_lt_of_le q h2.nextNum, List.mem_append.2 (.inl r)⟩
    · rcases e2.nums h k i f hm with h | ⟨p, q, r⟩
      · exact .inl h
      · exact .inr ⟨Nat.le_trans h1.nextNum p, q, List.mem_append.2 (.inr r)⟩
  passes k i f hm := by
    rcases List.mem_append.1 hm with hm | hm
    · have := e1.passes k i f hm; have := h2.nextNum; omega
    · have := e2.passes k i f hm; have := h1.nextNum; omega
  unique k i f i' f' hm hm' := by
    rcases List.mem_append.1 hm with hm | hm <;> rcases List.mem_append.1 hm' with hm' | hm'
    · exact e1.unique k i f i' f' hm hm'
    · have := e1.passes k i f hm; have := e2.passes k i' f' hm'; omega
    · have := e2.passes k i f hm; have := e1.passes k i' f' hm'; omega
    · exact e2.unique k i f i' f' hm hm'
  live hw := by rw [e2.live (h1.wf hw), e1.live hw, List.foldl_append]
  was hw x y h k i f he := by
    rcases List.append_eq_append_iff.1 he with ⟨as, hx, hy⟩ | ⟨bs, hx, hy⟩
    · rw [hx, List.foldl_append, ← e1.live hw]
      exact e2.was (h1.wf hw) as y h k i f hy
    · cases bs with
      | nil =>
        rw [List.append_nil] at hx
        rw [← hx, ← e1.live hw]
        exact e2.was (h1.wf hw) [] y h k i f (by simpa using hy.symm)
      | cons z bs =>
        cases hy
        exact e1.was hw x bs h k i f hx
  pre pre hp hr := e2.pre pre (e1.pre pre hp fun h hh hm => hr h hh (List.mem_append.2 (.inl hm)))
    fun h hh hm => hr h hh (List.mem_append.2 (.inr hm))
  sorted k hk := by
    rw [callsFor_append]
    by_cases hb : k < b.nextNum
    · have : callsFor k n2 = [] := callsFor_nil fun x i f hm => by
        rcases e2.nums x k i f hm with h | h
        · have := hown k i f h; omega
        · omega
      rw [this, List.append_nil]
      exact e1.sorted k hk
    · have : callsFor k n1 = [] := callsFor_nil fun x i f hm => by
        rcases e1.nums x k i f hm with h | h
        · have := hown k i f h; omega
        · omega
      rw [this, List.nil_append]
      exact e2.sorted k (by omega)

theorem Change.trans {own : Own} {a b c : State} (h1 : Change own a b) (h2 : Change own b c) (hown : ∀ k i f, own k i f → k < a.nextNum) :
    Change own a c where
  hooks := by
    obtain ⟨k1, n1, p1, p2, p3, p4⟩ := h1.hooks
    obtain ⟨k2, n2, q1, q2, q3, q4⟩ := h2.hooks
    rw [p1, List.sublist_append_iff] at q2
    obtain ⟨l1, l2, r1, r2, r3⟩ := q2
    refine ⟨l1, l2 ++ n2, by rw [q1, r1, List.append_assoc], r2.trans p2, ?_, ?_⟩
    · rw [List.pairwise_append]
      refine ⟨p3.sublist r3, q3, fun x hx y hy => ?_⟩
      have := (p4 x (r3.subset hx)).2
      have := (q4 y hy).1
      omega
    · intro x hx
      rcases List.mem_append.1 hx with hx | hx
      · have := p4 x (r3.subset hx); have := h2.nextHook; omega
      · have := q4 x hx; have := h1.nextHook; omega
  nextHook := Nat.le_trans h1.nextHook h2.nextHook
  nextNum := Nat.le_trans h1.nextNum h2.nextNum
  events := by
    obtain ⟨n1, e1⟩ := h1.events
    obtain ⟨n2, e2⟩ := h2.events
    exact ⟨n1 ++ n2, .trans h1 e1 h2 e2 hown⟩

abbrev noOwn : Own := fun _ _ _ => False

theorem Events.mono {own : Own} {s s' : State} {new : List Ev} (h : Events noOwn s s' new) : Events own s s' new :=
  { h with nums := fun x k i f hm => (h.nums x k i f hm).imp (fun h => h.elim) id }

theorem Change.mono {own : Own} {s s' : State} (h : Change noOwn s s') : Change own s s' :=
  { h with events := h.events.imp fun _ e => e.mono }

theorem add_change (s : State) : Change noOwn s (add s).2 where
  hooks := ⟨s.hooks, [s.nextHook], rfl, List.Sublist.refl _, List.pairwise_singleton _ _, fun h hh => by
    rw [List.mem_singleton] at hh
    subst hh
    exact ⟨Nat.le_refl _, Nat.lt_succ_self _⟩⟩
  nextHook := Nat.le_succ _
  nextNum := Nat.le_refl _
  events := by
    refine ⟨[.added s.nextHook], rfl, ?_, ?_, ?_, fun _ => rfl, ?_, ?_, fun _ _ => .nil⟩
    · intro h k i f hm; simp at hm
    · intro k i f hm; simp at hm
    · intro k i f i' f' hm; simp at hm
    · intro _ a b h k i f he
      have : Ev.called h k i f ∈ [Ev.added s.nextHook] := by rw [he]; simp
      simp at this
    · intro pre hp _
      exact hp.trans (List.prefix_append _ _)

theorem remove_change (hook : Nat) (s : State) : Change noOwn s (remove hook s).2 := by
  unfold remove
  split
  · refine ⟨⟨s.hooks.erase hook, [], by simp, List.erase_sublist, .nil, fun _ h => (nomatch h)⟩, Nat.le_refl _, Nat.le_refl _,
      [.removed hook], rfl, ?_, ?_, ?_, ?_, ?_, ?_, fun _ _ => .nil⟩
    · intro h k i f hm; simp at hm
    · intro k i f hm; simp at hm
    · intro k i f i' f' hm; simp at hm
    · intro hw
      show s.hooks.erase hook = s.hooks.filter (· ≠ hook)
      rw [hw.nodup.erase_eq_filter]
      congr 1
      funext x
      by_cases hx : x = hook <;> simp [hx]
    · intro _ a b h k i f he
      have : Ev.called h k i f ∈ [Ev.removed hook] := by rw [he]; simp
      simp at this
    · intro pre ⟨t, ht⟩ hr
      have hn : hook ∉ pre := fun h => hr hook h (by simp)
      show pre <+: s.hooks.erase hook
      rw [← ht, List.erase_append_right _ hn]
      exact List.prefix_append _ _
  · exact .refl _ _

/-- A function for frames that pass inside hooks. -/
def Good (frame : Bool → CANFrame → PyM State Unit) : Prop := ∀ i f s, WF s → Change noOwn s (frame i f s).2

theorem runAct_change {frame} (hf : Good frame) (a : Act) (s : State) (hw : WF s) : Change noOwn s (runAct frame a s).2 := by
  cases a with
  | add => exact add_change s
  | remove h => exact remove_change h s
  | frame i f => exact hf i f s hw
  | raise e => exact .refl _ _

theorem tryCatch_change {own : Own} {m : PyM State Unit} {s : State} (h : Change own s (m s).2) :
    Change own s (PyM.tryCatch m (fun _ => PyM.pure ()) s).2 := by
  unfold PyM.tryCatch
  cases hm : m s with
  | mk r s' =>
    rw [hm] at h
    cases r <;> exact h

theorem bind_change {own : Own} {m : PyM State Unit} {k : Unit → PyM State Unit} {s : State} (h : Change own s (m s).2)
    (hk : ∀ s', Change own s s' → Change own s' (k () s').2) (hown : ∀ k i f, own k i f → k < s.nextNum) : Change own s ((m >>- k) s).2 := by
  rw [bind_run]
  cases hm : m s with
  | mk r s' =>
    rw [hm] at h
    cases r with
    | ok a => exact h.trans (hk s' h) hown
    | error e => exact h

theorem runActs_change {frame} (hf : Good frame) (l : List (Act × Bool)) (s : State) (hw : WF s) : Change noOwn s (runActs frame l s).2 := by
  induction l generalizing s with
  | nil => exact .refl _ _
  | cons x l ih =>
    obtain ⟨a, g⟩ := x
    simp only [runActs]
    refine bind_change ?_ (fun s' hc => ih s' (hc.wf hw)) (fun _ _ _ h => h.elim)
    split
    · exact tryCatch_change (runAct_change hf a s hw)
    · exact runAct_change hf a s hw

/-- What a hook does after the event that it is called. -/
theorem callHook_change (env : Env) {frame} (hf : Good frame) (n : Nat) (incoming : Bool) (f : CANFrame) (hook : Nat) (s : State)
    (hw : WF s) : Change noOwn { s with trace := s.trace ++ [.called hook n incoming f] } (callHook env frame n incoming f hook s).2 := by
  simp only [callHook, bind_run, modify_run, get_run]
  exact runActs_change hf _ _ ⟨hw.sorted, hw.below⟩

/-! ## The loop -/

/-- The frame that is passing. -/
abbrev own (n : Nat) (incoming : Bool) (f : CANFrame) : Own := fun k i g => k = n ∧ i = incoming ∧ g = f

/-- The event that a hook is called. -/
theorem called_change (s : State) (n : Nat) (incoming : Bool) (f : CANFrame) (hook : Nat) (hh : hook ∈ s.hooks) (hn : n < s.nextNum) :
    Change (own n incoming f) s { s with trace := s.trace ++ [.called hook n incoming f] } where
  hooks := ⟨s.hooks, [], by simp, List.Sublist.refl _, .nil, fun _ h => (nomatch h)⟩
  nextHook := Nat.le_refl _
  nextNum := Nat.le_refl _
  events := by
    refine ⟨[.called hook n incoming f], rfl, ?_, ?_, ?_, fun _ => rfl, ?_, fun _ h _ => h, ?_⟩
    · intro h k i g hm
      simp only [List.mem_singleton, Ev.called.injEq] at hm
      exact .inl ⟨hm.2.1, hm.2.2.1, hm.2.2.2⟩
    · intro k i f hm; simp at hm
    · intro k i f i' f' hm; simp at hm
    · intro _ a b h k i g he
      cases a with
      | nil => cases he; exact hh
      | cons y a => cases a <;> cases he
    · intro k hk
      have : ¬ n = k := by omega
      simp [callsFor, this]

theorem tryPure_run (m : PyM State Unit) (s : State) : PyM.tryCatch m (fun _ => PyM.pure ()) s = (.ok (), (m s).2) := by
  unfold PyM.tryCatch
  cases m s with
  | mk r s' => cases r <;> rfl

/-- What the loop does from index `i` on. -/
structure LoopSpec (n : Nat) (incoming : Bool) (f : CANFrame) (fuel i : Nat) (s r : State) (new : List Ev) : Prop where
  change : Change (own n incoming f) s r
  events : Events (own n incoming f) s r new
  sorted : (callsFor n new).Pairwise (· < ·)
  from_ : ∀ h ∈ callsFor n new, h ∈ s.hooks.drop i ∨ s.nextHook ≤ h
  complete : ∀ pre, pre <+: s.hooks → (∀ h ∈ pre, Ev.removed h ∉ new) → pre.length ≤ i + fuel → pre.drop i <+: callsFor n new

theorem loop_spec (env : Env) {frame} (hf : Good frame) (n : Nat) (incoming : Bool) (f : CANFrame) (fuel i : Nat) (s : State) (hw : WF s)
    (hn : n < s.nextNum) :
    ∃ new, LoopSpec n incoming f fuel i s (loop (callHook env frame n incoming f) fuel i s).2 new := by
  induction fuel generalizing i s with
  | zero =>
    obtain ⟨new, hnew⟩ := (Change.refl (own n incoming f) s).events
    have : new = [] := by simpa using hnew.trace
    subst this
    refine ⟨[], .refl _ _, hnew, .nil, fun _ h => (nomatch h), fun pre _ _ hl => ?_⟩
    rw [List.drop_eq_nil_of_le (by omega)]
    exact List.nil_prefix
  | succ fuel ih =>
    simp only [loop, bind_run, get_run]
    cases hi : s.hooks[i]? with
    | none =>
      obtain ⟨new, hnew⟩ := (Change.refl (own n incoming f) s).events
      have : new = [] := by simpa using hnew.trace
      subst this
      refine ⟨[], .refl _ _, hnew, .nil, fun _ h => (nomatch h), fun pre hp _ _ => ?_⟩
      have h1 := hp.length_le
      have h2 := List.getElem?_eq_none_iff.1 hi
      rw [List.drop_eq_nil_of_le (by omega)]
      exact List.nil_prefix
    | some h =>
      obtain ⟨hlt, hget⟩ := List.getElem?_eq_some_iff.1 hi
      have hmem : h ∈ s.hooks := hget ▸ List.getElem_mem hlt
      simp only [bind_run, tryPure_run]
      have c1 := called_change s n incoming f h hmem hn
      have c2 := (callHook_change env hf n incoming f h s hw).mono (own := own n incoming f)
      obtain ⟨n2, e2⟩ := (callHook_change env hf n incoming f h s hw).events
      have hown : ∀ k i g, own n incoming f k i g → k < s.nextNum := fun k _ _ hk => hk.1 ▸ hn
      obtain ⟨n1, e1⟩ := c1.events
      have hn1 : n1 = [.called h n incoming f] := by simpa using e1.trace.symm
      subst hn1
      have c12 := c1.trans c2 hown
      have e12 := Events.trans c1 e1 c2 (e2.mono (own := own n incoming f)) hown
      generalize hs2 : (callHook env frame n incoming f h s).2 = s2 at *
      obtain ⟨n3, l3⟩ := ih (i + 1) s2 (c12.wf hw) (Nat.lt_of_lt_of_le hn c12.nextNum)
      have hz : callsFor n n2 = [] := callsFor_nil fun x j g hm => by
        rcases e2.nums x n j g hm with h | h
        · exact h
        · exact absurd h.1 (Nat.not_le.2 hn)
      have hcalls : callsFor n ([Ev.called h n incoming f] ++ n2 ++ n3) = h :: callsFor n n3 := by
        rw [callsFor_append, callsFor_append, hz]
        simp [callsFor]
      have hdrop : s.hooks.drop i = h :: s.hooks.drop (i + 1) := by rw [List.drop_eq_getElem_cons hlt, hget]
      have hs := hw.sorted.drop (i := i)
      rw [hdrop, List.pairwise_cons] at hs
      have hlater : ∀ x ∈ callsFor n n3, x ∈ s.hooks.drop (i + 1) ∨ s.nextHook ≤ x := by
        intro x hx
        rcases l3.from_ x hx with hx | hx
        · obtain ⟨kept, newh, k1, k2, k3, k4⟩ := c12.hooks
          rw [k1, List.drop_append] at hx
          rcases List.mem_append.1 hx with hx | hx
          · exact .inl ((k2.drop (i + 1)).subset hx)
          · exact .inr (k4 x (List.mem_of_mem_drop hx)).1
        · exact .inr (Nat.le_trans c12.nextHook hx)
      refine ⟨[.called h n incoming f] ++ n2 ++ n3, c12.trans l3.change hown, .trans c12 e12 l3.change l3.events hown, ?_, ?_, ?_⟩
      · rw [hcalls, List.pairwise_cons]
        refine ⟨fun x hx => ?_, l3.sorted⟩
        rcases hlater x hx with hx | hx
        · exact hs.1 x hx
        · exact Nat.lt_of_lt_of_le (hw.below h hmem) hx
      · rw [hcalls, hdrop]
        intro x hx
        rcases List.mem_cons.1 hx with rfl | hx
        · exact .inl (by simp)
        · rcases hlater x hx with hx | hx
          · exact .inl (by simp [hx])
          · exact .inr hx
      · intro pre hp hr hl
        rw [hcalls]
        by_cases hip : i < pre.length
        · have hph : pre[i] = h := by
            obtain ⟨t, ht⟩ := hp
            rw [← hget]
            simp only [← ht]
            rw [List.getElem_append_left]
          rw [List.drop_eq_getElem_cons hip, hph, List.cons_prefix_cons]
          refine ⟨rfl, l3.complete pre ?_ (fun x hx hm => hr x hx (by simp [hm])) (by omega)⟩
          exact e12.pre pre hp fun x hx hm => hr x hx (List.mem_append.2 (.inl hm))
        · rw [List.drop_eq_nil_of_le (by omega)]
          exact List.nil_prefix

/-! ## A frame passes -/

/-- What happens when a frame passes. -/
structure PassSpec (incoming : Bool) (f : CANFrame) (s r : State) (new : List Ev) : Prop where
  change : Change noOwn s r
  events : Events noOwn s r new
  complete : ∀ pre, pre <+: s.hooks → (∀ h ∈ pre, Ev.removed h ∉ new) → pre <+: callsFor s.nextNum new
  head : new.head? = some (.passes s.nextNum incoming f)

theorem pass_spec (env : Env) (depth : Nat) (hf : Good (pass env depth)) (incoming : Bool) (f : CANFrame) (s : State) (hw : WF s) :
    ∃ new, PassSpec incoming f s (pass env (depth + 1) incoming f s).2 new := by
  simp only [pass, bind_run, get_run, modify_run]
  obtain ⟨new, l⟩ := loop_spec env hf s.nextNum incoming f (s.hooks.length + env.lim + 1) 0
    { s with
      nextNum := s.nextNum + 1
      trace := s.trace ++ [.passes s.nextNum incoming f] } ⟨hw.sorted, hw.below⟩ (Nat.lt_succ_self _)
  have hnum : s.nextNum < (loop (callHook env (pass env depth) s.nextNum incoming f) (s.hooks.length + env.lim + 1) 0
    { s with
      nextNum := s.nextNum + 1
      trace := s.trace ++ [.passes s.nextNum incoming f] }).2.nextNum := Nat.lt_of_lt_of_le (Nat.lt_succ_self _) l.change.nextNum
  have hw' : WF { s with
      nextNum := s.nextNum + 1
      trace := s.trace ++ [.passes s.nextNum incoming f] } := ⟨hw.sorted, hw.below⟩
  generalize (loop (callHook env (pass env depth) s.nextNum incoming f) (s.hooks.length + env.lim + 1) 0
    { s with
      nextNum := s.nextNum + 1
      trace := s.trace ++ [.passes s.nextNum incoming f] }).2 = r at *
  have hev : Events noOwn s r (.passes s.nextNum incoming f :: new) := by
    refine ⟨by rw [l.events.trace]; simp, ?_, ?_, ?_, ?_, ?_, ?_, ?_⟩
    · intro h k i g hm
      rcases List.mem_cons.1 hm with hm | hm
      · cases hm
      · right
        rcases l.events.nums h k i g hm with ⟨rfl, rfl, rfl⟩ | ⟨p, q, t⟩
        · exact ⟨Nat.le_refl _, hnum, by simp⟩
        · exact ⟨Nat.le_of_succ_le p, q, by simp [t]⟩
    · intro k i g hm
      rcases List.mem_cons.1 hm with hm | hm
      · cases hm; exact ⟨Nat.le_refl _, hnum⟩
      · have := l.events.passes k i g hm
        simp only at this
        omega
    · intro k i g i' g' hm hm'
      rcases List.mem_cons.1 hm with hm | hm <;> rcases List.mem_cons.1 hm' with hm' | hm'
      · cases hm; cases hm'; exact ⟨rfl, rfl⟩
      · cases hm
        have := (l.events.passes _ _ _ hm').1
        simp only at this
        omega
      · cases hm'
        have := (l.events.passes _ _ _ hm).1
        simp only at this
        omega
      · exact l.events.unique k i g i' g' hm hm'
    · intro _
      rw [l.events.live hw']
      rfl
    · intro _ a b h k i g he
      cases a with
      | nil => cases he
      | cons x a =>
        cases he
        exact l.events.was hw' a b h k i g rfl
    · intro pre hp hr
      exact l.events.pre pre hp fun h hh hm => hr h hh (by simp [hm])
    · intro k hk
      show (callsFor k new).Pairwise (· < ·)
      by_cases h : k = s.nextNum
      · subst h; exact l.sorted
      · exact l.events.sorted k (by simp only; omega)
  refine ⟨.passes s.nextNum incoming f :: new, ⟨l.change.hooks, l.change.nextHook, Nat.le_of_lt hnum, _, hev⟩, hev, ?_, rfl⟩
  intro pre hp hr
  have := l.complete pre hp (fun h hh hm => hr h hh (by simp [hm])) (by have := hp.length_le; omega)
  rw [List.drop_zero] at this
  exact this

theorem pass_good (env : Env) (depth : Nat) : Good (pass env depth) := by
  induction depth with
  | zero => exact fun _ _ s _ => .refl _ s
  | succ depth ih => exact fun i f s hw => let ⟨_, h⟩ := pass_spec env depth ih i f s hw; h.change

theorem run_change (env : Env) (depth : Nat) (s : State) (hw : WF s) (acts : List Act) : Change noOwn s (run env depth s acts) := by
  induction acts generalizing s with
  | nil => exact .refl _ _
  | cons a acts ih =>
    have h := runAct_change (pass_good env depth) a s hw
    exact h.trans (ih _ (h.wf hw)) fun _ _ _ h => h.elim

theorem wf_init : WF {} := ⟨.nil, fun _ h => (nomatch h)⟩

/-- The hooks are those of the history. -/
theorem hooks_live (env : Env) (depth : Nat) (acts : List Act) : (run env depth {} acts).hooks = live (run env depth {} acts).trace := by
  obtain ⟨new, h⟩ := (run_change env depth {} wf_init acts).events
  rw [h.live wf_init, h.trace]
  rfl

/-! ## C106 -/

/-- No hook is called twice for a frame, and they are called in the order of their registration, whatever they do. -/
theorem C106_once (env : Env) (depth : Nat) (acts : List Act) (n : Nat) : (callsFor n (run env depth {} acts).trace).Pairwise (· < ·) := by
  obtain ⟨new, h⟩ := (run_change env depth {} wf_init acts).events
  have := h.sorted n (Nat.zero_le _)
  rw [h.trace]
  exact this

/-- A hook is called with the direction and the frame that pass, and only while it is registered. -/
theorem C106_truthful (env : Env) (depth : Nat) (acts : List Act) (a b : List Ev) (h n : Nat) (i : Bool) (f : CANFrame)
    (he : (run env depth {} acts).trace = a ++ .called h n i f :: b) :
    h ∈ live a ∧ Ev.passes n i f ∈ (run env depth {} acts).trace ∧
    ∀ i' f', Ev.passes n i' f' ∈ (run env depth {} acts).trace → i' = i ∧ f' = f := by
  obtain ⟨new, hn⟩ := (run_change env depth {} wf_init acts).events
  have ht : (run env depth {} acts).trace = new := by rw [hn.trace]; rfl
  rw [ht] at he ⊢
  have hp : Ev.passes n i f ∈ new := by
    rcases hn.nums h n i f (by rw [he]; simp) with h | h
    · exact h.elim
    · exact h.2.2
  exact ⟨hn.was wf_init a b h n i f he, hp, fun i' f' hp' => hn.unique n i' f' i f hp' hp⟩

/-- The events of a frame that passes after a history. -/
theorem frame_spec (env : Env) (depth : Nat) (acts : List Act) (incoming : Bool) (f : CANFrame) (new : List Ev)
    (h : (run env (depth + 1) {} (acts ++ [.frame incoming f])).trace = (run env (depth + 1) {} acts).trace ++ new) :
    PassSpec incoming f (run env (depth + 1) {} acts) (run env (depth + 1) {} (acts ++ [.frame incoming f])) new := by
  have hr : run env (depth + 1) {} (acts ++ [.frame incoming f]) = (pass env (depth + 1) incoming f (run env (depth + 1) {} acts)).2 := by
    rw [run, List.foldl_append]; rfl
  obtain ⟨new', hs⟩ := pass_spec env depth (pass_good env depth) incoming f (run env (depth + 1) {} acts)
    ((run_change env (depth + 1) {} wf_init acts).wf wf_init)
  rw [hr] at h ⊢
  have : new' = new := by
    have := hs.events.trace
    rw [h] at this
    exact (List.append_cancel_left this).symm
  rw [← this]
  exact hs

/-- If neither a hook nor one registered before it is removed while a frame passes, it is called for the frame, after those before it. -/
theorem C106_called (env : Env) (depth : Nat) (acts : List Act) (incoming : Bool) (f : CANFrame) (new : List Ev)
    (h : (run env (depth + 1) {} (acts ++ [.frame incoming f])).trace = (run env (depth + 1) {} acts).trace ++ new) (pre : List Nat)
    (hp : pre <+: live (run env (depth + 1) {} acts).trace) (hr : ∀ x ∈ pre, Ev.removed x ∉ new) :
    pre <+: callsFor (run env (depth + 1) {} acts).nextNum new :=
  (frame_spec env depth acts incoming f new h).complete pre (by rw [hooks_live]; exact hp) hr

/-- C106 if no hook is removed while the frame passes. (Missing: a hook that removes itself or one registered before, `C106_counterexample`.) -/
theorem C106_partial (env : Env) (depth : Nat) (acts : List Act) (incoming : Bool) (f : CANFrame) (new : List Ev)
    (h : (run env (depth + 1) {} (acts ++ [.frame incoming f])).trace = (run env (depth + 1) {} acts).trace ++ new)
    (hr : ∀ x, Ev.removed x ∉ new) :
    (callsFor (run env (depth + 1) {} acts).nextNum new).filter (fun h => h ∈ live (run env (depth + 1) {} acts).trace ∧ Ev.removed h ∉ new) =
      (live (run env (depth + 1) {} acts).trace).filter (fun h => Ev.removed h ∉ new) := by
  obtain ⟨more, hm⟩ := C106_called env depth acts incoming f new h _ (List.prefix_refl _) fun x _ => hr x
  have hs := (frame_spec env depth acts incoming f new h).events.sorted _ (Nat.le_refl _)
  rw [← hm, List.pairwise_append] at hs
  rw [← hm, List.filter_append]
  have h2 : more.filter (fun h => h ∈ live (run env (depth + 1) {} acts).trace ∧ Ev.removed h ∉ new) = [] := by
    rw [List.filter_eq_nil_iff]
    intro x hx
    rw [decide_eq_true_eq]
    intro hx'
    exact Nat.lt_irrefl _ (hs.2.2 x hx'.1 x hx)
  rw [h2, List.append_nil]
  apply List.filter_congr
  intro x hx
  simp [hx]

/-- `remove` of a hook removes this hook and no other; the second time it raises `ValueError` and changes nothing. -/
theorem C106_remove (env : Env) (depth : Nat) (acts : List Act) (h : Nat) :
    (h ∈ live (run env depth {} acts).trace → (remove h (run env depth {} acts)).1 = .ok () ∧
      (remove h (run env depth {} acts)).2.hooks = (live (run env depth {} acts).trace).filter (· ≠ h)) ∧
    (h ∉ live (run env depth {} acts).trace → remove h (run env depth {} acts) = (.error .valueError, run env depth {} acts)) := by
  have hw := (run_change env depth {} wf_init acts).wf wf_init
  rw [← hooks_live]
  constructor
  · intro hm
    simp only [remove, if_pos hm, true_and]
    rw [hw.nodup.erase_eq_filter]
    congr 1
    funext x
    by_cases hx : x = h <;> simp [hx]
  · intro hm
    simp only [remove, if_neg hm]

def f1 : CANFrame := ⟨0x123, [1, 2], true, false⟩

/-- Hook 0 removes itself when it is called. -/
def env1 : Env where
  script _ h _ := if h = 0 then [(.remove 0, false)] else []

/-- A hook that removes itself: the next one is not called. -/
theorem C106_counterexample : ¬ C106_statement := by
  intro h
  have := h env1 0 [.add, .add] true f1 [.passes 0 true f1, .called 0 0 true f1, .removed 0] (by decide +kernel)
  revert this
  decide +kernel

/-- Hook 0 raises, hook 1 sends a frame, hook 2 adds a hook, for the first frame only. -/
def env2 : Env where
  script _ h n := if n ≠ 0 then [] else if h = 0 then [(.raise .valueError, false), (.add, false)] else if h = 1 then [(.frame false f1, false)]
    else if h = 2 then [(.add, true)] else []

example : (run env2 5 {} [.add, .add, .add, .frame true f1]).trace =
    [.added 0, .added 1, .added 2, .passes 0 true f1, .called 0 0 true f1, .called 1 0 true f1, .passes 1 false f1, .called 0 1 false f1,
      .called 1 1 false f1, .called 2 1 false f1, .called 2 0 true f1, .added 3, .called 3 0 true f1] := by decide +kernel

end IoHooks
end Dronecan
