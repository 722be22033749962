import Verif.Proofs.Timers

/-!
# Timers (C33, C34, C35)

`Node` inherits `Scheduler`; a history is any sequence of API calls, polls, received frames and spins, in which every
callback may in turn make any API calls (arm and cancel timers, send, raise, ...). `env` chooses what callbacks
do. All statements are about the history `trace` that such a program produces.
-/

namespace Dronecan
open Timers Node

variable (env : Env) (ops : List Op) (nid : Option Nat) (t : Int) (iv : Option Int) (ce fd : Bool) (it : Nat × Bool)

/-- The history of a program, starting from a new node. -/
abbrev history : List Ev := (run env ops (init nid t iv ce fd it)).trace

theorem history_ok : HistAll EntryOk (history env ops nid t iv ce fd it) :=
  (run_pres (QInv.top env) ops _ (QInv.init nid t iv ce fd it)).1.hist

/-! An example program: two one-shot timers and a periodic one; the callback of timer 2 cancels itself at its second
run, and the callback of timer 0 arms another timer. -/

/-- The example environment. -/
def timerEnv : Env where
  db _ _ := none
  script s c := match c with
    | .timer 0 => { acts := [(.defer 5, false)] }
    | .timer 2 => if runs s.trace 2 = 2 then { acts := [(.cancel 2, false)] } else {}
    | _ => {}
  statusPayload _ := { dt := { dtid := 341, baseCrc := 0, msg := .comp false [] }, val := .comp none [] }
  infoPayload _ := { dt := { dtid := 1, baseCrc := 0, msg := .comp false [] }, val := .comp none [] }
  lim := 3

/-- The example program. -/
def timerOps : List Op :=
  [.api (.defer 10), .api (.defer 10), .api (.periodic 10), .poll [10, 1, 1, 1, 1], .api (.cancel 1), .poll [7, 0, 0, 0],
    .api (.cancel 2), .poll [1000, 0, 0]]

/-- Which timers run, with their deadlines and the time of the run. -/
def runLog (tr : List Ev) : List (Nat × Int × Int) := tr.filterMap fun
  | .fired e now _ => e.action.timer?.map fun i => (i, e.time, now)
  | _ => none

example : runLog (history timerEnv timerOps none 0 none true false (1, true)) =
    [(2, 10, 10), (0, 10, 11), (1, 10, 12), (3, 16, 20), (2, 20, 20)] := by
  decide +kernel

/-! ## C33 -/

/-- **C33**: an event runs only when the clock has reached its deadline, and the deadline of a timer is the one that was
asked for. -/
theorem C33_never_early (pre post : List Ev) (e : TEvent Action) (now : Int) (q : List (TEvent Action))
    (h : history env ops nid t iv ce fd it = pre ++ .fired e now q :: post) :
    e.time ≤ now ∧ ∀ i, e.action.timer? = some i → e.time = deadline pre i ∧ deadline pre i ≤ now := by
  have := history_ok env ops nid t iv ce fd it pre _ post h
  refine ⟨this.1, fun i hi => ?_⟩
  have h2 := (this.2.2.2.2 i hi).2.1
  exact ⟨h2, h2 ▸ this.1⟩

/-- **C33**: the event that runs is the first of all queued ones by (deadline, priority, sequence number); among the timers
that are pending according to the history, it is the first by (deadline, periodic before one-shot, registration). -/
theorem C33_order (pre post : List Ev) (e : TEvent Action) (now : Int) (q : List (TEvent Action))
    (h : history env ops nid t iv ce fd it = pre ++ .fired e now q :: post) :
    e ∈ q ∧
    (∀ e' ∈ q, e' ≠ e → e.time < e'.time ∨
      e.time = e'.time ∧ (e.prio < e'.prio ∨ e.prio = e'.prio ∧ e.seq < e'.seq)) ∧
    (∀ j, pending pre j = true → ∃ e' ∈ q, e'.action.timer? = some j) ∧
    ∀ i, e.action.timer? = some i →
      pending pre i = true ∧ ∀ j, pending pre j = true → j ≠ i → servedBefore pre i j := by
  have := history_ok env ops nid t iv ce fd it pre _ post h
  refine ⟨this.2.1, fun e' he' hne => ?_, fun j hj => (this.2.2.2.1 j).1 hj, fun i hi => ?_⟩
  · have hb := this.2.2.1 e' he' hne
    simpa only [TEvent.before, Bool.or_eq_true, Bool.and_eq_true, decide_eq_true_eq] using hb
  · have h2 := this.2.2.2.2 i hi
    exact ⟨h2.1, h2.2.2⟩

/-- A poll that completes leaves no due event. -/
theorem poll_done : ∀ (ds : List Nat) (s s' : Node) (d : Int), QInv s → poll env ds s = (.ok (some d), s') →
    QInv s' ∧ ∀ e ∈ s'.sched.queue, s'.now < e.time := by
  intro ds
  induction ds with
  | nil => intro s s' d _ h; simp [poll] at h
  | cons x ds ih =>
    intro s s' d hs h
    have h1 : QInv (tick x s).2 := (QInv.user env 0).tick x s hs
    obtain ⟨s1, hx⟩ : ∃ s1, tick x s = (.ok (), s1) := ⟨_, rfl⟩
    simp only [poll, PyM.bind_run, PyM.get_run, hx] at h
    rw [hx] at h1
    simp only at h1
    cases hq : s1.sched.queue with
    | nil => simp [hq] at h
    | cons e q =>
      simp only [hq] at h
      cases htd : takeDue s1 with
      | none =>
        simp only [htd, PyM.pure_run, Prod.mk.injEq] at h
        obtain ⟨-, rfl⟩ := h
        refine ⟨h1, ?_⟩
        have hgt : s1.now < e.time := by
          unfold takeDue at htd
          rw [hq] at htd
          simp only at htd
          split at htd
          · omega
          · cases htd
        have hso := h1.ok.sorted
        rw [hq] at hso
        intro e' he'
        rw [hq] at he'
        rcases List.mem_cons.1 he' with rfl | he'
        · exact hgt
        · have := (List.pairwise_cons.1 hso).1 e' he'
          simp only [TEvent.before, Bool.or_eq_true, Bool.and_eq_true, decide_eq_true_eq] at this
          omega
      | some es =>
        obtain ⟨e', s2⟩ := es
        have h2 := runAction_pres (QInv.top env).toPollClosed e'.action s2 (Nat.zero_le _) (h1.fire htd)
        simp only [htd, PyM.bind_run, PyM.put_run] at h
        cases hr : runAction env e'.action s2 with
        | mk r s3 =>
          rw [hr] at h h2
          cases r with
          | error e => simp at h
          | ok _ => exact ih s3 s' d h2.1 h

/-- **C33**: after a poll completed, with `now` its last clock reading, no timer that is pending according to the history is
due, and no other event (status publisher, request timeout) is due either. -/
theorem C33_poll_complete (clock : List Nat) (s' : Node) (next : Int)
    (h : poll env clock (run env ops (init nid t iv ce fd it)) = (.ok (some next), s')) :
    (∀ e ∈ s'.sched.queue, s'.now < e.time) ∧ ∀ i, pending s'.trace i = true → s'.now < deadline s'.trace i := by
  have h0 := (run_pres (QInv.top env) ops _ (QInv.init nid t iv ce fd it)).1
  obtain ⟨h1, h2⟩ := poll_done env clock _ s' next h0 h
  refine ⟨h2, fun i hi => ?_⟩
  obtain ⟨e, he, het⟩ := (h1.pend i).1 hi
  rw [← (h1.ev e he i het).1]
  exact h2 e he

example : (poll timerEnv [7, 0, 0, 0] (run timerEnv (timerOps.take 5) (init none 0 none true false (1, true)))).1 =
    .ok (some 1000000) := by decide +kernel

/-! ## Runs and callback invocations -/

/-- Is this an invocation of the callback of timer `i`? -/
def isTimerCall (i : Nat) : Ev → Bool
  | .called (.timer j) => j == i
  | _ => false

/-- Callbacks of timers are called exactly when their events run. -/
structure CInv (s : Node) : Prop where
  count : ∀ i, s.trace.countP (isTimerCall i) = runs s.trace i
  hist : HistAll (fun pre x => ∀ i, x = .called (.timer i) →
    ∃ pre' e now q, pre = pre' ++ [.fired e now q] ∧ e.action.timer? = some i) s.trace

/-- Entries that are neither timer runs nor timer callbacks. -/
def notTimer : Ev → Bool
  | .fired .. | .called (.timer _) => false
  | _ => true

theorem CInv.frame {s s' : Node} (h : CInv s) (evs : List Ev) (ht : s'.trace = s.trace ++ evs)
    (hq : ∀ x ∈ evs, notTimer x = true) : CInv s' := by
  have h1 : ∀ i, evs.countP (isTimerCall i) = 0 ∧ evs.countP (isRun i) = 0 := by
    intro i
    constructor
    · rw [List.countP_eq_zero]
      intro x hx
      have := hq x hx
      cases x with
      | called c => cases c <;> simp [notTimer, isTimerCall] at *
      | _ => simp [isTimerCall]
    · rw [List.countP_eq_zero]
      intro x hx
      have := hq x hx
      cases x <;> simp [notTimer, isRun] at *
  constructor
  · intro i
    have h2 := h.count i
    rw [ht]
    simp only [runs, List.countP_append, h1 i, Nat.add_zero] at h2 ⊢
    exact h2
  · rw [ht]
    refine h.hist.append evs fun pre x hx i hxi => ?_
    subst hxi
    have := hq _ hx
    simp [notTimer] at this

theorem CInv.fire {s s' : Node} {e : TEvent Action} (h : CInv s) (ht : takeDue s = some (e, s')) :
    CInv { s' with trace := s'.trace ++ callOf e.action } := by
  obtain ⟨q, hq, hd, rfl⟩ := takeDue_some ht
  have htr : (beforeCallback e { s with
      sched := { s.sched with queue := q }
      trace := s.trace ++ [.fired e s.now s.sched.queue] }).trace = s.trace ++ [.fired e s.now s.sched.queue] := by
    unfold beforeCallback
    split <;> rfl
  have hrun : ∀ i, isRun i (.fired e s.now s.sched.queue) = (e.action.timer? == some i) := fun i => rfl
  have hpre : HistAll (fun pre x => ∀ i, x = .called (.timer i) →
      ∃ pre' e now q, pre = pre' ++ [.fired e now q] ∧ e.action.timer? = some i)
      (s.trace ++ [.fired e s.now s.sched.queue]) := h.hist.snoc (fun i hi => by cases hi)
  constructor
  · intro i
    have h2 := h.count i
    simp only [htr]
    rw [show s.trace ++ [Ev.fired e s.now s.sched.queue] ++ callOf e.action =
      s.trace ++ ([Ev.fired e s.now s.sched.queue] ++ callOf e.action) by simp]
    simp only [runs, List.countP_append] at h2 ⊢
    rw [h2]
    congr 1
    simp only [List.countP_cons, List.countP_nil, hrun]
    cases ha : e.action <;> simp [callOf, isTimerCall, isRun, Action.timer?]
  · simp only [htr]
    cases ha : e.action with
    | once i =>
      refine hpre.snoc ?_
      intro j hj
      simp only [Ev.called.injEq, Call.timer.injEq] at hj
      exact ⟨s.trace, e, s.now, s.sched.queue, rfl, by rw [ha, hj]; rfl⟩
    | every i p =>
      refine hpre.snoc ?_
      intro j hj
      simp only [Ev.called.injEq, Call.timer.injEq] at hj
      exact ⟨s.trace, e, s.now, s.sched.queue, rfl, by rw [ha, hj]; rfl⟩
    | status p => simpa [callOf] using hpre
    | timeout r k =>
      refine hpre.snoc ?_
      intro j hj
      simp only [Ev.called.injEq, reduceCtorEq] at hj

theorem CInv.log1 {s : Node} (h : CInv s) (x : Ev) (hx : notTimer x = true) : CInv (log x s).2 :=
  h.frame [x] rfl (by simpa using hx)

theorem CInv.user (b : Nat) : UserClosed env b CInv where
  tick d s h := h.frame [] (List.append_nil _).symm (by simp)
  defer t s h := h.frame [_] rfl (by simp [notTimer])
  periodic p s h := h.frame [_] rfl (by simp [notTimer])
  cancel i s h := by
    unfold Node.cancel
    split
    · split
      · exact h.frame [_] rfl (by simp [notTimer])
      · exact h.frame [_] rfl (by simp [notTimer])
    · exact h
  acceptReq dest dtid prio s h := by
    unfold acceptTid
    split
    · exact h
    · exact h
    · exact h.frame [_] rfl (by simp [notTimer])
  acceptMsg dtid prio s h := by
    unfold acceptTid
    split
    · exact h
    · exact h
    · exact h.frame [_] rfl (by simp [notTimer])
  acceptResponse dest dtid tid prio s h := by
    unfold acceptResponse
    split
    · exact h
    · exact h
    · exact h.frame [_] rfl (by simp [notTimer])
  sendFrame n f c s _ _ _ h := by
    unfold sendFrame
    split
    · exact h
    · exact h.frame [_] rfl (by simp [notTimer])
  registerRequest n c mid dest to s _ _ _ _ h := h.frame [_] rfl (by simp [notTimer])
  addHandler t sn s h := h.frame [] (List.append_nil _).symm (by simp)
  removeHandler u s h := by unfold removeHandler; split <;> exact h.frame [] (List.append_nil _).symm (by simp)
  removeHandlers t s h := h.frame [] (List.append_nil _).symm (by simp)
  addHook s h := h.frame [] (List.append_nil _).symm (by simp)
  removeHook hk s h := by unfold removeHook; split <;> exact h.frame [] (List.append_nil _).symm (by simp)
  setNodeId v s h := by
    unfold setNodeId
    split
    · split <;> exact h.frame [] (List.append_nil _).symm (by simp)
    · exact h
  setCanfd v s h := h.frame [] (List.append_nil _).symm (by simp)
  logHook hk n arg s _ _ h := h.log1 _ rfl
  logHookRaised hk n arg s _ _ h := h.log1 _ rfl

theorem CInv.top : TopClosed env (fun _ => CInv) where
  user _ := CInv.user env 0
  fire s e s' h ht := h.fire ht
  raisedTimer i s h := h.log1 _ rfl
  raisedTimeout r s h := h.log1 _ rfl
  tm s tm h := h.frame [] (List.append_nil _).symm (by simp)
  rx tr s _ h := h.frame [_] rfl (by simp [notTimer])
  read f s h := h.log1 _ rfl
  handler u tr s h := h.log1 _ rfl
  handlerRaised u tr s h := h.log1 _ rfl
  deliver tr key q s _ _ _ hf h :=
    h.frame (s' := (log (.called (.response q.req (some tr))) (dropTimeout q.seq s).2).2) [_] rfl (by simp [notTimer])
  deliverRaised r tr key s h := h.log1 _ rfl
  del key s h := by unfold delOutstanding; split <;> exact h.frame [] (List.append_nil _).symm (by simp)

theorem CInv.init : CInv (Node.init nid t iv ce fd it) := ⟨fun _ => rfl, HistAll.nil⟩

/-! ## C34 -/

theorem runs_bound {tr : List Ev} (h : HistAll EntryOk tr) (i : Nat) :
    (info tr i = none → runs tr i = 0) ∧ ∀ t0 d, info tr i = some (t0, d, false) → runs tr i ≤ 1 := by
  induction h' : tr.length generalizing tr with
  | zero => rw [List.length_eq_zero_iff] at h'; subst h'; exact ⟨fun _ => rfl, fun _ _ _ => by simp [runs]⟩
  | succ n ih =>
    rcases List.eq_nil_or_concat tr with rfl | ⟨tr', x, rfl⟩
    · cases h'
    · have hpre : HistAll EntryOk tr' := fun pre y post he => h pre y (post ++ [x]) (by rw [he]; simp)
      have hx : EntryOk tr' x := h tr' x [] (by simp)
      have ih' := ih hpre (by simp at h'; exact h')
      rw [List.concat_eq_append, info_snoc, runs_snoc]
      cases hr : isRun i x with
      | false =>
        simp only [Bool.false_eq_true, if_false, Nat.add_zero]
        cases hi : info tr' i with
        | none => exact ⟨fun _ => ih'.1 hi, fun t0 d _ => by rw [ih'.1 hi]; exact Nat.zero_le _⟩
        | some v =>
          refine ⟨fun hn => by simp at hn, fun t0 d hv => ?_⟩
          simp only [Option.some_or] at hv
          exact ih'.2 t0 d (by rw [hi, hv])
      | true =>
        cases x with
        | fired e now q =>
          simp only [isRun, beq_iff_eq] at hr
          have hp := (hx.2.2.2.2 i hr).1
          unfold pending at hp
          cases hi : info tr' i with
          | none => rw [hi] at hp; cases hp
          | some v =>
            obtain ⟨a, b, per⟩ := v
            refine ⟨fun hn => by simp at hn, fun t0 d hv => ?_⟩
            simp only [Option.some_or, Option.some.injEq, Prod.mk.injEq] at hv
            rw [hi, hv.2.2] at hp
            simp only [Bool.false_or, Bool.and_eq_true, beq_iff_eq] at hp
            rw [hp.2]; simp
        | _ => simp [isRun] at hr

/-- **C34**: a one-shot callback runs at most once: its event runs at most once and its callback is called that
often. -/
theorem C34_one_shot_once (i : Nat) (t0 d : Int)
    (h : info (history env ops nid t iv ce fd it) i = some (t0, d, false)) :
    (history env ops nid t iv ce fd it).countP (isTimerCall i) ≤ 1 := by
  have h1 := (run_pres (CInv.top env) ops _ (CInv.init nid t iv ce fd it)).1.count i
  have h2 := (runs_bound (history_ok env ops nid t iv ce fd it) i).2 t0 d h
  exact h1 ▸ h2

example : info (history timerEnv timerOps none 0 none true false (1, true)) 3 = some (11, 5, false) := by decide +kernel

/-- **C34**: every call of a timer callback directly follows the run of its event, which happened not before the deadline
that is due according to the history. -/
theorem C34_called_when_due (pre post : List Ev) (i : Nat)
    (h : history env ops nid t iv ce fd it = pre ++ .called (.timer i) :: post) :
    ∃ pre' e now q, pre = pre' ++ [.fired e now q] ∧ e.action.timer? = some i ∧ pending pre' i = true ∧
      deadline pre' i ≤ now := by
  have h1 := (run_pres (CInv.top env) ops _ (CInv.init nid t iv ce fd it)).1.hist pre _ post h i rfl
  obtain ⟨pre', e, now, q, rfl, hi⟩ := h1
  have h2 := history_ok env ops nid t iv ce fd it pre' (.fired e now q) (.called (.timer i) :: post) (by rw [h]; simp)
  have h3 := h2.2.2.2.2 i hi
  exact ⟨pre', e, now, q, rfl, hi, h3.1, h3.2.1 ▸ h2.1⟩

/-- **C34**: after `remove()` or `try_remove()` succeeded - also from inside the timer's own callback - the callback is
never called again. -/
theorem C34_never_after_cancel (pre mid post : List Ev) (i : Nat)
    (h : history env ops nid t iv ce fd it = pre ++ .cancelled i true :: mid ++ .called (.timer i) :: post) :
    False := by
  obtain ⟨pre', e, now, q, he, hi, hp, -⟩ := C34_called_when_due env ops nid t iv ce fd it _ post i h
  rcases List.eq_nil_or_concat mid with rfl | ⟨mid', x, rfl⟩
  · have h2 := (List.append_inj' he rfl).2
    simp only [List.cons.injEq, reduceCtorEq, false_and] at h2
  · rw [List.concat_eq_append, ← List.cons_append, ← List.append_assoc] at he
    have h2 := (List.append_inj' he rfl).1
    have : cancelled pre' i = true := by
      rw [← h2]; simp [cancelled, isCancel]
    unfold pending at hp
    cases hh : info pre' i with
    | none => rw [hh] at hp; cases hp
    | some v => rw [hh] at hp; simp [this] at hp

/-- **C34**: `remove()` and `try_remove()` succeed exactly if the timer is pending according to the history. -/
theorem C34_cancel_iff_pending (pre post : List Ev) (i : Nat) (ok : Bool)
    (h : history env ops nid t iv ce fd it = pre ++ .cancelled i ok :: post) : ok = pending pre i :=
  history_ok env ops nid t iv ce fd it pre _ post h

/-- **C34**: what `remove()` and `try_remove()` return or raise is what the history records. -/
theorem C34_cancel_result (i : Nat) (s : Node) (hi : i < s.nextTimer) :
    ∃ ok, (cancel i s).1 = (if ok then .ok () else .error .valueError) ∧ (tryCancel i s).1 = .ok ok ∧
      (cancel i s).2.trace = s.trace ++ [.cancelled i ok] ∧ (tryCancel i s).2 = (cancel i s).2 := by
  unfold tryCancel Node.cancel
  rw [if_pos hi]
  cases s.sched.cancel (s.holder i) with
  | none => exact ⟨false, rfl, rfl, rfl, rfl⟩
  | some q => exact ⟨true, rfl, rfl, rfl, rfl⟩

/-- **C34**: a periodic timer can be removed from inside its own callback: the removal succeeds unless it was removed
before. -/
theorem C34_cancel_in_callback (pre mid post : List Ev) (i : Nat) (e : TEvent Action) (now : Int)
    (q : List (TEvent Action)) (ok : Bool) (t0 p : Int) (hi : e.action.timer? = some i)
    (h : history env ops nid t iv ce fd it = pre ++ .fired e now q :: mid ++ .cancelled i ok :: post)
    (hp : info pre i = some (t0, p, true)) (hmid : cancelled mid i = false) : ok = true := by
  have h1 := C34_cancel_iff_pending env ops nid t iv ce fd it _ post i ok h
  have h0 := (history_ok env ops nid t iv ce fd it pre (.fired e now q) (mid ++ .cancelled i ok :: post)
    (by rw [h]; simp)).2.2.2.2 i hi
  have hc0 : cancelled pre i = false := by
    have := h0.1
    unfold pending at this
    rw [hp] at this
    simpa using this
  have hinfo : info (pre ++ .fired e now q :: mid) i = some (t0, p, true) := by
    simp only [info] at hp ⊢
    rw [List.findSome?_append, hp]; rfl
  have hc : cancelled (pre ++ .fired e now q :: mid) i = false := by
    simp only [cancelled] at hc0 hmid ⊢
    rw [List.any_append, hc0, List.any_cons, hmid]; rfl
  rw [h1]
  simp only [pending, hinfo, hc]
  rfl

example : (history timerEnv timerOps none 0 none true false (1, true)).filterMap (fun
    | .cancelled i ok => some (i, ok)
    | _ => none) = [(1, false), (2, true), (2, false)] := by decide +kernel

/-! ## C35 -/

/-- **C35**: the `k`-th run (counting from 1) of a periodic timer with period `p` started at `t0` is scheduled for exactly
`t0 + k * p`, and happens then or later, whatever happened before. -/
theorem C35_no_drift (pre post : List Ev) (i : Nat) (e : TEvent Action) (now : Int) (q : List (TEvent Action))
    (t0 p : Int) (hi : e.action.timer? = some i)
    (h : history env ops nid t iv ce fd it = pre ++ .fired e now q :: post) (hp : info pre i = some (t0, p, true)) :
    e.time = t0 + (runs pre i + 1) * p ∧ e.time ≤ now := by
  have h0 := history_ok env ops nid t iv ce fd it pre _ post h
  have h1 := (h0.2.2.2.2 i hi).2.1
  refine ⟨?_, h0.1⟩
  rw [h1]
  simp only [deadline, hp, if_true]

end Dronecan
