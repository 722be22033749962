import Verif.Props.Dispatch

/-!
# Transfer hooks (C62)

Every transfer sent or received has a number; `about n` selects from a history the hooks called for transfer `n`, the
frames sent for it, and the invocations of handlers and request callbacks. Hooks may make any API calls (including sending
other transfers, for which hooks are called in turn) and may raise; they must not add or remove hooks.
-/

namespace Dronecan
open Node Dispatch PyM

variable (env : Env)

theorem blind_about (n : Nat) : Blind (n + 1) (about n) where
  armed _ _ _ _ := rfl
  cancelled _ _ := rfl
  accepted _ _ := rfl
  requested _ _ _ _ _ := rfl
  frame m f h := by
    have : m ≠ n := by omega
    simp [about, this]
  hook hk m arg h := by
    have : m ≠ n := by omega
    simp [about, this]
  hookRaised _ _ _ _ := rfl

/-- The part of a history about transfer `n`. -/
def story (n : Nat) (s : Node) : List Step := s.trace.filterMap (about n)

/-- The hooks leave the list of hooks alone. -/
def HooksStable (n : Nat) (arg : HookArg) (s : Node) : Prop :=
  ∀ hk ∈ s.hooks, ∀ s', s'.hooks = s.hooks → (hookCall env (.hook hk n arg) s').2.hooks = s.hooks

theorem hookCall_story (hlim : 0 < env.lim) (hk n : Nat) (arg : HookArg) (s : Node) (hn : n < s.nextNum) :
    story n (hookCall env (.hook hk n arg) s).2 = story n s ++ [.hook hk arg] ∧
      Ext s (hookCall env (.hook hk n arg) s).2 := by
  obtain ⟨k, hk'⟩ : ∃ k, env.lim = k + 1 := ⟨env.lim - 1, by omega⟩
  unfold hookCall
  rw [hk']
  have hu := (blind_about n).user (env := env) (story n s ++ [.hook hk arg])
  have h := runScript_pres hu (invoke_pres hu k) (fun s' => story n s' = story n s ++ [.hook hk arg]) (.hook hk n arg) s hn
    (fun s' _ hs' => (filterMap_snoc_none rfl).trans hs') (filterMap_snoc_some (by simp [about]))
  refine ⟨?_, h.2⟩
  rcases h.1 with h | h
  · exact h.1
  · exact h.1

/-- Calling the hooks for transfer `n` calls each of them once, in order, and raises nothing. -/
theorem callHooks_story (hlim : 0 < env.lim) (n : Nat) (arg : HookArg) (s : Node) (hn : n < s.nextNum)
    (hst : HooksStable env n arg s) :
    (callHooks env (hookCall env) n arg s).1 = .ok () ∧
      story n (callHooks env (hookCall env) n arg s).2 = story n s ++ s.hooks.map (.hook · arg) ∧
      Ext s (callHooks env (hookCall env) n arg s).2 := by
  simp only [callHooks, bind_run, get_run]
  rw [hooksLoop_eq _ n arg s.hooks hst _ 0 s (Nat.zero_le _) (by omega) rfl, List.drop_zero]
  generalize s.hooks = L
  clear hst
  induction L generalizing s with
  | nil => simp [PyM.forEach, Ext.refl]
  | cons hk L ih =>
    have hl := hookCall_story env hlim hk n arg s hn
    simp only [PyM.forEach, bind_run, PyM.tryCatch]
    cases hc : hookCall env (.hook hk n arg) s with
    | mk r s1 =>
      rw [hc] at hl
      simp only at hl
      have h2 := ih s1 (Nat.lt_of_lt_of_le hn hl.2.2)
      rw [hl.1] at h2
      cases r with
      | ok a => exact ⟨h2.1, by simpa using h2.2.1, hl.2.trans h2.2.2⟩
      | error err => exact ⟨h2.1, by simpa using h2.2.1, hl.2.trans h2.2.2⟩

theorem forEach_story (n : Nat) (frames : List Frame) (s : Node) :
    ∃ sent, story n (PyM.forEach frames (sendFrame env n) s).2 = story n s ++ sent.map .frame ∧ sent <+: frames ∧
      ((PyM.forEach frames (sendFrame env n) s).1 = .ok () → sent = frames) := by
  induction frames generalizing s with
  | nil => exact ⟨[], by simp [PyM.forEach], List.prefix_rfl, fun _ => rfl⟩
  | cons f fs ih =>
    simp only [PyM.forEach, bind_run, sendFrame]
    cases env.txFails s f with
    | some e => exact ⟨[], by simp, List.nil_prefix, fun h => by cases h⟩
    | none =>
      obtain ⟨sent, h1, h2, h3⟩ := ih { s with trace := s.trace ++ [.frame n f] }
      refine ⟨f :: sent, ?_, (List.cons_prefix_cons).2 ⟨rfl, h2⟩, fun h => by rw [h3 h]⟩
      show story n (PyM.forEach fs (sendFrame env n) { s with trace := s.trace ++ [.frame n f] }).2 = _
      rw [h1]
      have : story n { s with trace := s.trace ++ [.frame n f] } = story n s ++ [.frame f] :=
        filterMap_snoc_some (by simp [about])
      rw [this]
      simp

/-- The story of sending one transfer: the hooks in order, each with the transfer, then its frames in order: all of them
if sending succeeds, and otherwise as many as the driver took. -/
def SendStory (n : Nat) (s : Node) (t : OutTransfer) (r : Except Err Unit × Node) : Prop :=
  ∃ sent, story n r.2 = story n s ++ s.hooks.map (.hook · (.tx t)) ++ sent.map .frame ∧
    (∀ t' frames, toFrames t = .ok (t', frames) → sent <+: frames ∧ (r.1 = .ok () → sent = frames)) ∧
    (∀ e, toFrames t = .error e → sent = [] ∧ r.1 = .error e)

theorem sendTransfer_story (hlim : 0 < env.lim) (n : Nat) (p : Payload) (h : Header) (tid : Nat) (canfd : Bool) (s : Node)
    (t : OutTransfer) (hn : n < s.nextNum) (ht : mkTransfer p.dt h tid p.val canfd = .ok t)
    (hst : HooksStable env n (.tx t) s) (rest : OutTransfer → PyM Node Unit)
    (hrest : ∀ t s1, story n (rest t s1).2 = story n s1) :
    SendStory n s t ((sendTransfer env (hookCall env) n p h tid canfd >>- rest) s) := by
  have hh := callHooks_story env hlim n (.tx t) s hn hst
  simp only [sendTransfer, bind_run, lift_run, ht]
  cases hc : callHooks env (hookCall env) n (.tx t) s with
  | mk r s1 =>
    rw [hc] at hh
    simp only at hh
    obtain ⟨h1, h2, h3⟩ := hh
    subst h1
    simp only
    cases hf : toFrames t with
    | error e =>
      refine ⟨[], ?_, ?_, ?_⟩
      · simpa using h2
      · intro t' frames h'; rw [hf] at h'; cases h'
      · intro e' h'
        rw [hf] at h'
        injection h' with h'
        subst h'
        exact ⟨rfl, rfl⟩
    | ok tf =>
      obtain ⟨t', frames⟩ := tf
      obtain ⟨sent, h4, h5, h6⟩ := forEach_story env n frames s1
      simp only
      cases hs : PyM.forEach frames (sendFrame env n) s1 with
      | mk r2 s2 =>
        rw [hs] at h4 h6
        simp only at h4 h6
        cases r2 with
        | error e =>
          refine ⟨sent, by simp only; rw [h4, h2], ?_, fun e' h' => by rw [hf] at h'; cases h'⟩
          intro t'' frames' h'
          rw [hf] at h'
          injection h' with h'
          injection h' with _ h'
          subst h'
          exact ⟨h5, fun h => by cases h⟩
        | ok u =>
          refine ⟨sent, by simp only [pure_run]; rw [hrest, h4, h2], ?_, fun e' h' => by rw [hf] at h'; cases h'⟩
          intro t'' frames' h'
          rw [hf] at h'
          injection h' with h'
          injection h' with _ h'
          subst h'
          exact ⟨h5, fun _ => h6 rfl⟩

theorem SendStory.start {n : Nat} {s s1 : Node} {t : OutTransfer} {r : Except Err Unit × Node} (h : SendStory n s1 t r)
    (h1 : story n s1 = story n s) (h2 : s1.hooks = s.hooks) : SendStory n s t r := by
  unfold SendStory at h ⊢
  rw [h1, h2] at h
  exact h

theorem story_accepted (n m : Nat) (s s' : Node) (c : TxCall) (h : s'.trace = s.trace ++ [.accepted m c]) :
    story n s' = story n s := by
  unfold story
  rw [h]
  exact filterMap_snoc_none rfl

/-- Broadcasting: the hooks see the transfer once each, in order, before any of its frames is sent. -/
theorem C62_broadcast (hlim : 0 < env.lim) (p : Payload) (prio : Option Nat) (canfd : Option Bool) (s : Node) (nid : Nat)
    (hid : s.nodeId = some (nid + 1)) (t : OutTransfer)
    (ht : mkTransfer p.dt { prio := effPrio prio, source := nid + 1 } ((s.tids.get? (.msg p.dt.dtid)).getD 0) p.val
      (canfd.getD s.sendCanfd) = .ok t)
    (hst : ∀ s', s'.hooks = s.hooks → HooksStable env s.nextNum (.tx t) s') :
    SendStory s.nextNum s t (broadcast env (hookCall env) p prio canfd s) := by
  simp only [broadcast, bind_run, get_run, acceptTid, hid]
  have h := sendTransfer_story env hlim s.nextNum p { prio := effPrio prio, source := nid + 1 }
    ((s.tids.get? (.msg p.dt.dtid)).getD 0) (canfd.getD s.sendCanfd)
    { s with
      tids := s.tids.set (.msg p.dt.dtid) (((s.tids.get? (.msg p.dt.dtid)).getD 0 + 1) &&& 0x1F)
      nodeId := some (nid + 1)
      nextNum := s.nextNum + 1
      trace := s.trace ++ [.accepted s.nextNum ⟨.broadcast, p.dt.dtid, (s.tids.get? (.msg p.dt.dtid)).getD 0, prio, nid + 1⟩] }
    t (Nat.lt_succ_self _) ht (hst _ rfl) (fun _ => PyM.pure ()) (fun _ _ => rfl)
  exact h.start (story_accepted s.nextNum s.nextNum s _ _ rfl) rfl

/-- Responding: the hooks see the transfer once each, in order, before any of its frames is sent. -/
theorem C62_respond (hlim : 0 < env.lim) (p : Payload) (dest tid : Nat) (prio : Option Nat) (canfd : Option Bool)
    (s : Node) (nid : Nat) (hid : s.nodeId = some (nid + 1)) (t : OutTransfer)
    (ht : mkTransfer p.dt { prio := prio.getD 31, source := nid + 1, dest := some dest, service := true, request := false }
      tid p.val (canfd.getD s.sendCanfd) = .ok t)
    (hst : ∀ s', s'.hooks = s.hooks → HooksStable env s.nextNum (.tx t) s') :
    SendStory s.nextNum s t (respond env (hookCall env) p dest tid prio canfd s) := by
  simp only [respond, bind_run, get_run, acceptResponse, hid]
  have h := sendTransfer_story env hlim s.nextNum p
    { prio := prio.getD 31, source := nid + 1, dest := some dest, service := true, request := false }
    tid (canfd.getD s.sendCanfd)
    { s with
      nodeId := some (nid + 1)
      nextNum := s.nextNum + 1
      trace := s.trace ++ [.accepted s.nextNum ⟨.response dest, p.dt.dtid, tid, prio, nid + 1⟩] }
    t (Nat.lt_succ_self _) ht (hst _ rfl) (fun _ => PyM.pure ()) (fun _ _ => rfl)
  exact h.start (story_accepted s.nextNum s.nextNum s _ _ rfl) rfl

/-- Requesting: the hooks see the transfer once each, in order, before any of its frames is sent (when the request's
CAN identifier exists). -/
theorem C62_request (hlim : 0 < env.lim) (p : Payload) (dest : Nat) (prio : Option Nat) (timeout : Option Int)
    (canfd : Option Bool) (s : Node) (nid : Nat) (hid : s.nodeId = some (nid + 1)) (t : OutTransfer)
    (ht : mkTransfer p.dt
      { prio := effPrio prio, source := nid + 1, dest := some dest, service := true, request := true }
      ((s.tids.get? (.svc p.dt.dtid dest)).getD 0) p.val (canfd.getD s.sendCanfd) = .ok t)
    (hst : ∀ s', s'.hooks = s.hooks → HooksStable env s.nextNum (.tx t) s') :
    SendStory s.nextNum s t (request env (hookCall env) p dest prio timeout canfd s) := by
  simp only [request, bind_run, get_run, acceptTid, hid]
  have h := sendTransfer_story env hlim s.nextNum p
    { prio := effPrio prio, source := nid + 1, dest := some dest, service := true, request := true }
    ((s.tids.get? (.svc p.dt.dtid dest)).getD 0) (canfd.getD s.sendCanfd)
    { s with
      tids := s.tids.set (.svc p.dt.dtid dest) (((s.tids.get? (.svc p.dt.dtid dest)).getD 0 + 1) &&& 0x1F)
      nodeId := some (nid + 1)
      nextNum := s.nextNum + 1
      trace := s.trace ++ [.accepted s.nextNum ⟨.request dest, p.dt.dtid, (s.tids.get? (.svc p.dt.dtid dest)).getD 0, prio, nid + 1⟩] }
    t (Nat.lt_succ_self _) ht (hst _ rfl)
    (fun t => lift (encodeId t.header) >>- fun mid => registerRequest s.nextNum t.header t.tid (mid, t.tid) (effTimeout timeout))
    (fun t s1 => by
      simp only [bind_run, lift_run]
      cases encodeId t.header with
      | error e => rfl
      | ok mid => exact filterMap_snoc_none rfl)
  exact h.start (story_accepted s.nextNum s.nextNum s _ _ rfl) rfl

/-! ### Reception -/

/-- Only handlers and request callbacks after `K`. -/
def OnlyConsumers (n : Nat) (K : List Step) (s : Node) : Prop :=
  ∃ cs, story n s = K ++ cs ∧ ∀ c ∈ cs, c.isConsumer = true

theorem OnlyConsumers.none {n : Nat} {K : List Step} {s s' : Node} (h : OnlyConsumers n K s)
    (he : story n s' = story n s) : OnlyConsumers n K s' := by
  obtain ⟨cs, h1, h2⟩ := h
  exact ⟨cs, he.trans h1, h2⟩

theorem OnlyConsumers.snoc {n : Nat} {K : List Step} {s s' : Node} (h : OnlyConsumers n K s) (x : Step)
    (hx : x.isConsumer = true) (he : story n s' = story n s ++ [x]) : OnlyConsumers n K s' := by
  obtain ⟨cs, h1, h2⟩ := h
  refine ⟨cs ++ [x], by rw [he, h1, List.append_assoc], ?_⟩
  intro c hc
  rcases List.mem_append.1 hc with hc | hc
  · exact h2 c hc
  · rw [List.mem_singleton] at hc
    subst hc
    exact hx

/-- A predicate on the selected part of the history is kept by application code if the part itself is. -/
theorem userClosed_story {β : Type} {b : Nat} {g : Ev → Option β} (hg : Blind b g) (P : List β → Prop) :
    UserClosed env b (fun s => P (s.trace.filterMap g)) where
  tick d s h := by rw [(hg.user (env := env) _).tick d s rfl]; exact h
  defer t s h := by rw [(hg.user (env := env) _).defer t s rfl]; exact h
  periodic t s h := by rw [(hg.user (env := env) _).periodic t s rfl]; exact h
  cancel t s h := by rw [(hg.user (env := env) _).cancel t s rfl]; exact h
  acceptReq a b c s h := by rw [(hg.user (env := env) _).acceptReq a b c s rfl]; exact h
  acceptMsg a b s h := by rw [(hg.user (env := env) _).acceptMsg a b s rfl]; exact h
  acceptResponse a b c d s h := by rw [(hg.user (env := env) _).acceptResponse a b c d s rfl]; exact h
  sendFrame a b c s h1 h2 h3 h := by rw [(hg.user (env := env) _).sendFrame a b c s h1 h2 h3 rfl]; exact h
  registerRequest a b c d e s h1 h2 h3 h4 h := by
    rw [(hg.user (env := env) _).registerRequest a b c d e s h1 h2 h3 h4 rfl]; exact h
  addHandler a b s h := by rw [(hg.user (env := env) _).addHandler a b s rfl]; exact h
  removeHandler a s h := by rw [(hg.user (env := env) _).removeHandler a s rfl]; exact h
  removeHandlers a s h := by rw [(hg.user (env := env) _).removeHandlers a s rfl]; exact h
  addHook s h := by rw [(hg.user (env := env) _).addHook s rfl]; exact h
  removeHook a s h := by rw [(hg.user (env := env) _).removeHook a s rfl]; exact h
  setNodeId a s h := by rw [(hg.user (env := env) _).setNodeId a s rfl]; exact h
  setCanfd a s h := by rw [(hg.user (env := env) _).setCanfd a s rfl]; exact h
  logHook a b c s h1 h2 h := by rw [(hg.user (env := env) _).logHook a b c s h1 h2 rfl]; exact h
  logHookRaised a b c s h1 h2 h := by rw [(hg.user (env := env) _).logHookRaised a b c s h1 h2 rfl]; exact h

theorem consumers_recv (n : Nat) (K : List Step) : RecvClosed env (n + 1) (fun _ s => OnlyConsumers n K s) where
  user _ := userClosed_story env (blind_about n) (fun l => ∃ cs, l = K ++ cs ∧ ∀ c ∈ cs, c.isConsumer = true)
  fire s e s' h ht := by
    have htr : s'.trace = s.trace ++ [.fired e s.now s.sched.queue] := by
      unfold takeDue at ht
      split at ht
      · cases ht
      · rename_i e0 q hq
        split at ht
        · cases ht
        · injection ht with ht
          injection ht with h1 h2
          subst h2 h1
          rw [beforeCallback_trace, hq]
    have h0 : story n s' = story n s := by
      unfold story
      rw [htr]
      exact filterMap_snoc_none rfl
    cases ha : e.action with
    | once i => exact h.none ((filterMap_snoc_none rfl).trans h0)
    | every i p => exact h.none ((filterMap_snoc_none rfl).trans h0)
    | status p =>
      simp only [callOf, List.append_nil]
      exact h.none h0
    | timeout r k =>
      exact (h.none h0).snoc (.consumer (.response r none)) rfl (filterMap_snoc_some rfl)
  raisedTimer i _ h := h.none (filterMap_snoc_none rfl)
  raisedTimeout r _ h := h.none (filterMap_snoc_none rfl)
  tm _ _ h := h
  rx tr s _ h := h.none (filterMap_snoc_none rfl)
  handler u tr _ h := h.snoc (.consumer (.handler u tr)) rfl (filterMap_snoc_some rfl)
  handlerRaised u tr _ h := h.none (filterMap_snoc_none rfl)
  deliver tr _ q _ _ _ _ _ h := OnlyConsumers.snoc (h.none (s' := (dropTimeout q.seq _).2) rfl)
    (.consumer (.response q.req (some tr))) rfl (filterMap_snoc_some rfl)
  deliverRaised r tr _ _ h := h.none (filterMap_snoc_none rfl)
  del key s h := by unfold delOutstanding; split <;> exact h

/-- Receiving: when a frame completes transfer `tr`, the hooks see it once each, in order, before any handler or request
callback is called; afterwards no hook is called for it. -/
theorem C62_receive (hlim : 0 < env.lim) (raw : RawFrame) (s : Node) (hx : raw.extended = true) (frames : List Frame)
    (tr : InTransfer)
    (ho : (receiveFrame s.tm s.now { id := raw.id, bytes := raw.data, ts := raw.ts, canfd := raw.canfd }).2 = some frames)
    (htr : fromFrames env.db frames = .ok tr)
    (hst : ∀ s', s'.hooks = s.hooks → HooksStable env s.nextNum (.rx tr) s') :
    ∃ consumers, story s.nextNum (recvFrame env raw s).2 =
        story s.nextNum s ++ s.hooks.map (.hook · (.rx tr)) ++ consumers ∧
      ∀ c ∈ consumers, c.isConsumer = true := by
  simp only [recvFrame, hx, tmReceive, bind_run, Bool.not_true, Bool.false_eq_true, if_false, ho, lift_run, htr, acceptRx]
  generalize hs1 : ({ s with
      tm := (receiveFrame s.tm s.now { id := raw.id, bytes := raw.data, ts := raw.ts, canfd := raw.canfd }).1
      nextNum := s.nextNum + 1
      trace := s.trace ++ [.received s.nextNum tr] } : Node) = s1
  have hn : s1.nextNum = s.nextNum + 1 := by rw [← hs1]
  have hk : s1.hooks = s.hooks := by rw [← hs1]
  have h0 : story s.nextNum s1 = story s.nextNum s := by rw [← hs1]; exact filterMap_snoc_none rfl
  have hh := callHooks_story env hlim s.nextNum (.rx tr) s1 (by omega) (hst s1 hk)
  cases hc : callHooks env (hookCall env) s.nextNum (.rx tr) s1 with
  | mk r s2 =>
    rw [hc] at hh
    simp only at hh
    obtain ⟨h1, h2, h3⟩ := hh
    subst h1
    simp only
    rw [h0, hk] at h2
    have hd := (dispatch_pres (consumers_recv env s.nextNum (story s.nextNum s ++ s.hooks.map (.hook · (.rx tr)))).toActClosed tr s2
      (by have := h3.2; omega) ⟨[], by rw [h2, List.append_nil], fun _ h => (List.not_mem_nil h).elim⟩).1
    exact hd

/-! ### Numbers are fresh -/

/-- The transfer that an event is about. -/
def numOf : Ev → Option Nat
  | .called (.hook _ n _) | .raised (.hook _ n _) => some n
  | .accepted n _ | .frame n _ | .requested _ n _ _ _ | .received n _ => some n
  | _ => none

/-- All transfer numbers in the history have been given out. -/
def NumOk (s : Node) : Prop := ∀ e ∈ s.trace, ∀ n, numOf e = some n → n < s.nextNum

theorem NumOk.snoc {s s' : Node} (h : NumOk s) (e : Ev) (ht : s'.trace = s.trace ++ [e]) (hn : s.nextNum ≤ s'.nextNum)
    (he : ∀ n, numOf e = some n → n < s'.nextNum) : NumOk s' := by
  intro e' he' n hn'
  rw [ht] at he'
  rcases List.mem_append.1 he' with he' | he'
  · exact Nat.lt_of_lt_of_le (h e' he' n hn') hn
  · rw [List.mem_singleton] at he'
    subst he'
    exact he n hn'

theorem numOk_top : TopClosed env (fun _ s => NumOk s) where
  user _ :=
    { tick _ _ h := h
      defer _ _ h := h.snoc _ rfl (Nat.le_refl _) (fun _ h => nomatch h)
      periodic _ _ h := h.snoc _ rfl (Nat.le_refl _) (fun _ h => nomatch h)
      cancel i s h := by
        unfold Node.cancel
        split
        · split
          · exact h.snoc _ rfl (Nat.le_refl _) (fun _ h => nomatch h)
          · exact h.snoc _ rfl (Nat.le_refl _) (fun _ h => nomatch h)
        · exact h
      acceptReq _ _ _ s h := by
        unfold acceptTid
        split
        · exact h
        · exact h
        · exact h.snoc _ rfl (Nat.le_succ _) (fun n hn => by injection hn with hn; subst hn; exact Nat.lt_succ_self _)
      acceptMsg _ _ s h := by
        unfold acceptTid
        split
        · exact h
        · exact h
        · exact h.snoc _ rfl (Nat.le_succ _) (fun n hn => by injection hn with hn; subst hn; exact Nat.lt_succ_self _)
      acceptResponse _ _ _ _ s h := by
        unfold Node.acceptResponse
        split
        · exact h
        · exact h
        · exact h.snoc _ rfl (Nat.le_succ _) (fun n hn => by injection hn with hn; subst hn; exact Nat.lt_succ_self _)
      sendFrame n f c s _ ha _ h := by
        unfold Node.sendFrame
        split
        · exact h
        · exact h.snoc _ rfl (Nat.le_refl _) (fun m hm => by injection hm with hm; subst hm; exact h _ ha _ rfl)
      registerRequest n c _ _ _ s _ ha _ _ h :=
        h.snoc _ rfl (Nat.le_refl _) (fun m hm => by injection hm with hm; subst hm; exact h _ ha _ rfl)
      addHandler _ _ _ h := h
      removeHandler _ s h := by unfold Node.removeHandler; split <;> exact h
      removeHandlers _ _ h := h
      addHook _ h := h
      removeHook _ s h := by unfold Node.removeHook; split <;> exact h
      setNodeId _ s h := by
        unfold Node.setNodeId
        split
        · split <;> exact h
        · exact h
      setCanfd _ _ h := h
      logHook _ n _ s _ hn h := h.snoc _ rfl (Nat.le_refl _) (fun m hm => by injection hm with hm; subst hm; exact hn)
      logHookRaised _ n _ s _ hn h :=
        h.snoc _ rfl (Nat.le_refl _) (fun m hm => by injection hm with hm; subst hm; exact hn) }
  fire s e s' h ht := by
    have htr : s'.trace = s.trace ++ [.fired e s.now s.sched.queue] ∧ s'.nextNum = s.nextNum := by
      unfold takeDue at ht
      split at ht
      · cases ht
      · rename_i e0 q hq
        split at ht
        · cases ht
        · injection ht with ht
          injection ht with h1 h2
          subst h2 h1
          rw [beforeCallback_trace, hq]
          refine ⟨rfl, ?_⟩
          unfold beforeCallback
          split <;> rfl
    have h0 : NumOk s' := h.snoc _ htr.1 (Nat.le_of_eq htr.2.symm) (fun _ h => nomatch h)
    cases ha : e.action with
    | once i => exact h0.snoc _ rfl (Nat.le_refl _) (fun _ h => nomatch h)
    | every i p => exact h0.snoc _ rfl (Nat.le_refl _) (fun _ h => nomatch h)
    | status p =>
      simp only [callOf, List.append_nil]
      exact h0
    | timeout r k => exact h0.snoc _ rfl (Nat.le_refl _) (fun _ h => nomatch h)
  raisedTimer _ _ h := h.snoc _ rfl (Nat.le_refl _) (fun _ h => nomatch h)
  raisedTimeout _ _ h := h.snoc _ rfl (Nat.le_refl _) (fun _ h => nomatch h)
  tm _ _ h := h
  rx tr s _ h := h.snoc _ rfl (Nat.le_succ _) (fun n hn => by injection hn with hn; subst hn; exact Nat.lt_succ_self _)
  handler _ _ _ h := h.snoc _ rfl (Nat.le_refl _) (fun _ h => nomatch h)
  handlerRaised _ _ _ h := h.snoc _ rfl (Nat.le_refl _) (fun _ h => nomatch h)
  deliver _ _ q s _ _ _ _ h := NumOk.snoc (s := (dropTimeout q.seq s).2) h _ rfl (Nat.le_refl _) (fun _ h => nomatch h)
  deliverRaised _ _ _ _ h := h.snoc _ rfl (Nat.le_refl _) (fun _ h => nomatch h)
  del key s h := by unfold delOutstanding; split <;> exact h
  read _ _ h := h.snoc _ rfl (Nat.le_refl _) (fun _ h => nomatch h)

/-- The hook that `add_hook` registers comes last; its remover removes it and no other, the first time; the second time it raises and changes nothing. -/
theorem C62_remove (s : Node) (hf : s.nextHook ∉ s.hooks) : ∃ h s1 s2, addHook s = (.ok h, s1) ∧ s1.hooks = s.hooks ++ [h] ∧
    removeHook h s1 = (.ok (), s2) ∧ s2.hooks = s.hooks ∧ (removeHook h s2).1 = .error .valueError ∧ (removeHook h s2).2 = s2 := by
  refine ⟨_, _, { s with nextHook := s.nextHook + 1 }, rfl, rfl, ?_, rfl, ?_, ?_⟩
  · simp [removeHook, List.erase_append_right _ hf]
  · simp [removeHook, hf]
  · simp [removeHook, hf]

/-- In every state that a program can reach, the next transfer number is new: no hook was called and no frame was sent for
it. So in the theorems above the hooks and frames listed are all there are up to that point. -/
theorem C62_fresh (ops : List Op) (nid : Option Nat) (t : Int) (iv : Option Int) (ce fd : Bool) (it : Nat × Bool) :
    ∀ x ∈ story (run env ops (init nid t iv ce fd it)).nextNum (run env ops (init nid t iv ce fd it)),
      x.isConsumer = true := by
  have h := (run_pres (numOk_top env) ops (init nid t iv ce fd it) (fun e he => (List.not_mem_nil he).elim)).1
  generalize run env ops (init nid t iv ce fd it) = s at h
  intro x hx
  obtain ⟨e, he, hex⟩ := List.mem_filterMap.1 hx
  unfold about at hex
  split at hex
  · split at hex
    · rename_i hm
      have := h _ he _ rfl
      omega
    · cases hex
  · split at hex
    · rename_i hm
      have := h _ he _ rfl
      omega
    · cases hex
  · injection hex with hex
    subst hex
    rfl
  · injection hex with hex
    subst hex
    rfl
  · cases hex

/-! An example: two hooks, the first of which raises. -/

theorem dispHooksStable (n : Nat) (arg : HookArg) (s : Node) (h : s.hooks = [0, 1]) : HooksStable dispEnv n arg s := by
  intro hk hhk s' hs'
  rw [h] at hhk hs'
  simp only [List.mem_cons, List.not_mem_nil, or_false] at hhk
  rcases hhk with rfl | rfl <;>
    simp [hookCall, invoke, runScript, dispEnv, log, runActs, PyM.forEach, exec, PyM.tryCatch, hs', h]

/-- What kind of thing happened. -/
def kindOf : Step → Nat
  | .hook hk _ => hk
  | .frame _ => 100
  | .consumer _ => 200

/-- A message payload. -/
def msgPayload : Payload := { dt := { dtid := 7, baseCrc := 0, msg := emptyTy }, val := .comp none [] }

example : (story 0 (broadcast dispEnv (hookCall dispEnv) msgPayload none none (dispNode true)).2).map kindOf =
    [0, 1, 100] := by decide +kernel
example : (story 0 (recvFrame dispEnv (msgFrame 1) (dispNode true)).2).map kindOf = [0, 1, 200, 200] := by decide +kernel
example : ∃ t, mkTransfer msgPayload.dt { prio := effPrio none, source := 9 + 1 } 0 msgPayload.val false = .ok t ∧
    SendStory 0 (dispNode true) t (broadcast dispEnv (hookCall dispEnv) msgPayload none none (dispNode true)) := by
  have h : ∃ t, mkTransfer msgPayload.dt { prio := effPrio none, source := 9 + 1 } 0 msgPayload.val false = .ok t :=
    ⟨_, rfl⟩
  obtain ⟨t, ht⟩ := h
  exact ⟨t, ht, C62_broadcast dispEnv (by decide) msgPayload none none (dispNode true) 9 rfl t ht
    (fun s' hs' => dispHooksStable _ _ s' hs')⟩

end Dronecan
