import Verif.Proofs.Node

/-!
# Parts of the history that API calls do not touch

`g` selects a part of the history. If it selects nothing of what API calls and nested hooks record, that part is the same
before and after any application code.
-/

namespace Dronecan.Node
open PyM

variable {β : Type} {env : Env} {b : Nat}

/-- `g` selects none of the events that application code causes from transmission number `b` on. -/
structure Blind (b : Nat) (g : Ev → Option β) : Prop where
  armed : ∀ i t d p, g (.armed i t d p) = none
  cancelled : ∀ i r, g (.cancelled i r) = none
  accepted : ∀ n c, g (.accepted n c) = none
  requested : ∀ r n h t d, g (.requested r n h t d) = none
  frame : ∀ n f, b ≤ n → g (.frame n f) = none
  hook : ∀ hk n arg, b ≤ n → g (.called (.hook hk n arg)) = none
  hookRaised : ∀ hk n arg, b ≤ n → g (.raised (.hook hk n arg)) = none

variable {g : Ev → Option β}

theorem filterMap_snoc_none {l : List Ev} {e : Ev} (h : g e = none) : (l ++ [e]).filterMap g = l.filterMap g := by
  simp [h]

theorem filterMap_snoc_some {l : List Ev} {e : Ev} {x : β} (h : g e = some x) :
    (l ++ [e]).filterMap g = l.filterMap g ++ [x] := by simp [h]

theorem Blind.user (hg : Blind b g) (K : List β) : UserClosed env b (fun s => s.trace.filterMap g = K) where
  tick _ _ h := h
  defer _ _ h := (filterMap_snoc_none (hg.armed ..)).trans h
  periodic _ _ h := (filterMap_snoc_none (hg.armed ..)).trans h
  cancel i s h := by
    unfold Node.cancel
    split
    · split
      · exact (filterMap_snoc_none (hg.cancelled ..)).trans h
      · exact (filterMap_snoc_none (hg.cancelled ..)).trans h
    · exact h
  acceptReq _ _ _ s h := by
    unfold acceptTid
    split
    · exact h
    · exact h
    · exact (filterMap_snoc_none (hg.accepted ..)).trans h
  acceptMsg _ _ s h := by
    unfold acceptTid
    split
    · exact h
    · exact h
    · exact (filterMap_snoc_none (hg.accepted ..)).trans h
  acceptResponse _ _ _ _ s h := by
    unfold Node.acceptResponse
    split
    · exact h
    · exact h
    · exact (filterMap_snoc_none (hg.accepted ..)).trans h
  sendFrame n f _ s hn _ _ h := by
    unfold Node.sendFrame
    split
    · exact h
    · exact (filterMap_snoc_none (hg.frame n f hn)).trans h
  registerRequest _ _ _ _ _ _ _ _ _ _ h := (filterMap_snoc_none (hg.requested ..)).trans h
  addHandler _ _ _ h := h
  removeHandler _ s h := by unfold Node.removeHandler; split <;> exact h
  removeHandlers _ _ h := h
  addHook _ h := h
  removeHook _ s h := by unfold Node.removeHook; split <;> exact h
  setNodeId _ s h := by
    unfold Node.setNodeId
    split
    · split <;> exact h
    · exact h
  setCanfd _ _ h := h
  logHook hk n arg _ hn _ h := (filterMap_snoc_none (hg.hook hk n arg hn)).trans h
  logHookRaised hk n arg _ hn _ h := (filterMap_snoc_none (hg.hookRaised hk n arg hn)).trans h

/-- `g` also selects nothing of what polling and reception record from transmission number `b` on. -/
structure BlindRecv (b : Nat) (g : Ev → Option β) : Prop extends Blind b g where
  fired : ∀ e t q, g (.fired e t q) = none
  timer : ∀ i, g (.called (.timer i)) = none
  timerRaised : ∀ i, g (.raised (.timer i)) = none
  response : ∀ r x, g (.called (.response r x)) = none
  responseRaised : ∀ r x, g (.raised (.response r x)) = none
  handler : ∀ u tr, g (.called (.handler u tr)) = none
  handlerRaised : ∀ u tr, g (.raised (.handler u tr)) = none
  received : ∀ n tr, g (.received n tr) = none

theorem beforeCallback_trace (e : TEvent Action) (s : Node) : (beforeCallback e s).trace = s.trace := by
  unfold beforeCallback
  split <;> rfl

theorem BlindRecv.recv (hg : BlindRecv b g) (K : List β) :
    RecvClosed env b (fun _ s => s.trace.filterMap g = K) where
  user _ := hg.toBlind.user K
  fire s e s' h ht := by
    unfold takeDue at ht
    split at ht
    · cases ht
    · split at ht
      · cases ht
      · injection ht with ht
        injection ht with h1 h2
        subst h2
        show ((beforeCallback _ _).trace ++ callOf e.action).filterMap g = K
        rw [beforeCallback_trace, List.filterMap_append, filterMap_snoc_none (hg.fired ..), h]
        have : (callOf e.action).filterMap g = [] := by
          cases e.action <;> simp [callOf, hg.timer, hg.response]
        rw [this, List.append_nil]
  raisedTimer i _ h := (filterMap_snoc_none (hg.timerRaised i)).trans h
  raisedTimeout r _ h := (filterMap_snoc_none (hg.responseRaised r none)).trans h
  tm _ _ h := h
  rx tr s _ h := (filterMap_snoc_none (hg.received s.nextNum tr)).trans h
  handler u tr _ h := (filterMap_snoc_none (hg.handler u tr)).trans h
  handlerRaised u tr _ h := (filterMap_snoc_none (hg.handlerRaised u tr)).trans h
  deliver tr _ q _ _ _ _ _ h := (filterMap_snoc_none (hg.response q.req (some tr))).trans h
  deliverRaised r tr _ _ h := (filterMap_snoc_none (hg.responseRaised r (some tr))).trans h
  del key s h := by unfold delOutstanding; split <;> exact h

/-- `HandlerDispatcher._catch_exceptions` never changes. -/
theorem catchExc_recv (v : Bool) : RecvClosed env b (fun _ s => s.catchExc = v) where
  user _ :=
    { tick _ _ h := h
      defer _ _ h := h
      periodic _ _ h := h
      cancel i s h := by
        unfold Node.cancel
        split
        · split <;> exact h
        · exact h
      acceptReq _ _ _ s h := by unfold acceptTid; split <;> exact h
      acceptMsg _ _ s h := by unfold acceptTid; split <;> exact h
      acceptResponse _ _ _ _ s h := by unfold Node.acceptResponse; split <;> exact h
      sendFrame _ _ _ s _ _ _ h := by unfold Node.sendFrame; split <;> exact h
      registerRequest _ _ _ _ _ _ _ _ _ _ h := h
      addHandler _ _ _ h := h
      removeHandler _ s h := by unfold Node.removeHandler; split <;> exact h
      removeHandlers _ _ h := h
      addHook _ h := h
      removeHook _ s h := by unfold Node.removeHook; split <;> exact h
      setNodeId _ s h := by
        unfold Node.setNodeId
        split
        · split <;> exact h
        · exact h
      setCanfd _ _ h := h
      logHook _ _ _ _ _ _ h := h
      logHookRaised _ _ _ _ _ _ h := h }
  fire s e s' h ht := by
    unfold takeDue at ht
    split at ht
    · cases ht
    · split at ht
      · cases ht
      · injection ht with ht
        injection ht with h1 h2
        subst h2
        unfold beforeCallback
        split <;> exact h
  raisedTimer _ _ h := h
  raisedTimeout _ _ h := h
  tm _ _ h := h
  rx _ _ _ h := h
  handler _ _ _ h := h
  handlerRaised _ _ _ h := h
  deliver _ _ _ _ _ _ _ _ h := h
  deliverRaised _ _ _ _ h := h
  del key s h := by unfold delOutstanding; split <;> exact h

/-! ## Handlers -/

/-- The part of the history that a handler adds is its own invocation. -/
theorem callHandler_proj (hg : Blind b g) (hr : ∀ u tr, g (.raised (.handler u tr)) = none) (e : HEntry)
    (tr : InTransfer) (s : Node) (hb : b ≤ s.nextNum) :
    (callHandler env e tr s).2.trace.filterMap g =
      (s.trace ++ [Ev.called (.handler e.uid tr)]).filterMap g := by
  generalize hK : (s.trace ++ [Ev.called (.handler e.uid tr)]).filterMap g = K
  have hu : UserClosed env b (fun s => s.trace.filterMap g = K) := hg.user K
  unfold callHandler
  rw [bind_run]
  have hrest : ∀ (result : Option Payload), Pres b (fun s => s.trace.filterMap g = K)
      (if isService e.type && !e.sniff then
        if !tr.header.request then PyM.pure ()
        else match result with
          | none => raise .uavcanException
          | some p => respond env (hookCall env) p tr.header.source tr.tid.toNat (some tr.header.prio) none
      else match result with
        | some _ => raise .uavcanException
        | none => PyM.pure ()) := by
    intro result
    split
    · split
      · exact Pres.pure _
      · cases result with
        | none => exact Pres.raise _
        | some p => exact respond_pres hu (hookCall_ok hu) _ _ _ _ _
    · cases result with
      | none => exact Pres.pure _
      | some p => exact Pres.raise _
  split
  · rename_i a s' hm
    have h1 : s'.trace.filterMap g = K ∧ Ext s s' := by
      split at hm
      · simp only [bind_run, get_run, pure_run] at hm
        injection hm with _ hm
        subst hm
        exact ⟨hK, log_ext _ s⟩
      · have h := runScript_pres hu (hookCall_ok hu) (fun s => s.trace.filterMap g = K) (.handler e.uid tr) s hb
          (fun s' _ hs' => (filterMap_snoc_none (hr ..)).trans hs') hK
        rw [hm] at h
        refine ⟨?_, h.2⟩
        rcases h.1 with h | h
        · exact h.1
        · exact h.1
    exact (hrest a s' (Nat.le_trans hb h1.2.2) h1.1).1
  · rename_i er s' hm
    split at hm
    · simp only [bind_run, get_run, pure_run] at hm
      cases hm
    · have h := runScript_pres hu (hookCall_ok hu) (fun s => s.trace.filterMap g = K) (.handler e.uid tr) s hb
        (fun s' _ hs' => (filterMap_snoc_none (hr ..)).trans hs') hK
      rw [hm] at h
      rcases h.1 with h | h
      · exact h.1
      · exact h.1

/-- What the dispatcher does with one handler that accepts the transfer. -/
def attempt (env : Env) (tr : InTransfer) (ce : Bool) (e : HEntry) : PyM Node Unit :=
  if ce then tryCatch (callHandler env e tr) (fun _ => PyM.pure ()) else callHandler env e tr

/-- If the handlers leave the list alone, the dispatcher's loop runs the accepting handlers of the list in order. -/
theorem handlersLoop_eq (tr : InTransfer) (gen : Nat) (L : List HEntry) (ce : Bool)
    (hstable : ∀ e ∈ L, ∀ s, s.hlists gen = L → (callHandler env e tr s).2.hlists gen = L) :
    ∀ fuel i s, i ≤ L.length → L.length < fuel + i → s.hlists gen = L → s.catchExc = ce →
      handlersLoop env tr gen fuel i s =
        PyM.forEach ((L.drop i).filter (fun e => HEntry.accepts e tr)) (attempt env tr ce) s := by
  intro fuel
  induction fuel with
  | zero =>
    intro i s hi' hi hL hce
    exfalso
    omega
  | succ fuel ih =>
    intro i s hi' hi hL hce
    simp only [handlersLoop, bind_run, get_run, hL]
    cases he : L[i]? with
    | none =>
      have : L.drop i = [] := List.drop_eq_nil_of_le (List.getElem?_eq_none_iff.1 he)
      rw [this]
      rfl
    | some e =>
      obtain ⟨hlt, hget⟩ := List.getElem?_eq_some_iff.1 he
      have hd : L.drop i = e :: L.drop (i + 1) := by rw [List.drop_eq_getElem_cons hlt, hget]
      have hmem : e ∈ L := hget ▸ List.getElem_mem hlt
      rw [hd, List.filter_cons]
      have hcatch := callHandler_pres (catchExc_recv (env := env) (b := 0) ce).toActClosed e tr s (Nat.zero_le _) hce
      have hst := hstable e hmem s hL
      simp only [bind_run]
      by_cases ha : HEntry.accepts e tr = true
      · simp only [ha, if_true, PyM.forEach, bind_run, attempt, hce, PyM.tryCatch]
        cases hc : callHandler env e tr s with
        | mk r s1 =>
          rw [hc] at hcatch hst
          cases r with
          | ok a =>
            simp only
            rw [ih (i + 1) s1 hlt (by omega) hst hcatch.1]
            cases ce
            · simp only [Bool.false_eq_true, if_false, hc]
            · simp only [if_true, PyM.tryCatch, hc]
          | error err =>
            simp only
            cases ce
            · simp only [Bool.false_eq_true, if_false, hc, raise_run]
            · simp only [if_true, PyM.tryCatch, hc, pure_run]
              rw [ih (i + 1) s1 hlt (by omega) hst hcatch.1]
      · simp only [ha, if_false, pure_run, Bool.false_eq_true]
        exact ih (i + 1) s hlt (by omega) hL hce

/-! ## Hooks -/

/-- If the hooks leave the list of hooks alone, the loop calls all of them in order, whatever they raise. -/
theorem hooksLoop_eq (call : Call → PyM Node (Option Payload)) (n : Nat) (arg : HookArg) (L : List Nat)
    (hstable : ∀ hk ∈ L, ∀ s, s.hooks = L → (call (.hook hk n arg) s).2.hooks = L) :
    ∀ fuel i s, i ≤ L.length → L.length < fuel + i → s.hooks = L →
      hooksLoop call n arg fuel i s =
        PyM.forEach (L.drop i) (fun hk => tryCatch (call (.hook hk n arg) >>- fun _ => PyM.pure ())
          (fun _ => PyM.pure ())) s := by
  intro fuel
  induction fuel with
  | zero =>
    intro i s hi' hi hL
    exfalso
    omega
  | succ fuel ih =>
    intro i s hi' hi hL
    simp only [hooksLoop, bind_run, get_run, hL]
    cases he : L[i]? with
    | none =>
      have : L.drop i = [] := List.drop_eq_nil_of_le (List.getElem?_eq_none_iff.1 he)
      rw [this]
      rfl
    | some hk =>
      obtain ⟨hlt, hget⟩ := List.getElem?_eq_some_iff.1 he
      have hd : L.drop i = hk :: L.drop (i + 1) := by rw [List.drop_eq_getElem_cons hlt, hget]
      have hmem : hk ∈ L := hget ▸ List.getElem_mem hlt
      have hst := hstable hk hmem s hL
      rw [hd]
      simp only [PyM.forEach, bind_run, PyM.tryCatch]
      cases hc : call (.hook hk n arg) s with
      | mk r s1 =>
        rw [hc] at hst
        cases r with
        | ok a =>
          simp only [pure_run]
          exact ih (i + 1) s1 hlt (by omega) hst
        | error err =>
          simp only [pure_run]
          exact ih (i + 1) s1 hlt (by omega) hst

end Dronecan.Node
