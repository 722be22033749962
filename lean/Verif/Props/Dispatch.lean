import Verif.Proofs.Dispatch
import Verif.Spec.Dispatch
import Verif.Props.Requests

/-!
# Dispatching, handler registration, spinning and hooks (C26, C27, C28, C32, C62)
-/

namespace Dronecan
open Node Dispatch PyM

variable (env : Env)

/-! ## C28 -/

theorem accepts_wants (e : HEntry) (tr : InTransfer) : HEntry.accepts e tr = decide (Wants e.type tr.header) := by
  unfold HEntry.accepts Wants
  split
  · rename_i h; simp [h]
  · rename_i t h
    rw [h]
    by_cases ht : t = (tr.header.dtid, tr.header.service)
    · simp [ht]
    · simp [ht]

theorem blind_handlerLog : Blind 0 handlerEv where
  armed _ _ _ _ := rfl
  cancelled _ _ := rfl
  accepted _ _ := rfl
  requested _ _ _ _ _ := rfl
  frame _ _ _ := rfl
  hook _ _ _ _ := rfl
  hookRaised _ _ _ _ := rfl

theorem callHandler_log (e : HEntry) (tr : InTransfer) (s : Node) :
    handlerLog (callHandler env e tr s).2.trace = handlerLog s.trace ++ [(e.uid, tr)] := by
  have h := callHandler_proj (env := env) blind_handlerLog (fun _ _ => rfl) e tr s (Nat.zero_le _)
  unfold handlerLog
  rw [h, List.filterMap_append]
  rfl

theorem callHandlers_eq (tr : InTransfer) (s : Node) (hst : TableStable env tr s) :
    callHandlers env tr s = PyM.forEach (wanting s tr) (attempt env tr s.catchExc) s := by
  simp only [callHandlers, bind_run, get_run]
  rw [handlersLoop_eq tr s.hcur (s.hlists s.hcur) s.catchExc hst _ 0 s (Nat.zero_le _) (by omega) rfl rfl, List.drop_zero,
    wanting]
  congr 2
  funext e
  exact accepts_wants e tr

/-- With exception catching on, every handler that wants the transfer is invoked exactly once, in order of
registration, whatever the handlers do and raise. -/
theorem C28_catching (tr : InTransfer) (s : Node) (hst : TableStable env tr s) (hce : s.catchExc = true) :
    (callHandlers env tr s).1 = .ok () ∧
      handlerLog (callHandlers env tr s).2.trace = handlerLog s.trace ++ (wanting s tr).map fun e => (e.uid, tr) := by
  rw [callHandlers_eq env tr s hst, hce]
  generalize wanting s tr = L
  clear hst hce
  induction L generalizing s with
  | nil => simp [PyM.forEach]
  | cons e L ih =>
    have hl := callHandler_log env e tr s
    simp only [PyM.forEach, bind_run, attempt, if_true, PyM.tryCatch]
    cases hc : callHandler env e tr s with
    | mk r s1 =>
      rw [hc] at hl
      simp only at hl
      have h2 := ih s1
      rw [hl] at h2
      cases r with
      | ok a => simpa using h2
      | error err => simpa using h2

/-- With exception catching off, either no handler raises and all of them are invoked; or the handlers up to the first
one that raises are invoked, and its exception propagates. -/
theorem C28_propagating (tr : InTransfer) (s : Node) (hst : TableStable env tr s) (hce : s.catchExc = false) :
    ((callHandlers env tr s).1 = .ok () ∧
      handlerLog (callHandlers env tr s).2.trace = handlerLog s.trace ++ (wanting s tr).map fun e => (e.uid, tr)) ∨
    ∃ pre e post err s1, wanting s tr = pre ++ e :: post ∧
      (callHandlers env tr s).1 = .error err ∧
      handlerLog (callHandlers env tr s).2.trace = handlerLog s.trace ++ (pre ++ [e]).map (fun e => (e.uid, tr)) ∧
      PyM.forEach pre (fun e => callHandler env e tr) s = (.ok (), s1) ∧
      callHandler env e tr s1 = callHandlers env tr s := by
  rw [callHandlers_eq env tr s hst, hce]
  generalize wanting s tr = L
  clear hst hce
  induction L generalizing s with
  | nil => left; simp [PyM.forEach]
  | cons e L ih =>
    have hl := callHandler_log env e tr s
    simp only [PyM.forEach, bind_run, attempt, Bool.false_eq_true, if_false]
    cases hc : callHandler env e tr s with
    | mk r s1 =>
      rw [hc] at hl
      simp only at hl
      cases r with
      | error err =>
        right
        refine ⟨[], e, L, err, s, rfl, rfl, by simpa using hl, rfl, hc⟩
      | ok a =>
        rcases ih s1 with h | ⟨pre, e', post, err, s2, h1, h2, h3, h4, h5⟩
        · left
          rw [hl] at h
          simpa using h
        · right
          refine ⟨e :: pre, e', post, err, s2, by rw [h1]; rfl, h2, ?_, ?_, h5⟩
          · show handlerLog (PyM.forEach L (attempt env tr false) s1).2.trace = _
            rw [h3, hl]
            simp
          · simp only [PyM.forEach, bind_run, hc]
            exact h4

/-! An example: three handlers, of which the first raises and the second is for another type. -/

/-- A message of type 7 from node 3. -/
def msgIn : InTransfer := { header := { dtid := 7, prio := 16, source := 3 }, tid := 4, payload := .comp none [], ts := none, canfd := false }

/-- The environment of the example: handler 0 raises. -/
def dispEnv : Env where
  db d sv := if d = 7 ∧ sv = false then some { dtid := 7, baseCrc := 0, msg := emptyTy } else none
  script _ c := match c with
    | .handler 0 _ => { acts := [(.raise .keyError, false)] }
    | .hook 0 _ _ => { acts := [(.raise .keyError, false)] }
    | _ => {}
  statusPayload _ := { dt := { dtid := 341, baseCrc := 0, msg := emptyTy }, val := .comp none [] }
  infoPayload _ := { dt := { dtid := 1, baseCrc := 0, msg := emptyTy }, val := .comp none [] }
  lim := 3

/-- The state of the example. -/
def dispNode (ce : Bool) : Node :=
  { nodeId := some 10
    catchExc := ce
    nextUid := 3
    hlists := fun j => if j = 0 then [⟨0, some (7, false), false, false⟩, ⟨1, some (8, false), false, false⟩,
      ⟨2, none, false, false⟩] else []
    hooks := [0, 1]
    nextHook := 2 }

theorem dispStable (ce : Bool) : TableStable dispEnv msgIn (dispNode ce) := by
  intro e he s' hs'
  have : e.uid = 0 ∨ e.uid = 1 ∨ e.uid = 2 := by
    simp only [dispNode, if_true, List.mem_cons, List.not_mem_nil, or_false] at he
    rcases he with rfl | rfl | rfl <;> simp
  have hbi : e.builtin = false := by
    simp only [dispNode, if_true, List.mem_cons, List.not_mem_nil, or_false] at he
    rcases he with rfl | rfl | rfl <;> rfl
  have hsv : (isService e.type && !e.sniff) = false := by
    simp only [dispNode, if_true, List.mem_cons, List.not_mem_nil, or_false] at he
    rcases he with rfl | rfl | rfl <;> rfl
  unfold callHandler
  rw [hbi, hsv]
  rcases this with h | h | h <;>
    simp [h, runScript, dispEnv, log, runActs, PyM.forEach, exec, PyM.tryCatch, hs']

example : (wanting (dispNode true) msgIn).map (·.uid) = [0, 2] := by decide +kernel
example : (handlerLog (callHandlers dispEnv msgIn (dispNode true)).2.trace).map (·.1) = [0, 2] := by
  rw [(C28_catching dispEnv msgIn _ (dispStable true) rfl).2]
  decide +kernel
example : (callHandlers dispEnv msgIn (dispNode false)).1 = .error .keyError ∧
    (handlerLog (callHandlers dispEnv msgIn (dispNode false)).2.trace).map (·.1) = [0] := by decide +kernel

/-! ## C26 -/

/-- Frames with a standard identifier have no effect at all. -/
theorem C26_standard_frames (raw : RawFrame) (h : raw.extended = false) (s : Node) : recvFrame env raw s = (.ok (), s) := by
  simp [recvFrame, h]

/-- An extended frame that does not complete a transfer changes only the reassembly state. -/
theorem C26_incomplete (raw : RawFrame) (s : Node) (h : raw.extended = true)
    (ho : (receiveFrame s.tm s.now { id := raw.id, bytes := raw.data, ts := raw.ts, canfd := raw.canfd }).2 = none) :
    ∃ tm, recvFrame env raw s = (.ok (), { s with tm }) := by
  refine ⟨(receiveFrame s.tm s.now { id := raw.id, bytes := raw.data, ts := raw.ts, canfd := raw.canfd }).1, ?_⟩
  simp only [recvFrame, h, tmReceive, bind_run, Bool.not_true, Bool.false_eq_true, if_false]
  rw [ho]
  rfl

/-- A message is offered to every handler registered for its type (or for all types), once, in order of registration,
and to no other handler. -/
theorem C26_message (tr : InTransfer) (s : Node) (hm : tr.header.service = false) (hst : TableStable env tr s)
    (hce : s.catchExc = true) :
    (dispatch env tr s).1 = .ok () ∧
      handlerLog (dispatch env tr s).2.trace = handlerLog s.trace ++ (wanting s tr).map fun e => (e.uid, tr) := by
  have : dispatch env tr s = callHandlers env tr s := by
    simp [dispatch, hm]
  rw [this]
  exact C28_catching env tr s hst hce

example : (handlerLog (dispatch dispEnv msgIn (dispNode true)).2.trace).map (·.1) = [0, 2] := by
  rw [(C26_message dispEnv msgIn _ rfl (dispStable true) rfl).2]
  decide +kernel

/-- A service request addressed to this node is offered to the handlers of the service. -/
theorem C26_request_here (tr : InTransfer) (s : Node) (hs : tr.header.service = true) (hr : tr.header.request = true)
    (hd : tr.header.dest = s.nodeId) (hst : TableStable env tr s) (hce : s.catchExc = true) :
    (dispatch env tr s).1 = .ok () ∧
      handlerLog (dispatch env tr s).2.trace = handlerLog s.trace ++ (wanting s tr).map fun e => (e.uid, tr) := by
  have : dispatch env tr s = callHandlers env tr s := by
    simp [dispatch, hs, hr, hd]
  rw [this]
  exact C28_catching env tr s hst hce

/-- A service request addressed to another node has no effect. -/
theorem C26_request_elsewhere (tr : InTransfer) (s : Node) (hs : tr.header.service = true) (hr : tr.header.request = true)
    (hd : tr.header.dest ≠ s.nodeId) : dispatch env tr s = (.ok (), s) := by
  simp [dispatch, hs, hr, hd, sniffing]

/-- A response addressed to this node reaches no handler, whatever its request's callback does. -/
theorem C26_response_here (tr : InTransfer) (s : Node) (hs : tr.header.service = true) (hr : tr.header.request = false)
    (hd : tr.header.dest = s.nodeId) : handlerLog (dispatch env tr s).2.trace = handlerLog s.trace := by
  simp only [dispatch, bind_run, get_run, hs, hr, hd, Bool.not_false, Bool.and_self, decide_true, if_true]
  cases hf : findRequest tr s.outstanding with
  | none => rfl
  | some kq =>
    obtain ⟨key, q⟩ := kq
    have hu := blind_handlerLog.user (env := env) (handlerLog s.trace)
    have h := runScript_pres hu (hookCall_ok hu) (fun s' => handlerLog s'.trace = handlerLog s.trace)
      (.response q.req (some tr)) (dropTimeout q.seq s).2 (Nat.zero_le _)
      (fun s' _ hs' => (filterMap_snoc_none rfl).trans hs') (filterMap_snoc_none rfl)
    simp only [bind_run, dropTimeout, modify_run]
    simp only [dropTimeout, modify_run] at h
    cases hc : runScript env (hookCall env) (.response q.req (some tr))
        { s with sched := (s.sched.cancel q.seq).getD s.sched } with
    | mk r s1 =>
      rw [hc] at h
      have h1 : handlerLog s1.trace = handlerLog s.trace := by
        rcases h.1 with h | h
        · exact h.1
        · exact h.1
      cases r with
      | error e => exact h1
      | ok a =>
        simp only [delOutstanding]
        split <;> exact h1

/-- A response addressed to another node has no effect unless a handler of that service sniffs responses. -/
theorem C26_response_elsewhere (tr : InTransfer) (s : Node) (hs : tr.header.service = true)
    (hr : tr.header.request = false) (hd : tr.header.dest ≠ s.nodeId)
    (hn : ∀ e ∈ s.hlists s.hcur, e.type = some (tr.header.dtid, true) → e.sniff = false) :
    dispatch env tr s = (.ok (), s) := by
  have : sniffing s tr = false := by
    simp only [sniffing, hs, hr, Bool.not_false, Bool.and_self, Bool.true_and]
    rw [List.any_eq_false]
    intro e he
    by_cases ht : e.type = some (tr.header.dtid, true)
    · simp [ht, hn e he ht]
    · simp [ht]
  simp [dispatch, hs, hr, hd, this]

/-- A response addressed to another node is offered to the handlers of the service if one of them sniffs responses. -/
theorem C26_response_sniffed (tr : InTransfer) (s : Node) (hs : tr.header.service = true)
    (hr : tr.header.request = false) (hd : tr.header.dest ≠ s.nodeId)
    (hn : ∃ e ∈ s.hlists s.hcur, e.type = some (tr.header.dtid, true) ∧ e.sniff = true)
    (hst : TableStable env tr s) (hce : s.catchExc = true) :
    (dispatch env tr s).1 = .ok () ∧
      handlerLog (dispatch env tr s).2.trace = handlerLog s.trace ++ (wanting s tr).map fun e => (e.uid, tr) := by
  have : sniffing s tr = true := by
    simp only [sniffing, hs, hr, Bool.not_false, Bool.and_self, Bool.true_and]
    rw [List.any_eq_true]
    obtain ⟨e, he, ht, hsn⟩ := hn
    exact ⟨e, he, by simp [ht, hsn]⟩
  have : dispatch env tr s = callHandlers env tr s := by
    simp [dispatch, hs, hr, hd, this]
  rw [this]
  exact C28_catching env tr s hst hce

/-- A service transfer from node 3 to node `dest`. -/
def svcIn (request : Bool) (dest : Nat) : InTransfer :=
  { header := { dtid := 7, prio := 16, source := 3, dest := some dest, service := true, request }, tid := 4,
    payload := .comp none [], ts := none, canfd := false }

/-- A node with a handler of service 7, which sniffs responses or not, and a handler of all types. -/
def sniffNode (sniff : Bool) : Node :=
  { nodeId := some 10, nextUid := 3,
    hlists := fun j => if j = 0 then [⟨1, some (7, true), sniff, false⟩, ⟨2, none, false, false⟩] else [] }

/-- Which handlers a transfer reaches. -/
def reached (tr : InTransfer) (s : Node) : List Nat := (handlerLog (dispatch dispEnv tr s).2.trace).map (·.1)

example : reached (svcIn true 10) (sniffNode false) = [1, 2] ∧ reached (svcIn true 11) (sniffNode true) = [] ∧
    reached (svcIn false 10) (sniffNode true) = [] ∧ reached (svcIn false 11) (sniffNode false) = [] ∧
    reached (svcIn false 11) (sniffNode true) = [1, 2] := by decide +kernel

/-! ## C27 -/

/-- Distinct handles, all of them used already. -/
def TableOk (s : Node) : Prop :=
  (s.hlists s.hcur).Pairwise (fun a b => a.uid ≠ b.uid) ∧ ∀ e ∈ s.hlists s.hcur, e.uid < s.nextUid

/-- The effect of calls on the handler table (exceptions are caught by the caller). -/
def applyH : HOp → Node → Node
  | .add type sniff, s => (addHandler type sniff false s).2
  | .remove h, s => (removeHandler h s).2
  | .removeType type, s => (removeHandlers type s).2

theorem eraseP_uid (l : List HEntry) (u : Nat) (h : l.Pairwise (fun a b => a.uid ≠ b.uid)) :
    l.eraseP (·.uid == u) = l.filter (fun e => decide (e.uid ≠ u)) := by
  induction l with
  | nil => rfl
  | cons a l ih =>
    rw [List.pairwise_cons] at h
    by_cases ha : a.uid = u
    · simp only [List.eraseP_cons, ha, beq_self_eq_true, cond_true, List.filter_cons, ne_eq, not_true_eq_false,
        decide_false, Bool.false_eq_true, if_false]
      symm
      rw [List.filter_eq_self]
      intro b hb
      have := h.1 b hb
      rw [ha] at this
      simpa using fun hc => this hc.symm
    · have hb : (a.uid == u) = false := by simpa using ha
      simp only [List.eraseP_cons, hb, cond_false, List.filter_cons, ne_eq, ha, not_false_eq_true, decide_true, if_true]
      rw [← ih h.2]

theorem addHandler_cur (type : Option (Nat × Bool)) (sniff bi : Bool) (s : Node) :
    (addHandler type sniff bi s).2.hlists (addHandler type sniff bi s).2.hcur =
      s.hlists s.hcur ++ [{ uid := s.nextUid, type, sniff := sniff && isService type, builtin := bi }] := by
  simp [addHandler]

theorem removeHandler_cur (u : Nat) (s : Node) (h : TableOk s) :
    (removeHandler u s).2.hlists (removeHandler u s).2.hcur =
      (s.hlists s.hcur).filter (fun e => decide (e.uid ≠ u)) := by
  rw [← eraseP_uid _ _ h.1]
  unfold removeHandler
  split
  · simp
  · rename_i hn
    symm
    apply List.eraseP_of_forall_not
    simpa using hn

theorem removeHandlers_cur (type : Option (Nat × Bool)) (s : Node) :
    (removeHandlers type s).2.hlists (removeHandlers type s).2.hcur =
      (s.hlists s.hcur).filter (fun e => decide (e.type ≠ type)) := by
  simp [removeHandlers]

theorem TableOk.filter {s s' : Node} (h : TableOk s) (hn : s'.nextUid = s.nextUid) (p : HEntry → Bool)
    (hl : s'.hlists s'.hcur = (s.hlists s.hcur).filter p) : TableOk s' := by
  constructor
  · rw [hl]; exact h.1.sublist List.filter_sublist
  · rw [hl, hn]
    intro e he
    exact h.2 e ((List.mem_filter.1 he).1)

theorem removeHandler_nextUid (u : Nat) (s : Node) : (removeHandler u s).2.nextUid = s.nextUid := by
  unfold removeHandler; split <;> rfl

theorem TableOk.add {s : Node} (h : TableOk s) (type : Option (Nat × Bool)) (sniff bi : Bool) :
    TableOk (addHandler type sniff bi s).2 := by
  constructor
  · rw [addHandler_cur, List.pairwise_append]
    refine ⟨h.1, List.pairwise_singleton .., ?_⟩
    intro a ha c hc
    simp only [List.mem_cons, List.not_mem_nil, or_false] at hc
    subst hc
    exact Nat.ne_of_lt (h.2 a ha)
  · rw [addHandler_cur]
    intro e he
    show e.uid < s.nextUid + 1
    rcases List.mem_append.1 he with he | he
    · exact Nat.lt_succ_of_lt (h.2 e he)
    · simp only [List.mem_cons, List.not_mem_nil, or_false] at he
      subst he
      exact Nat.lt_succ_self _

theorem TableOk.apply {s : Node} (h : TableOk s) (op : HOp) : TableOk (applyH op s) := by
  cases op with
  | add type sniff => exact h.add type sniff false
  | remove u => exact h.filter (removeHandler_nextUid u s) _ (removeHandler_cur u s h)
  | removeType type => exact h.filter rfl _ (removeHandlers_cur type s)

/-- After any sequence of registrations and removals, the table holds the handlers added and not removed since, in order
of registration. -/
theorem C27_table (ops : List HOp) (s : Node) (h : TableOk s) :
    table (ops.foldl (fun s op => applyH op s) s) =
      (table s).filter (fun e => kept e.1 e.2 ops) ++ survivors s.nextUid ops := by
  induction ops generalizing s with
  | nil =>
    have hk : (table s).filter (fun e => kept e.1 e.2 []) = table s := by
      rw [List.filter_eq_self]
      intro e _
      simp [kept]
    rw [hk]
    simp [survivors]
  | cons op ops ih =>
    rw [List.foldl_cons, ih _ (h.apply op)]
    cases op with
    | add type sniff =>
      have ht : table (applyH (.add type sniff) s) = table s ++ [(s.nextUid, type)] := by
        show List.map _ ((addHandler type sniff false s).2.hlists (addHandler type sniff false s).2.hcur) = _
        rw [addHandler_cur, List.map_append]
        rfl
      have hkept : ∀ e : Nat × Option (Nat × Bool), kept e.1 e.2 (.add type sniff :: ops) = kept e.1 e.2 ops := by
        intro e; simp [kept]
      have hn : (applyH (.add type sniff) s).nextUid = s.nextUid + 1 := rfl
      rw [ht, List.filter_append, hn, survivors]
      simp only [hkept]
      by_cases hk : kept s.nextUid type ops = true
      · simp [hk]
      · simp [hk]
    | remove u =>
      have ht : table (applyH (.remove u) s) = (table s).filter (fun e => decide (e.1 ≠ u)) := by
        show List.map _ ((removeHandler u s).2.hlists (removeHandler u s).2.hcur) = _
        rw [removeHandler_cur u s h, table, List.filter_map]
        rfl
      have hn : (applyH (.remove u) s).nextUid = s.nextUid := removeHandler_nextUid u s
      rw [ht, List.filter_filter, hn, survivors]
      congr 2
      funext e
      simp only [kept, List.mem_cons, HOp.remove.injEq, reduceCtorEq, false_or, not_or]
      by_cases hu : e.1 = u <;> simp [hu]
    | removeType type =>
      have ht : table (applyH (.removeType type) s) = (table s).filter (fun e => decide (e.2 ≠ type)) := by
        show List.map _ ((removeHandlers type s).2.hlists (removeHandlers type s).2.hcur) = _
        rw [removeHandlers_cur type s, table, List.filter_map]
        rfl
      rw [ht, List.filter_filter, survivors]
      congr 2
      funext e
      simp only [kept, List.mem_cons, HOp.removeType.injEq, reduceCtorEq, false_or, not_or]
      by_cases hu : e.2 = type <;> simp [hu]

example : table ([HOp.add (some (1, false)) false, .add (some (2, false)) false, .add (some (1, false)) false, .remove 0,
      .remove 0, .add (some (1, true)) true, .removeType (some (2, false))].foldl (fun s op => applyH op s) {}) =
    [(2, some (1, false)), (3, some (1, true))] := by
  rw [C27_table _ _ ⟨List.Pairwise.nil, fun _ h => (List.not_mem_nil h).elim⟩]
  decide +kernel

/-- Every history keeps the handles distinct. -/
theorem tableOk_top : TopClosed env (fun _ s => TableOk s) where
  user _ :=
    { tick _ _ h := h
      defer _ _ h := h
      periodic _ _ h := h
      cancel i s h := by
        unfold Node.cancel
        split
        · split <;> exact h
        · exact h
      acceptReq _ _ _ s h := by unfold acceptTid; split <;> exact h
      acceptMsg _ _ s h := by unfold acceptTid; split <;> exact h
      acceptResponse _ _ _ _ s h := by unfold Node.acceptResponse; split <;> exact h
      sendFrame _ _ _ s _ _ _ h := by unfold Node.sendFrame; split <;> exact h
      registerRequest _ _ _ _ _ _ _ _ _ _ h := h
      addHandler type sniff s h := h.add type sniff false
      removeHandler u s h := h.apply (.remove u)
      removeHandlers type _ h := h.apply (.removeType type)
      addHook _ h := h
      removeHook _ s h := by unfold Node.removeHook; split <;> exact h
      setNodeId _ s h := by
        unfold Node.setNodeId
        split
        · split <;> exact h
        · exact h
      setCanfd _ _ h := h
      logHook _ _ _ _ _ _ h := h
      logHookRaised _ _ _ _ _ _ h := h }
  fire s e s' h ht := by
    unfold takeDue at ht
    split at ht
    · cases ht
    · split at ht
      · cases ht
      · injection ht with ht
        injection ht with h1 h2
        subst h2
        unfold beforeCallback
        split <;> exact h
  raisedTimer _ _ h := h
  raisedTimeout _ _ h := h
  tm _ _ h := h
  rx _ _ _ h := h
  handler _ _ _ h := h
  handlerRaised _ _ _ h := h
  deliver _ _ _ _ _ _ _ _ h := h
  deliverRaised _ _ _ _ h := h
  del key s h := by unfold delOutstanding; split <;> exact h
  read _ _ h := h

/-- A handler that was removed never comes back. -/
theorem gone_top (u : Nat) : TopClosed env (fun _ s => TableOk s ∧ u < s.nextUid ∧ ∀ e ∈ s.hlists s.hcur, e.uid ≠ u) where
  user K :=
    { tick _ _ h := h
      defer _ _ h := h
      periodic _ _ h := h
      cancel i s h := by
        unfold Node.cancel
        split
        · split <;> exact h
        · exact h
      acceptReq _ _ _ s h := by unfold acceptTid; split <;> exact h
      acceptMsg _ _ s h := by unfold acceptTid; split <;> exact h
      acceptResponse _ _ _ _ s h := by unfold Node.acceptResponse; split <;> exact h
      sendFrame _ _ _ s _ _ _ h := by unfold Node.sendFrame; split <;> exact h
      registerRequest _ _ _ _ _ _ _ _ _ _ h := h
      addHandler type sniff s h := by
        refine ⟨h.1.add type sniff false, Nat.lt_succ_of_lt h.2.1, ?_⟩
        intro e he
        rw [addHandler_cur] at he
        rcases List.mem_append.1 he with he | he
        · exact h.2.2 e he
        · simp only [List.mem_cons, List.not_mem_nil, or_false] at he
          subst he
          exact Nat.ne_of_gt h.2.1
      removeHandler v s h := by
        refine ⟨h.1.apply (.remove v), (removeHandler_nextUid v s).symm ▸ h.2.1, ?_⟩
        intro e he
        rw [removeHandler_cur v s h.1] at he
        exact h.2.2 e ((List.mem_filter.1 he).1)
      removeHandlers type s h := by
        refine ⟨h.1.apply (.removeType type), h.2.1, ?_⟩
        intro e he
        rw [removeHandlers_cur type s] at he
        exact h.2.2 e ((List.mem_filter.1 he).1)
      addHook _ h := h
      removeHook _ s h := by unfold Node.removeHook; split <;> exact h
      setNodeId _ s h := by
        unfold Node.setNodeId
        split
        · split <;> exact h
        · exact h
      setCanfd _ _ h := h
      logHook _ _ _ _ _ _ h := h
      logHookRaised _ _ _ _ _ _ h := h }
  fire s e s' h ht := by
    unfold takeDue at ht
    split at ht
    · cases ht
    · split at ht
      · cases ht
      · injection ht with ht
        injection ht with h1 h2
        subst h2
        unfold beforeCallback
        split <;> exact h
  raisedTimer _ _ h := h
  raisedTimeout _ _ h := h
  tm _ _ h := h
  rx _ _ _ h := h
  handler _ _ _ h := h
  handlerRaised _ _ _ h := h
  deliver _ _ _ _ _ _ _ _ h := h
  deliverRaised _ _ _ _ h := h
  del key s h := by unfold delOutstanding; split <;> exact h
  read _ _ h := h

/-- In every state that a program can reach, the handles are distinct (the hypothesis of the theorems above). -/
theorem C27_handles_distinct (ops : List Op) (nid : Option Nat) (t : Int) (iv : Option Int) (ce fd : Bool)
    (it : Nat × Bool) : TableOk (run env ops (init nid t iv ce fd it)) :=
  (run_pres (tableOk_top env) ops _
    (TableOk.add (s := { now := t, nodeId := nid, catchExc := ce, sendCanfd := fd,
                         sched := (Sched.enterabs {} (t + effTimeout iv) 0 (.status (effTimeout iv))).2 })
      ⟨List.Pairwise.nil, fun _ h => (List.not_mem_nil h).elim⟩ (some it) false true)).1

/-- Removing a handler that is not registered raises `ValueError` (`try_remove` returns `False`) and changes nothing. -/
theorem C27_remove_absent (u : Nat) (s : Node) (h : ∀ e ∈ s.hlists s.hcur, e.uid ≠ u) :
    removeHandler u s = (.error .valueError, s) ∧ tryRemoveHandler u s = (.ok false, s) := by
  have hr : removeHandler u s = (.error .valueError, s) := by
    unfold removeHandler
    rw [if_neg]
    simpa using h
  exact ⟨hr, by simp [tryRemoveHandler, hr]⟩

/-- Removing a registered handler succeeds and removes just that handler; removing it again fails, whatever happened in
the meantime. -/
theorem C27_remove_twice (u : Nat) (s : Node) (h : TableOk s) (hu : ∃ e ∈ s.hlists s.hcur, e.uid = u) :
    (removeHandler u s).1 = .ok () ∧ tryRemoveHandler u s = (.ok true, (removeHandler u s).2) ∧
    table (removeHandler u s).2 = (table s).filter (fun e => decide (e.1 ≠ u)) ∧
    ∀ ops, removeHandler u (run env ops (removeHandler u s).2) = (.error .valueError, run env ops (removeHandler u s).2) ∧
      tryRemoveHandler u (run env ops (removeHandler u s).2) = (.ok false, run env ops (removeHandler u s).2) := by
  obtain ⟨e, he, heu⟩ := hu
  have hany : (s.hlists s.hcur).any (·.uid == u) = true := List.any_eq_true.2 ⟨e, he, by simp [heu]⟩
  have hr : removeHandler u s = (.ok (), (removeHandler u s).2) := by
    unfold removeHandler
    rw [if_pos hany]
  have ht : table (removeHandler u s).2 = (table s).filter (fun e => decide (e.1 ≠ u)) := by
    show List.map _ ((removeHandler u s).2.hlists (removeHandler u s).2.hcur) = _
    rw [removeHandler_cur u s h, table, List.filter_map]
    rfl
  refine ⟨by rw [hr], ?_, ht, ?_⟩
  · unfold tryRemoveHandler removeHandler
    rw [if_pos hany]
  · intro ops
    apply C27_remove_absent
    refine (run_pres (gone_top env u) ops (removeHandler u s).2 ⟨h.apply (.remove u), ?_, ?_⟩).1.2.2
    · rw [removeHandler_nextUid, ← heu]
      exact h.2 e he
    · intro e' he'
      rw [removeHandler_cur u s h] at he'
      simpa using (List.mem_filter.1 he').2

/-- `remove_handlers(T)` removes exactly the handlers of `T`. -/
theorem C27_remove_type (type : Option (Nat × Bool)) (s : Node) :
    (removeHandlers type s).1 = .ok () ∧
      table (removeHandlers type s).2 = (table s).filter (fun e => decide (e.2 ≠ type)) := by
  refine ⟨rfl, ?_⟩
  show List.map _ ((removeHandlers type s).2.hlists (removeHandlers type s).2.hcur) = _
  rw [removeHandlers_cur type s, table, List.filter_map]
  rfl

example : TableOk (dispNode true) ∧ ∃ e ∈ (dispNode true).hlists (dispNode true).hcur, e.uid = 1 := by
  refine ⟨⟨?_, ?_⟩, ?_⟩ <;> decide +kernel

/-! ## C32 -/

theorem blind_read : BlindRecv 0 readEv where
  armed _ _ _ _ := rfl
  cancelled _ _ := rfl
  accepted _ _ := rfl
  requested _ _ _ _ _ := rfl
  frame _ _ _ := rfl
  hook _ _ _ _ := rfl
  hookRaised _ _ _ _ := rfl
  fired _ _ _ := rfl
  timer _ := rfl
  timerRaised _ := rfl
  response _ _ := rfl
  responseRaised _ _ := rfl
  handler _ _ := rfl
  handlerRaised _ _ := rfl
  received _ _ := rfl

theorem recvFrame_reads (f : RawFrame) (s : Node) : readLog (recvFrame env f s).2.trace = readLog s.trace :=
  (recvFrame_pres (blind_read.recv (env := env) (readLog s.trace)) f s (Nat.zero_le _) rfl).1

theorem poll_reads (ds : List Nat) (s : Node) : readLog (poll env ds s).2.trace = readLog s.trace :=
  (poll_pres (blind_read.recv (env := env) (readLog s.trace)).toPollClosed ds s (Nat.zero_le _) rfl).1

theorem readLog_log (f : Option RawFrame) (s : Node) : readLog (log (.read f) s).2.trace = readLog s.trace ++ [f] :=
  filterMap_snoc_some rfl

theorem takeWhile_all (l : List (Option RawFrame)) : ∀ a ∈ l.takeWhile Option.isSome, a.isSome = true := by
  induction l with
  | nil => intro a ha; exact (List.not_mem_nil ha).elim
  | cons x l ih =>
    intro a ha
    rw [List.takeWhile_cons] at ha
    split at ha
    · rename_i hx
      rcases List.mem_cons.1 ha with rfl | ha
      · exact hx
      · exact ih a ha
    · exact (List.not_mem_nil ha).elim

theorem drain_reads : ∀ (reads : List (Option RawFrame)) (k : Nat) (s : Node) (n : Nat) (s' : Node),
    drain env reads k s = (.ok n, s') →
      n = k + (reads.takeWhile Option.isSome).length ∧
      readLog s'.trace = readLog s.trace ++ reads.takeWhile Option.isSome ++ [none] := by
  intro reads
  induction reads with
  | nil =>
    intro k s n s' h
    simp only [drain, bind_run, pure_run] at h
    have h0 : log (.read none) s = (.ok (), (log (.read none) s).2) := rfl
    rw [h0] at h
    injection h with h1 h2
    injection h1 with h1
    subst h1 h2
    exact ⟨rfl, by rw [readLog_log]; simp⟩
  | cons r reads ih =>
    intro k s n s' h
    cases r with
    | none =>
      simp only [drain, bind_run, pure_run] at h
      have h0 : log (.read none) s = (.ok (), (log (.read none) s).2) := rfl
      rw [h0] at h
      injection h with h1 h2
      injection h1 with h1
      subst h1 h2
      exact ⟨rfl, by rw [readLog_log]; simp⟩
    | some f =>
      simp only [drain, bind_run] at h
      have h0 : log (.read (some f)) s = (.ok (), (log (.read (some f)) s).2) := rfl
      rw [h0] at h
      simp only at h
      have hr := recvFrame_reads env f (log (.read (some f)) s).2
      cases hc : recvFrame env f (log (.read (some f)) s).2 with
      | mk r s1 =>
        rw [hc] at h hr
        cases r with
        | error e => cases h
        | ok a =>
          simp only at h hr
          obtain ⟨h1, h2⟩ := ih (k + 1) s1 n s' h
          rw [readLog_log] at hr
          constructor
          · rw [h1]
            simp only [List.takeWhile_cons, Option.isSome_some, if_true, List.length_cons]
            omega
          · rw [h2, hr]
            simp

/-- When `spin(0)` returns, it has read the queued frames up to the first empty read, in order and nothing after it, and it
returns their number. -/
theorem C32_spin0 (reads : List (Option RawFrame)) (clock : List Nat) (s s' : Node) (n : Nat)
    (h : spin0 env reads clock s = (.ok n, s')) :
    n = (reads.takeWhile Option.isSome).length ∧
      readLog s'.trace = readLog s.trace ++ reads.takeWhile Option.isSome ++ [none] ∧
      framesRead s'.trace = framesRead s.trace + n := by
  simp only [spin0, bind_run, pure_run] at h
  cases hd : drain env reads 0 s with
  | mk r s1 =>
    rw [hd] at h
    cases r with
    | error e => cases h
    | ok m =>
      simp only at h
      have hp := poll_reads env clock s1
      cases hc : poll env clock s1 with
      | mk r2 s2 =>
        rw [hc] at h hp
        cases r2 with
        | error e => cases h
        | ok a =>
          injection h with h1 h2
          injection h1 with h1
          subst h1 h2
          obtain ⟨h1, h2⟩ := drain_reads env reads 0 s m s1 hd
          rw [Nat.zero_add] at h1
          rw [h2] at hp
          refine ⟨h1, hp, ?_⟩
          simp only [framesRead]
          rw [hp, h1]
          simp only [List.countP_append, List.countP_cons, List.countP_nil, Option.isSome_none, Bool.false_eq_true,
            if_false, Nat.add_zero]
          congr 1
          rw [List.countP_eq_length]
          intro a ha
          exact takeWhile_all reads a ha

/-- `spin(0)` hands each frame to the receive path, one after the other; then it polls the scheduler. -/
theorem C32_spin0_receives (fs : List RawFrame) (rest : List (Option RawFrame)) (clock : List Nat) :
    spin0 env (fs.map some ++ none :: rest) clock =
      (PyM.forEach fs (fun f => log (.read (some f)) >>- fun _ => recvFrame env f) >>- fun _ =>
        log (.read none) >>- fun _ => poll env clock >>- fun _ => PyM.pure fs.length) := by
  have key : ∀ (fs : List RawFrame) (k : Nat) (s : Node), drain env (fs.map some ++ none :: rest) k s =
      (PyM.forEach fs (fun f => log (.read (some f)) >>- fun _ => recvFrame env f) >>- fun _ =>
        log (.read none) >>- fun _ => PyM.pure (k + fs.length)) s := by
    intro fs
    induction fs with
    | nil => intro k s; rfl
    | cons f fs ih =>
      intro k s
      simp only [List.map_cons, List.cons_append, drain, bind_run, PyM.forEach]
      have h0 : log (.read (some f)) s = (.ok (), (log (.read (some f)) s).2) := rfl
      rw [h0]
      simp only
      cases hc : recvFrame env f (log (.read (some f)) s).2 with
      | mk r s1 =>
        cases r with
        | error e => rfl
        | ok a =>
          simp only
          rw [ih (k + 1) s1]
          simp only [bind_run, List.length_cons]
          rw [show k + 1 + fs.length = k + (fs.length + 1) by omega]
  funext s
  simp only [spin0, bind_run]
  rw [key fs 0 s]
  simp only [bind_run, Nat.zero_add]
  cases PyM.forEach fs (fun f => log (.read (some f)) >>- fun _ => recvFrame env f) s with
  | mk r s1 =>
    cases r with
    | error e => rfl
    | ok a => rfl

/-- A frame with a message of type 7 from node 3. -/
def msgFrame (tid : Nat) : RawFrame := { id := (16 <<< 24) ||| (7 <<< 8) ||| 3, data := [BitVec.ofNat 8 (0xC0 ||| tid)] }

example : (spin0 dispEnv [some (msgFrame 0), some (msgFrame 1), none, some (msgFrame 2)] [0]
    (init (some 10) 0 none true false (1, true))).1 = .ok 2 := by decide +kernel

/-- `spin(timeout)` returns the number of frames received while it ran. -/
def C32_statement : Prop := ∀ (env : Env) (timeout : Option Int) (first : Round) (rounds : List Round) (s s' : Node) (n : Nat),
  spinTimeout env timeout first rounds s = (.ok n, s') → framesRead s'.trace = framesRead s.trace + n

/-- It does not: the frames received after the first call of `receive` are not counted. Here two frames are received and
`spin` returns 1. -/
theorem C32_counterexample : ¬ C32_statement := by
  intro h
  have h1 : (spinTimeout dispEnv (some 100) ⟨[0], some (msgFrame 0), 1⟩ [⟨[0], some (msgFrame 1), 1⟩]
    (init (some 10) 0 none true false (1, true))).1 = .ok 1 := by decide +kernel
  have h2 : framesRead (spinTimeout dispEnv (some 100) ⟨[0], some (msgFrame 0), 1⟩ [⟨[0], some (msgFrame 1), 1⟩]
    (init (some 10) 0 none true false (1, true))).2.trace = 2 := by decide +kernel
  have h3 : framesRead (init (some 10) 0 none true false (1, true)).trace = 0 := by decide +kernel
  generalize hc : spinTimeout dispEnv (some 100) ⟨[0], some (msgFrame 0), 1⟩ [⟨[0], some (msgFrame 1), 1⟩]
    (init (some 10) 0 none true false (1, true)) = x at h1 h2
  obtain ⟨r, s'⟩ := x
  simp only at h1 h2
  subst h1
  have := h _ _ _ _ _ _ _ hc
  omega

theorem executeOnce_reads (r : Round) (s : Node) :
    (∀ n s', executeOnce env r s = (.ok n, s') →
      n = (if r.frame.isSome then 1 else 0) ∧ framesRead s'.trace = framesRead s.trace + n) ∧
    framesRead s.trace ≤ framesRead (executeOnce env r s).2.trace := by
  have hp := poll_reads env r.clock s
  simp only [executeOnce, bind_run]
  cases hc : poll env r.clock s with
  | mk x s1 =>
    rw [hc] at hp
    simp only at hp
    cases x with
    | error e =>
      refine ⟨(fun n s' h => by cases h), ?_⟩
      simp [framesRead, hp]
    | ok a =>
      simp only [tick, modify_run]
      have h0 : log (.read r.frame) { s1 with now := s1.now + r.elapsed } =
        (.ok (), (log (.read r.frame) { s1 with now := s1.now + r.elapsed }).2) := rfl
      rw [h0]
      simp only
      have hl := readLog_log r.frame { s1 with now := s1.now + r.elapsed }
      generalize (log (.read r.frame) { s1 with now := s1.now + r.elapsed }).2 = s2 at hl
      simp only [hp] at hl
      cases hf : r.frame with
      | none =>
        rw [hf] at hl
        simp only [pure_run, framesRead, hl]
        refine ⟨fun n s' h => ?_, by simp⟩
        injection h with h1 h2
        injection h1 with h1
        subst h1 h2
        rw [hl]
        simp
      | some f =>
        rw [hf] at hl
        have hr := recvFrame_reads env f s2
        simp only [bind_run]
        cases hc2 : recvFrame env f s2 with
        | mk y s3 =>
          rw [hc2, hl] at hr
          simp only at hr
          cases y with
          | error e => exact ⟨(fun n s' h => by cases h), by simp [framesRead, hr]⟩
          | ok b =>
            simp only [pure_run, framesRead, hr]
            refine ⟨fun n s' h => ?_, by simp⟩
            injection h with h1 h2
            injection h1 with h1
            subst h1 h2
            rw [hr]
            simp

theorem spinLoop_reads (dl : Option Int) : ∀ (rs : List Round) (s : Node),
    framesRead s.trace ≤ framesRead (spinLoop env dl rs s).2.trace := by
  intro rs
  induction rs with
  | nil => intro s; exact Nat.le_refl _
  | cons r rs ih =>
    intro s
    simp only [spinLoop, bind_run, get_run]
    split
    · have h := (executeOnce_reads env r s).2
      simp only [bind_run]
      cases hc : executeOnce env r s with
      | mk x s1 =>
        rw [hc] at h
        cases x with
        | error e => exact h
        | ok a => exact Nat.le_trans h (ih s1)
    · exact Nat.le_refl _

/-- What `spin(timeout)` does return: the number of frames (0 or 1) received in the first round, which is never more than
the number received while it ran. Missing for the statement: equality when later rounds receive frames, which does
not hold. -/
theorem C32_spin_timeout_partial (timeout : Option Int) (first : Round) (rounds : List Round) (s s' : Node) (n : Nat)
    (h : spinTimeout env timeout first rounds s = (.ok n, s')) :
    n = (if first.frame.isSome then 1 else 0) ∧ framesRead s.trace + n ≤ framesRead s'.trace ∧
      (rounds = [] → framesRead s'.trace = framesRead s.trace + n) := by
  simp only [spinTimeout, bind_run, get_run] at h
  have he := (executeOnce_reads env first s).1
  cases hc : executeOnce env first s with
  | mk x s1 =>
    rw [hc] at h
    cases x with
    | error e => cases h
    | ok m =>
      simp only at h
      obtain ⟨h1, h2⟩ := he m s1 hc
      have hl := spinLoop_reads env (timeout.map (s.now + ·)) rounds s1
      cases hs : spinLoop env (timeout.map (s.now + ·)) rounds s1 with
      | mk y s2 =>
        rw [hs] at h hl
        cases y with
        | error e => cases h
        | ok u =>
          simp only [pure_run] at h
          injection h with h3 h4
          injection h3 with h3
          subst h3 h4
          refine ⟨h1, by rw [← h2]; exact hl, ?_⟩
          rintro rfl
          simp only [spinLoop, pure_run] at hs
          injection hs with _ hs
          subst hs
          exact h2

example : (spinTimeout dispEnv (some 100) ⟨[0], some (msgFrame 0), 1⟩ [⟨[0], some (msgFrame 1), 1⟩]
    (init (some 10) 0 none true false (1, true))).1 = .ok 1 := by decide +kernel

end Dronecan
