import Verif.Proofs.Requests
import Verif.Props.Timers

/-!
# Service requests (C24, C25)

Histories are those of an arbitrary program with arbitrary callbacks, as for timers. `requested r ..` in the history is
the point where `Node.request` accepts request `r`; `called (.response r x)` is an invocation of its callback.
-/

namespace Dronecan
open Timers Node Requests

variable (env : Env) (ops : List Op) (nid : Option Nat) (t : Int) (iv : Option Int) (ce fd : Bool) (it : Nat × Bool)

/-! An example program. Node 10 sends two requests to node 20. The first is answered twice, and a forged answer with
another transfer ID comes in between; the second is never answered. The callback of the first request sends another
one. -/

/-- An empty structure type. -/
def emptyTy : Ty := .comp false []

/-- The service of the example. -/
def svcType : DataType := { dtid := 5, baseCrc := 0, msg := emptyTy, resp := emptyTy }

/-- The example environment; if `bad`, the callback of request 0 raises. -/
def svcEnv (bad : Bool) : Env where
  db d sv := if d = 5 ∧ sv = true then some svcType else none
  script _ c := match c with
    | .response 0 (some _) =>
      if bad then { acts := [(.raise .valueError, false)] }
      else { acts := [(.request { dt := svcType, val := .comp none [] } 21 none (some 7) none, false)] }
    | _ => {}
  statusPayload _ := { dt := { dtid := 341, baseCrc := 0, msg := emptyTy }, val := .comp none [] }
  infoPayload _ := { dt := { dtid := 1, baseCrc := 0, msg := emptyTy }, val := .comp none [] }
  lim := 3

/-- A response of node 20 to node 10 with the given transfer ID. -/
def svcAnswer (tid : Nat) : RawFrame :=
  { id := (20 <<< 24) ||| (5 <<< 16) ||| (10 <<< 8) ||| 0x80 ||| 20, data := [BitVec.ofNat 8 (0xC0 ||| tid)] }

/-- The example program. -/
def svcOps : List Op :=
  [.api (.request { dt := svcType, val := .comp none [] } 20 none (some 10) none),
   .api (.request { dt := svcType, val := .comp none [] } 20 none (some 10) none),
   .frame (svcAnswer 9), .frame (svcAnswer 0), .frame (svcAnswer 0), .poll [10, 0, 0, 0]]

/-- The invocations of request callbacks: which request, and whether with a response. -/
def svcLog (tr : List Ev) : List (Nat × Bool) := tr.filterMap fun
  | .called (.response r x) => some (r, x.isSome)
  | _ => none

/-- The history of the example program. -/
def svcHistory (bad : Bool) : List Ev := history (svcEnv bad) svcOps (some 10) 0 none true false (1, true)

example : svcLog (svcHistory false) = [(0, true), (2, false), (1, false)] ∧
    (svcHistory false).any isRespRaise = false := by decide +kernel

/-! ## C24 -/

/-- When `request` returns normally it has accepted a request to `dest`, whose deadline is the given timeout (one second
by default) after the current time. -/
theorem C24_request_accepted (call : Call → PyM Node (Option Payload)) (p : Payload) (dest : Nat) (prio : Option Nat)
    (timeout : Option Int) (canfd : Option Bool) (s s' : Node)
    (h : request env call p dest prio timeout canfd s = (.ok (), s')) :
    ∃ pre r n hd tid deadline, s'.trace = pre ++ [.requested r n hd tid deadline] ∧
      hd.dest = some dest ∧ hd.service = true ∧ hd.request = true ∧ hd.dtid = p.dt.dtid ∧
      (∀ d, timeout = some d → d ≠ 0 → deadline = s'.now + d) ∧ (timeout = none → deadline = s'.now + sec) := by
  simp only [request, PyM.bind_run, PyM.get_run] at h
  split at h
  rotate_left
  · cases h
  rename_i a s1 _
  obtain ⟨n, nid, tid⟩ := a
  simp only at h
  split at h
  rotate_left
  · cases h
  rename_i tr s2 hst
  simp only [PyM.lift_run] at h
  split at h
  rotate_left
  · cases h
  rename_i mid s3 he
  injection he with _ he
  subst he
  simp only [registerRequest] at h
  injection h with _ h
  subst h
  have hh : tr.header =
      { ({ prio := effPrio prio, source := nid, dest := some dest, service := true, request := true } : Header) with
        dtid := p.dt.dtid } := by
    simp only [sendTransfer, PyM.bind_run, PyM.lift_run] at hst
    split at hst
    rotate_left
    · cases hst
    rename_i t0 _ hm
    injection hm with hm1 hm2
    split at hst
    rotate_left
    · cases hst
    split at hst
    rotate_left
    · cases hst
    rename_i tf _ hf
    injection hf with hf1 hf2
    obtain ⟨t', frames⟩ := tf
    simp only at hst
    split at hst
    rotate_left
    · cases hst
    injection hst with hst _
    injection hst with hst
    subst hst
    rw [(toFrames_header hf1).1, (mkTransfer_header hm1).1]
  refine ⟨s2.trace, s2.nextReq, n, tr.header, tr.tid, s2.now + effTimeout timeout, rfl, ?_⟩
  rw [hh]
  refine ⟨rfl, rfl, rfl, rfl, ?_, ?_⟩
  · rintro d rfl hd
    unfold effTimeout
    split
    · rename_i h; cases h
    · rename_i h; cases h; exact absurd rfl hd
    · rename_i h; cases h; rfl
  · rintro rfl; rfl

/-- **C24**: as long as request callbacks do not raise, every callback is invoked at most once, and only callbacks of
accepted requests are invoked. -/
theorem C24_at_most_once (hr : (history env ops nid t iv ce fd it).any isRespRaise = false) (r : Nat) :
    calls (history env ops nid t iv ce fd it) r ≤ 1 ∧
      (0 < calls (history env ops nid t iv ce fd it) r →
        ∃ n h tid d, .requested r n h tid d ∈ history env ops nid t iv ce fd it) := by
  have h := (run_pres (Inv.top env) ops _ (Inv.init nid t iv ce fd it)).1.2 hr
  have hl : _ + calls (history env ops nid t iv ce fd it) r = _ := h.load r
  constructor
  · split at hl <;> omega
  · intro hp
    split at hl
    · exact h.reqd r ‹_›
    · omega

/-- **C24**: when the scheduler has been polled at or after the deadline of an accepted request, its callback has been
invoked exactly once. -/
theorem C24_exactly_once (clock : List Nat) (s' : Node) (next : Int)
    (h : poll env clock (run env ops (init nid t iv ce fd it)) = (.ok (some next), s'))
    (hr : s'.trace.any isRespRaise = false) (r n : Nat) (hd : Header) (tid : Nat) (d : Int)
    (hreq : .requested r n hd tid d ∈ s'.trace) (hdue : d ≤ s'.now) : calls s'.trace r = 1 := by
  have h0 := (run_pres (Inv.top env) ops _ (Inv.init nid t iv ce fd it)).1
  have h1 := (poll_pres (Inv.top env).toPollClosed clock _ (Nat.zero_le _) h0).1
  rw [h] at h1
  have hR := h1.2 hr
  have hq := (C33_poll_complete env ops nid t iv ce fd it clock s' next h).1
  have hl := hR.load r
  rw [if_pos (hR.reqs r n hd tid d hreq)] at hl
  have hz : s'.sched.queue.countP (isTimeout r) = 0 := by
    rw [List.countP_eq_zero]
    intro e he ht
    have := hR.dead e he r ht n hd tid d hreq
    have := hq e he
    omega
  unfold calls
  simp only at hl
  omega

/-- **C24**, the same at any later time: the callback stays called exactly once. -/
theorem C24_stays_once (ops' : List Op) (clock : List Nat) (s' : Node) (next : Int)
    (h : poll env clock (run env ops (init nid t iv ce fd it)) = (.ok (some next), s'))
    (hr : (run env ops' s').trace.any isRespRaise = false) (r n : Nat) (hd : Header) (tid : Nat) (d : Int)
    (hreq : .requested r n hd tid d ∈ s'.trace) (hdue : d ≤ s'.now) : calls (run env ops' s').trace r = 1 := by
  have h0 := (run_pres (Inv.top env) ops _ (Inv.init nid t iv ce fd it)).1
  have h1 := (poll_pres (Inv.top env).toPollClosed clock _ (Nat.zero_le _) h0).1
  rw [h] at h1
  obtain ⟨h2, h3⟩ := run_pres (Inv.top env) ops' s' h1
  obtain ⟨evs, he⟩ := h3.1
  have hone := C24_exactly_once env ops nid t iv ce fd it clock s' next h (any_mono he.symm hr) r n hd tid d hreq hdue
  have hl := (h2.2 hr).load r
  unfold calls at hone ⊢
  have hmono : s'.trace.countP (isRespCall r) ≤ (run env ops' s').trace.countP (isRespCall r) := by
    rw [← he, List.countP_append]; omega
  split at hl <;> omega

/-- The assumption is needed: a callback that raises is called again by a duplicate of the response, because
`_recv_frame` forgets the request only after its callback returned (node.py:340-346). -/
theorem C24_raising_counterexample : ∃ env ops, (history env ops (some 10) 0 none true false (1, true)).any isRespRaise = true ∧
    calls (history env ops (some 10) 0 none true false (1, true)) 0 = 2 :=
  ⟨svcEnv true, svcOps, by decide +kernel⟩

example : calls (svcHistory false) 0 = 1 ∧ calls (svcHistory false) 1 = 1 ∧ calls (svcHistory false) 2 = 1 := by
  decide +kernel

/-! ## C25 -/

/-- Outstanding requests and deliveries are traced back to transmissions. -/
structure AInv (s : Node) : Prop where
  out : ∀ kq ∈ s.outstanding, ∃ n d, .requested kq.2.req n kq.2.header kq.2.tid d ∈ s.trace
  reqd : ∀ r n h tid d, .requested r n h tid d ∈ s.trace → ∃ c dest, .accepted n c ∈ s.trace ∧ c.kind = .request dest ∧
    h = { headerOf c with dtid := c.dtid } ∧ tid = c.tid
  hist : HistAll (fun pre x => ∀ r tr, x = .called (.response r (some tr)) →
    ∃ n h tid d c dest, .requested r n h tid d ∈ pre ∧ .accepted n c ∈ pre ∧ Answers tr c dest) s.trace

/-- Entries without meaning for `AInv`. -/
def quietA : Ev → Bool
  | .called (.response _ (some _)) => false
  | .requested .. => false
  | _ => true

theorem AInv.frame {s s' : Node} (h : AInv s) (ho : ∀ kq ∈ s'.outstanding, kq ∈ s.outstanding) (evs : List Ev)
    (ht : s'.trace = s.trace ++ evs) (hq : ∀ x ∈ evs, quietA x = true) : AInv s' := by
  have hmono : ∀ x, x ∈ s.trace → x ∈ s'.trace := fun x hx => ht ▸ List.mem_append_left _ hx
  constructor
  · intro kq hk
    obtain ⟨n, d, hx⟩ := h.out kq (ho kq hk)
    exact ⟨n, d, hmono _ hx⟩
  · intro r n hd tid d hx
    rw [ht] at hx
    rcases List.mem_append.1 hx with hx | hx
    · obtain ⟨c, dest, h1, h2⟩ := h.reqd r n hd tid d hx
      exact ⟨c, dest, hmono _ h1, h2⟩
    · have := hq _ hx
      simp [quietA] at this
  · rw [ht]
    refine h.hist.append evs fun pre x hx r tr he => ?_
    have := hq x hx
    rw [he] at this
    simp [quietA] at this

theorem AInv.log {s : Node} (h : AInv s) (x : Ev) (hx : quietA x = true) : AInv (Node.log x s).2 :=
  h.frame (fun _ hk => hk) [x] rfl (by simpa using hx)

theorem AInv.user (env : Env) : UserClosed env 0 AInv where
  tick d s h := h.frame (fun _ hk => hk) [] (List.append_nil _).symm (by simp)
  defer t s h := h.frame (fun _ hk => hk) [_] rfl (by simp [quietA])
  periodic p s h := h.frame (fun _ hk => hk) [_] rfl (by simp [quietA])
  cancel i s h := by
    unfold Node.cancel
    split
    · split
      · exact h.frame (fun _ hk => hk) [_] rfl (by simp [quietA])
      · exact h.frame (fun _ hk => hk) [_] rfl (by simp [quietA])
    · exact h
  acceptReq dest dtid prio s h := by
    unfold acceptTid
    split
    · exact h
    · exact h
    · exact h.frame (fun _ hk => hk) [_] rfl (by simp [quietA])
  acceptMsg dtid prio s h := by
    unfold acceptTid
    split
    · exact h
    · exact h
    · exact h.frame (fun _ hk => hk) [_] rfl (by simp [quietA])
  acceptResponse dest dtid tid prio s h := by
    unfold acceptResponse
    split
    · exact h
    · exact h
    · exact h.frame (fun _ hk => hk) [_] rfl (by simp [quietA])
  sendFrame n f c s _ _ _ h := by
    unfold sendFrame
    split
    · exact h
    · exact h.frame (fun _ hk => hk) [_] rfl (by simp [quietA])
  registerRequest n c mid dest to s _ ha hk _ h := by
    simp only [registerRequest]
    constructor
    · intro kq hk
      rcases mem_set_key hk with rfl | hk
      · exact ⟨n, s.now + to, List.mem_append_right _ List.mem_cons_self⟩
      · obtain ⟨n', d, hx⟩ := h.out kq hk
        exact ⟨n', d, List.mem_append_left _ hx⟩
    · intro r n' hd tid d hx
      rcases List.mem_append.1 hx with hx | hx
      · obtain ⟨c', dest', h1, h2⟩ := h.reqd r n' hd tid d hx
        exact ⟨c', dest', List.mem_append_left _ h1, h2⟩
      · simp only [List.mem_singleton, Ev.requested.injEq] at hx
        obtain ⟨-, rfl, rfl, rfl, -⟩ := hx
        exact ⟨c, dest, List.mem_append_left _ ha, hk, rfl, rfl⟩
    · exact h.hist.snoc fun r tr he => by cases he
  addHandler t sn s h := h.frame (fun _ hk => hk) [] (List.append_nil _).symm (by simp)
  removeHandler u s h := by
    unfold removeHandler
    split
    · exact h.frame (fun _ hk => hk) [] (List.append_nil _).symm (by simp)
    · exact h
  removeHandlers t s h := h.frame (fun _ hk => hk) [] (List.append_nil _).symm (by simp)
  addHook s h := h.frame (fun _ hk => hk) [] (List.append_nil _).symm (by simp)
  removeHook hk s h := by
    unfold removeHook
    split
    · exact h.frame (fun _ hk => hk) [] (List.append_nil _).symm (by simp)
    · exact h
  setNodeId v s h := by
    unfold setNodeId
    split
    · split
      · exact h
      · exact h.frame (fun _ hk => hk) [] (List.append_nil _).symm (by simp)
    · exact h
  setCanfd v s h := h.frame (fun _ hk => hk) [] (List.append_nil _).symm (by simp)
  logHook hk n arg s _ _ h := h.log _ rfl
  logHookRaised hk n arg s _ _ h := h.log _ rfl

theorem answers_of {tr : InTransfer} {c : TxCall} {dest : Nat} {h : Header} {tid : Nat} (hk : c.kind = .request dest)
    (hh : h = { headerOf c with dtid := c.dtid }) (ht : tid = c.tid)
    (hm : isResponseTo tr.header tr.tid.toNat h tid = true) : Answers tr c dest := by
  subst hh ht
  simp only [isResponseTo, headerOf, hk, Bool.and_eq_true, decide_eq_true_eq, Bool.not_eq_true'] at hm
  obtain ⟨⟨⟨⟨⟨⟨⟨-, h1⟩, -⟩, h2⟩, h3⟩, h4⟩, h5⟩, h6⟩ := hm
  exact ⟨⟨h1, h2⟩, hk, (Option.some.inj h3).symm, h4.symm, h5.symm, h6.symm⟩

theorem AInv.top (env : Env) : TopClosed env (fun _ => AInv) where
  user _ := AInv.user env
  fire s e s' h ht := by
    obtain ⟨q, hq, -, rfl⟩ := takeDue_some ht
    cases ha : e.action with
    | once i =>
      simp only [beforeCallback, ha, callOf]
      exact h.frame (fun _ hk => hk) [.fired e s.now s.sched.queue, .called (.timer i)] (by simp) (by simp [quietA])
    | every i p =>
      simp only [beforeCallback, ha, callOf]
      exact h.frame (fun _ hk => hk) [.fired e s.now s.sched.queue, .called (.timer i)] (by simp) (by simp [quietA])
    | status p =>
      simp only [beforeCallback, ha, callOf]
      exact h.frame (fun _ hk => hk) [.fired e s.now s.sched.queue] (by simp) (by simp [quietA])
    | timeout r key =>
      simp only [beforeCallback, ha, callOf]
      exact h.frame (fun _ hk => dict_mem_del hk) [.fired e s.now s.sched.queue, .called (.response r none)] (by simp)
        (by simp [quietA])
  raisedTimer i s h := h.log _ rfl
  raisedTimeout r s h := h.log _ rfl
  tm s tm h := h.frame (fun _ hk => hk) [] (List.append_nil _).symm (by simp)
  rx tr s hf h := h.frame (fun _ hk => hk) [_] rfl (by simp [quietA])
  read f s h := h.log _ rfl
  handler u tr s h := h.log _ rfl
  handlerRaised u tr s h := h.log _ rfl
  deliver tr key q s h1 h2 h3 hf h := by
    obtain ⟨n, d, hx⟩ := h.out (key, q) (findRequest_mem hf)
    obtain ⟨c, dest, hacc, hk, hh, ht⟩ := h.reqd _ _ _ _ _ hx
    have hm : isResponseTo tr.header tr.tid.toNat q.header q.tid = true := by
      have := List.find?_some hf
      simpa using this
    refine ⟨?_, ?_, ?_⟩
    · intro kq hkq
      obtain ⟨n', d', hx'⟩ := h.out kq hkq
      exact ⟨n', d', List.mem_append_left _ hx'⟩
    · intro r n' hd tid d' hx'
      rcases List.mem_append.1 hx' with hx' | hx'
      · obtain ⟨c', dest', h1', h2'⟩ := h.reqd r n' hd tid d' hx'
        exact ⟨c', dest', List.mem_append_left _ h1', h2'⟩
      · simp at hx'
    · refine h.hist.snoc fun r tr' he => ?_
      injection he with he
      injection he with e1 e2
      injection e2 with e2
      subst e1 e2
      exact ⟨n, _, _, d, c, dest, hx, hacc, answers_of hk hh ht hm⟩
  deliverRaised r tr key s h := h.log _ rfl
  del key s h := by
    unfold delOutstanding
    split
    · exact h.frame (fun _ hk => dict_mem_del hk) [] (List.append_nil _).symm (by simp)
    · exact h

theorem AInv.init (nid : Option Nat) (now : Int) (iv : Option Int) (ce fd : Bool) (it : Nat × Bool) :
    AInv (Node.init nid now iv ce fd it) :=
  ⟨fun _ hk => (List.not_mem_nil hk).elim, fun _ _ _ _ _ hk => (List.not_mem_nil hk).elim, HistAll.nil⟩

/-- **C25**: a response passed to the callback of request `r` answers the transmission of that request: it is a service
response from the node the request was sent to, addressed to the node ID that sent it, of the same service type and
with the same transfer ID. -/
theorem C25_only_own_response (pre post : List Ev) (r : Nat) (tr : InTransfer)
    (h : history env ops nid t iv ce fd it = pre ++ .called (.response r (some tr)) :: post) :
    ∃ n h tid d c dest, .requested r n h tid d ∈ pre ∧ .accepted n c ∈ pre ∧ Answers tr c dest :=
  (run_pres (AInv.top env) ops _ (AInv.init nid t iv ce fd it)).1.hist pre _ post h r tr rfl

/-- What it takes for a response to match an outstanding request. -/
def matches_ (tr : InTransfer) (q : OutReq) : Prop :=
  q.header.service = true ∧ q.header.request = true ∧ tr.header.service = true ∧ tr.header.request = false ∧
    q.header.dest = some tr.header.source ∧ tr.header.dest = some q.header.source ∧ q.header.dtid = tr.header.dtid ∧
    q.tid = tr.tid.toNat

theorem matches_iff (tr : InTransfer) (q : OutReq) :
    isResponseTo tr.header tr.tid.toNat q.header q.tid = true ↔ matches_ tr q := by
  simp only [isResponseTo, matches_, Bool.and_eq_true, decide_eq_true_eq, Bool.not_eq_true']
  constructor
  · rintro ⟨⟨⟨⟨⟨⟨⟨h1, h2⟩, h3⟩, h4⟩, h5⟩, h6⟩, h7⟩, h8⟩
    exact ⟨h1, h3, h2, h4, h5, h6.symm, h7, h8⟩
  · rintro ⟨h1, h3, h2, h4, h5, h6, h7, h8⟩
    exact ⟨⟨⟨⟨⟨⟨⟨h1, h2⟩, h3⟩, h4⟩, h5⟩, h6.symm⟩, h7⟩, h8⟩

theorem runScript_called (call : Call → PyM Node (Option Payload)) (hc : CallOk 0 (fun _ => True) call) (c : Call)
    (s : Node) : s.trace ++ [.called c] <+: (runScript env call c s).2.trace := by
  simp only [runScript, PyM.bind_run, PyM.get_run, log, PyM.modify_run]
  have hu : UserClosed env 0 (fun _ => True) := by constructor <;> intros <;> trivial
  have h1 := (runActs_pres hu hc (env.script s c).acts
    { s with trace := s.trace ++ [.called c] } (Nat.zero_le _) trivial).2.1
  simp only [PyM.tryCatch]
  cases hr : runActs env call (env.script s c).acts { s with trace := s.trace ++ [.called c] } with
  | mk r s1 =>
    rw [hr] at h1
    cases r with
    | ok _ => exact h1
    | error e => exact h1.trans (List.prefix_append ..)

theorem hookCall_true : CallOk 0 (fun _ => True) (hookCall env) :=
  hookCall_ok (by constructor <;> intros <;> trivial)

/-- **C25**: a response addressed to this node that matches an outstanding request, and no earlier outstanding one, is
passed to the callback of that request as the next thing that happens. -/
theorem C25_delivered (s : Node) (tr : InTransfer) (l1 l2 : List ((Nat × Nat) × OutReq)) (key : Nat × Nat) (q : OutReq)
    (ho : s.outstanding = l1 ++ (key, q) :: l2) (hm : matches_ tr q) (hfirst : ∀ kq ∈ l1, ¬ matches_ tr kq.2)
    (hdest : tr.header.dest = s.nodeId) :
    s.trace ++ [.called (.response q.req (some tr))] <+: (dispatch env tr s).2.trace := by
  have hf : findRequest tr s.outstanding = some (key, q) := by
    unfold findRequest
    rw [ho, List.find?_append, List.find?_eq_none.2, List.find?_cons]
    · simp only [(matches_iff tr q).2 hm, Option.none_or]
    · intro kq hk hb
      exact hfirst kq hk ((matches_iff tr kq.2).1 hb)
  simp only [dispatch, PyM.bind_run, PyM.get_run]
  rw [if_pos (by simp [hm.2.2.1, hm.2.2.2.1, hdest]), hf]
  simp only [PyM.bind_run, dropTimeout, PyM.modify_run]
  have h1 := runScript_called env (hookCall env) (hookCall_true env) (.response q.req (some tr))
    { s with sched := (s.sched.cancel q.seq).getD s.sched }
  cases hr : runScript env (hookCall env) (.response q.req (some tr))
      { s with sched := (s.sched.cancel q.seq).getD s.sched } with
  | mk r s1 =>
    rw [hr] at h1
    cases r with
    | error e => exact h1
    | ok _ => exact h1.trans (delOutstanding_ext key s1).1

/-- **C25**: a response addressed to this node that matches no outstanding request has no effect (in particular late,
duplicated and forged responses). -/
theorem C25_unmatched_ignored (s : Node) (tr : InTransfer) (hs : tr.header.service = true) (hr : tr.header.request = false)
    (hdest : tr.header.dest = s.nodeId) (hno : ∀ kq ∈ s.outstanding, ¬ matches_ tr kq.2) :
    dispatch env tr s = (.ok (), s) := by
  have hf : findRequest tr s.outstanding = none := by
    unfold findRequest
    rw [List.find?_eq_none]
    intro kq hk hb
    exact hno kq hk ((matches_iff tr kq.2).1 hb)
  simp only [dispatch, PyM.bind_run, PyM.get_run]
  rw [if_pos (by simp [hs, hr, hdest]), hf]
  rfl

end Dronecan
