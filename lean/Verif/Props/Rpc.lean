import Verif.Proofs.Rpc
import Verif.Props.Handled
import Verif.Props.Service

/-!
# Responses reach their callbacks (C93)

The specification (`Sent`, `Reply`, `NoClash`, `Delivered`) is in `Verif/Spec/Rpc.lean`.
-/

namespace Dronecan
open Node Dispatch PyM Requests Rpc Timers

variable {env : Env}

/-! ## Hooks that add no hooks -/

/-- `m` adds no hooks. -/
def Fewer {α : Type} (m : PyM Node α) : Prop := ∀ s, (m s).2.hooks.length ≤ s.hooks.length

theorem Fewer.pure {α : Type} (a : α) : Fewer (PyM.pure a) := fun _ => Nat.le_refl _
theorem Fewer.raise {α : Type} (e : Err) : Fewer (PyM.raise e : PyM Node α) := fun _ => Nat.le_refl _
theorem Fewer.get : Fewer (PyM.get : PyM Node Node) := fun _ => Nat.le_refl _
theorem Fewer.lift {α : Type} (r : Except Err α) : Fewer (PyM.lift r : PyM Node α) := fun _ => Nat.le_refl _
theorem Fewer.log (e : Ev) : Fewer (Node.log e) := fun _ => Nat.le_refl _

theorem Fewer.bind {α β : Type} {m : PyM Node α} {f : α → PyM Node β} (hm : Fewer m) (hf : ∀ a, Fewer (f a)) : Fewer (m >>- f) := by
  intro s
  rw [bind_run]
  have h := hm s
  cases hms : m s with
  | mk r s1 =>
    rw [hms] at h
    cases r with
    | error e => exact h
    | ok a => exact Nat.le_trans (hf a s1) h

theorem Fewer.tryCatch {α : Type} {m : PyM Node α} {h : Err → PyM Node α} (hm : Fewer m) (hh : ∀ e, Fewer (h e)) : Fewer (PyM.tryCatch m h) := by
  intro s
  unfold PyM.tryCatch
  have h := hm s
  cases hms : m s with
  | mk r s1 =>
    rw [hms] at h
    cases r with
    | error e => exact Nat.le_trans (hh e s1) h
    | ok a => exact h

theorem Fewer.forEach {β : Type} {xs : List β} {f : β → PyM Node Unit} (h : ∀ x ∈ xs, Fewer (f x)) : Fewer (PyM.forEach xs f) := by
  induction xs with
  | nil => exact Fewer.pure ()
  | cons x xs ih => exact (h x List.mem_cons_self).bind fun _ => ih fun y hy => h y (List.mem_cons_of_mem _ hy)

/-- The call of a hook adds no hooks. -/
def FewerHooks (call : Call → PyM Node (Option Payload)) : Prop := ∀ hk n arg, Fewer (call (.hook hk n arg))

theorem fewer_hooks {call : Call → PyM Node (Option Payload)} (hc : FewerHooks call) (n : Nat) (arg : HookArg) :
    Fewer (callHooks env call n arg) := by
  apply Fewer.get.bind
  intro s0
  generalize s0.hooks.length + env.lim + 1 = fuel
  generalize 0 = i
  induction fuel generalizing i with
  | zero => exact Fewer.raise _
  | succ fuel ih =>
    apply Fewer.get.bind
    intro s
    split
    · exact Fewer.pure _
    · exact ((hc _ _ _).bind fun _ => Fewer.pure _).tryCatch (fun _ => Fewer.pure _) |>.bind fun _ => ih _

theorem fewer_send {call : Call → PyM Node (Option Payload)} (hc : FewerHooks call) (n : Nat) (p : Payload) (h : Header) (tid : Nat) (canfd : Bool) :
    Fewer (sendTransfer env call n p h tid canfd) := by
  apply (Fewer.lift _).bind
  intro t
  apply (fewer_hooks hc _ _).bind
  intro _
  apply (Fewer.lift _).bind
  intro tf
  refine Fewer.bind (Fewer.forEach fun f _ s => ?_) fun _ => Fewer.pure _
  unfold sendFrame
  split <;> exact Nat.le_refl _

theorem fewer_acceptTid (kind : TxKind) (dtid : Nat) (prio : Option Nat) (key : TidKey) : Fewer (acceptTid kind dtid prio key) := by
  intro s
  unfold acceptTid
  split <;> exact Nat.le_refl _

theorem fewer_exec {call : Call → PyM Node (Option Payload)} (hc : FewerHooks call) (c : Cmd) (hq : c ≠ .addHook) : Fewer (exec env call c) := by
  cases c with
  | tick d => exact fun _ => Nat.le_refl _
  | defer t => exact Fewer.bind (fun _ => Nat.le_refl _) fun _ => Fewer.pure _
  | periodic p => exact Fewer.bind (fun _ => Nat.le_refl _) fun _ => Fewer.pure _
  | cancel i =>
    intro s
    show (Node.cancel i s).2.hooks.length ≤ _
    unfold Node.cancel
    split
    · split <;> exact Nat.le_refl _
    · exact Nat.le_refl _
  | request p dest prio timeout canfd =>
    show Fewer (request env call p dest prio timeout canfd)
    unfold request
    apply Fewer.get.bind
    intro s0
    apply (fewer_acceptTid _ _ _ _).bind
    intro x
    apply (fewer_send hc x.1 p _ _ _).bind
    intro t
    apply (Fewer.lift _).bind
    intro mid
    exact fun _ => Nat.le_refl _
  | respond p dest tid prio canfd =>
    show Fewer (respond env call p dest tid prio canfd)
    unfold respond
    apply Fewer.get.bind
    intro s0
    apply Fewer.bind
    · intro s
      unfold acceptResponse
      split <;> exact Nat.le_refl _
    intro x
    exact Fewer.bind (fewer_send hc x.1 p _ _ _) fun _ => Fewer.pure _
  | broadcast p prio canfd =>
    show Fewer (broadcast env call p prio canfd)
    unfold broadcast
    apply Fewer.get.bind
    intro s0
    apply (fewer_acceptTid _ _ _ _).bind
    intro x
    exact Fewer.bind (fewer_send hc x.1 p _ _ _) fun _ => Fewer.pure _
  | addHandler type sniff => exact Fewer.bind (fun _ => Nat.le_refl _) fun _ => Fewer.pure _
  | removeHandler u =>
    intro s
    show (removeHandler u s).2.hooks.length ≤ _
    unfold removeHandler
    split <;> exact Nat.le_refl _
  | removeHandlers type => exact fun _ => Nat.le_refl _
  | addHook => exact absurd rfl hq
  | removeHook hk =>
    intro s
    show (removeHook hk s).2.hooks.length ≤ _
    unfold removeHook
    split
    · exact List.length_erase_le
    · exact Nat.le_refl _
  | setNodeId v =>
    intro s
    show (setNodeId v s).2.hooks.length ≤ _
    unfold setNodeId
    split
    · split <;> exact Nat.le_refl _
    · exact Nat.le_refl _
  | setCanfd b => exact fun _ => Nat.le_refl _
  | raise e => exact Fewer.raise _

theorem fewer_script (hs : HooksSettle env) {call : Call → PyM Node (Option Payload)} (hc : FewerHooks call) : FewerHooks (runScript env call) := by
  intro hk n arg
  apply Fewer.get.bind
  intro s
  apply (Fewer.log _).bind
  intro _
  refine (Fewer.tryCatch (Fewer.forEach fun a ha => ?_) fun e => (Fewer.log _).bind fun _ => Fewer.raise _).bind fun _ => Fewer.pure _
  have h := fewer_exec (env := env) hc a.1 (hs s hk n arg a ha)
  show Fewer (if a.2 then PyM.tryCatch (exec env call a.1) (fun _ => PyM.pure ()) else exec env call a.1)
  split
  · exact h.tryCatch fun _ => Fewer.pure _
  · exact h

theorem fewer_call (hs : HooksSettle env) : FewerHooks (hookCall env) := by
  unfold hookCall
  generalize env.lim = n
  induction n with
  | zero => exact fun _ _ _ => Fewer.raise _
  | succ n ih => exact fewer_script hs ih

/-- The loop over the hooks ends normally. -/
theorem callHooks_settles (hs : HooksSettle env) (n : Nat) (arg : HookArg) (s : Node) : (callHooks env (hookCall env) n arg s).1 = .ok () := by
  have key : ∀ fuel i s, s.hooks.length < fuel + i → 0 < fuel → (hooksLoop (hookCall env) n arg fuel i s).1 = .ok () := by
    intro fuel
    induction fuel with
    | zero => intro i s _ h; exact absurd h (Nat.lt_irrefl _)
    | succ fuel ih =>
      intro i s h _
      simp only [hooksLoop, bind_run, get_run]
      cases hk : s.hooks[i]? with
      | none => rfl
      | some k =>
        have hi : i < s.hooks.length := by
          obtain ⟨hi, -⟩ := List.getElem?_eq_some_iff.1 hk
          exact hi
        have hf := fewer_call hs k n arg s
        simp only [bind_run, PyM.tryCatch]
        cases hr : hookCall env (.hook k n arg) s with
        | mk r s1 =>
          rw [hr] at hf
          simp only at hf
          cases r with
          | ok a => exact ih (i + 1) s1 (by omega) (by omega)
          | error e => exact ih (i + 1) s1 (by omega) (by omega)
  simp only [callHooks, bind_run, get_run]
  exact key _ 0 s (by omega) (by omega)

/-! ## Histories -/

/-- What is kept by the parts of the main loop is kept by histories. -/
theorem history_pres {I : Node → Prop} (hpoll : ∀ ds, Pres 0 I (poll env ds)) (hread : ∀ f, Pres 0 I (log (.read f)))
    (hrecv : ∀ f, Pres 0 I (recvFrame env f)) (htick : ∀ d, Pres 0 I (tick d)) (hexec : ∀ c, Pres 0 I (exec env (hookCall env) c)) (ops : List Op)
    (s : Node) (hs : I s) : I (run env ops s) := by
  have hdrain : ∀ fs n, Pres 0 I (drain env fs n) := by
    intro fs
    induction fs with
    | nil => exact fun n => (hread none).bind fun _ => Pres.pure _
    | cons f fs ih =>
      intro n
      cases f with
      | none => exact (hread none).bind fun _ => Pres.pure _
      | some f => exact (hread (some f)).bind fun _ => (hrecv f).bind fun _ => ih (n + 1)
  have honce : ∀ r, Pres 0 I (executeOnce env r) := by
    intro r
    apply (hpoll r.clock).bind
    intro _
    apply (htick r.elapsed).bind
    intro _
    apply (hread r.frame).bind
    intro _
    cases r.frame with
    | none => exact Pres.pure _
    | some f => exact (hrecv f).bind fun _ => Pres.pure _
  have hloop : ∀ dl rs, Pres 0 I (spinLoop env dl rs) := by
    intro dl rs
    induction rs with
    | nil => exact Pres.pure _
    | cons r rs ih =>
      apply Pres.get.bind
      intro s
      split
      · exact (honce r).bind fun _ => ih
      · exact Pres.pure _
  induction ops generalizing s with
  | nil => exact hs
  | cons op ops ih =>
    refine ih _ ?_
    cases op with
    | api c => exact (hexec c s (Nat.zero_le _) hs).1
    | poll ds => exact (hpoll ds s (Nat.zero_le _) hs).1
    | frame f => exact (hrecv f s (Nat.zero_le _) hs).1
    | spin0 fs ds => exact (((hdrain fs 0).bind fun _ => (hpoll ds).bind fun _ => Pres.pure _) s (Nat.zero_le _) hs).1
    | spin t r rs =>
      exact ((Pres.get.bind fun _ => (honce r).bind fun _ => (hloop _ rs).bind fun _ => Pres.pure _) s (Nat.zero_le _) hs).1

/-- The same when frames come from the driver: what need not hold between reading a frame and processing it. -/
theorem public_pres {I : Node → Prop} (hpoll : ∀ ds, Pres 0 I (poll env ds)) (hread : Pres 0 I (log (.read none)))
    (hrecv : ∀ f, Pres 0 I (log (.read (some f)) >>- fun _ => recvFrame env f)) (htick : ∀ d, Pres 0 I (tick d))
    (hexec : ∀ c, Pres 0 I (exec env (hookCall env) c)) (ops : List Op) (hops : Public ops) (s : Node) (hs : I s) : I (run env ops s) := by
  have hdrain : ∀ fs n, Pres 0 I (drain env fs n) := by
    intro fs
    induction fs with
    | nil => exact fun n => hread.bind fun _ => Pres.pure _
    | cons f fs ih =>
      intro n
      cases f with
      | none => exact hread.bind fun _ => Pres.pure _
      | some f =>
        have := (hrecv f).bind (fun _ => ih (n + 1))
        rw [bind_assoc] at this
        exact this
  have honce : ∀ r, Pres 0 I (executeOnce env r) := by
    intro r
    apply (hpoll r.clock).bind
    intro _
    apply (htick r.elapsed).bind
    intro _
    cases r.frame with
    | none => exact hread.bind fun _ => Pres.pure _
    | some f =>
      have := (hrecv f).bind (fun _ => Pres.pure (b := 0) (I := I) (1 : Nat))
      rw [bind_assoc] at this
      exact this
  have hloop : ∀ dl rs, Pres 0 I (spinLoop env dl rs) := by
    intro dl rs
    induction rs with
    | nil => exact Pres.pure _
    | cons r rs ih =>
      apply Pres.get.bind
      intro s
      split
      · exact (honce r).bind fun _ => ih
      · exact Pres.pure _
  induction ops generalizing s with
  | nil => exact hs
  | cons op ops ih =>
    refine ih (fun f hf => hops f (List.mem_cons_of_mem _ hf)) _ ?_
    cases op with
    | api c => exact (hexec c s (Nat.zero_le _) hs).1
    | poll ds => exact (hpoll ds s (Nat.zero_le _) hs).1
    | frame f => exact absurd List.mem_cons_self (hops f)
    | spin0 fs ds => exact (((hdrain fs 0).bind fun _ => (hpoll ds).bind fun _ => Pres.pure _) s (Nat.zero_le _) hs).1
    | spin t r rs =>
      exact ((Pres.get.bind fun _ => (honce r).bind fun _ => (hloop _ rs).bind fun _ => Pres.pure _) s (Nat.zero_le _) hs).1

/-! ## Delivery -/

def isReceived : Ev → Bool
  | .received .. => true
  | _ => false

theorem delivered_append {me : Nat} {t evs : List Ev} (h : Delivered me t) (hr : evs.any isReceived = false) : Delivered me (t ++ evs) := by
  intro pre m tr post r hd tid he hs hu hm
  rcases List.append_eq_append_iff.1 he with ⟨as, h1, h2⟩ | ⟨bs, h1, h2⟩
  · exfalso
    have : Ev.received m tr ∈ evs := by rw [h2]; simp
    rw [List.any_eq_false] at hr
    exact hr _ this rfl
  · cases bs with
    | nil =>
      exfalso
      have : Ev.received m tr ∈ evs := by
        rw [List.nil_append] at h2
        rw [← h2]; simp
      rw [List.any_eq_false] at hr
      exact hr _ this rfl
    | cons b bs =>
      injection h2 with h2 h3
      subst h2
      obtain ⟨mid, post', e1, e2⟩ := h pre m tr bs r hd tid h1 hs hu hm
      exact ⟨mid, post' ++ evs, by rw [h3, e1]; simp, e2⟩

theorem netLog_received {a b : List Ev} (h : netLog (a ++ b) = netLog a) : b.any isReceived = false := by
  have : netLog b = [] := by
    unfold netLog at h ⊢
    rw [List.filterMap_append] at h
    exact List.append_right_eq_self.1 h
  rw [List.any_eq_false]
  intro x hx hr
  have h1 := List.filterMap_eq_nil_iff.1 this x hx
  cases x <;> simp [isReceived, netEv] at hr h1

/-- Main loop events and invocations of request callbacks. -/
def stirEv : Ev → Option Ev
  | .read f => some (.read f)
  | .received n tr => some (.received n tr)
  | .fired e t q => some (.fired e t q)
  | .called (.response r x) => some (.called (.response r x))
  | _ => none

theorem blind_stir : Blind 0 stirEv where
  armed _ _ _ _ := rfl
  cancelled _ _ := rfl
  accepted _ _ := rfl
  requested _ _ _ _ _ := rfl
  frame _ _ _ := rfl
  hook _ _ _ _ := rfl
  hookRaised _ _ _ _ := rfl

theorem stir_quiet {a b : List Ev} (h : (a ++ b).filterMap stirEv = a.filterMap stirEv) :
    b.any loopEv = false ∧ b.any isReceived = false ∧ ∀ r, calls (a ++ b) r = calls a r := by
  have hb : b.filterMap stirEv = [] := by
    rw [List.filterMap_append] at h
    exact List.append_right_eq_self.1 h
  have hx := List.filterMap_eq_nil_iff.1 hb
  refine ⟨?_, ?_, ?_⟩
  · rw [List.any_eq_false]
    intro x hm hl
    have := hx x hm
    cases x <;> simp [loopEv, stirEv] at hl this
  · rw [List.any_eq_false]
    intro x hm hl
    have := hx x hm
    cases x <;> simp [isReceived, stirEv] at hl this
  · intro r
    rw [calls_append]
    have : calls b r = 0 := by
      unfold calls
      rw [List.countP_eq_zero]
      intro x hm
      have := hx x hm
      cases x with
      | called c => cases c <;> simp [stirEv, isRespCall] at *
      | _ => simp [isRespCall]
    omega

/-- The invariant of the main loop. -/
def SInv (v : Nat) (s : Node) : Prop := PI v none s ∧ (s.trace.any isRespRaise = false → NoClash s.trace → Delivered v s.trace)

theorem SInv.of {v : Nat} {s s' : Node} (h : SInv v s) (hp : PI v none s') (hx : Ext s s') (hn : netLog s'.trace = netLog s.trace) : SInv v s' := by
  refine ⟨hp, ?_⟩
  obtain ⟨evs, he⟩ := hx.1
  rw [← he] at hn ⊢
  intro hr hc
  rw [List.any_append, Bool.or_eq_false_iff] at hr
  exact delivered_append (h.2 hr.1 hc.left) (netLog_received hn)

theorem reply_find {v : Nat} {s : Node} (hp : PI v none s) (hr : s.trace.any isRespRaise = false) (hc : NoClash s.trace) {r : Nat} {hd : Header}
    {tid : Nat} {tr : InTransfer} (hs : Sent s.trace r hd tid) (hu : calls s.trace r = 0) (hm : Reply v hd tid tr) :
    ∃ key q, findRequest tr s.outstanding = some (key, q) ∧ q.req = r := by
  have L := hp.live hr hc
  obtain ⟨kq, g1, g2, g3, g4⟩ := L.keep r hd tid hs hu
  have hk := (L.back kq g1).2.1
  have hmatch : isResponseTo tr.header tr.tid.toNat kq.2.header kq.2.tid = true := by
    simp only [isResponseTo, Bool.and_eq_true, decide_eq_true_eq, Bool.not_eq_true']
    rw [g3, g4] at *
    exact ⟨⟨⟨⟨⟨⟨⟨hk.service, hm.service⟩, hk.request⟩, hm.response⟩, hm.source⟩, by rw [hk.source, hm.dest]⟩, hm.dtid⟩, hm.tid⟩
  cases hf : findRequest tr s.outstanding with
  | none => exact absurd hmatch (List.find?_eq_none.1 hf kq g1)
  | some x =>
    obtain ⟨key, q⟩ := x
    refine ⟨key, q, rfl, ?_⟩
    have hq := findRequest_mem hf
    obtain ⟨b1, -, b3⟩ := L.back (key, q) hq
    have hmq : isResponseTo tr.header tr.tid.toNat q.header q.tid = true := by
      have := List.find?_some hf
      simpa using this
    have hmq' := (matches_iff tr q).1 hmq
    refine hc.distinct b1 hs ⟨?_, ?_, ?_⟩ ?_ hu
    · exact hmq'.2.2.2.2.1.trans hm.source.symm
    · exact hmq'.2.2.2.2.2.2.1.trans hm.dtid.symm
    · exact hmq'.2.2.2.2.2.2.2.trans hm.tid.symm
    · rcases b3 with b3 | b3
      · cases b3
      · exact b3

/-- The response callback is called first thing. -/
theorem dispatch_calls {v : Nat} (s : Node) (hid : s.nodeId = some v) (tr : InTransfer) (key : Nat × Nat) (q : OutReq)
    (hf : findRequest tr s.outstanding = some (key, q)) (h1 : tr.header.service = true) (h2 : tr.header.request = false)
    (h3 : tr.header.dest = some v) : s.trace ++ [.called (.response q.req (some tr))] <+: (dispatch env tr s).2.trace := by
  simp only [dispatch, PyM.bind_run, PyM.get_run]
  rw [if_pos (by simp [h1, h2, h3, hid]), hf]
  simp only [PyM.bind_run, dropTimeout, PyM.modify_run]
  have h1 := runScript_called env (hookCall env) (hookCall_true env) (.response q.req (some tr))
    { s with sched := (s.sched.cancel q.seq).getD s.sched }
  cases hr : runScript env (hookCall env) (.response q.req (some tr))
      { s with sched := (s.sched.cancel q.seq).getD s.sched } with
  | mk r s1 =>
    rw [hr] at h1
    cases r with
    | error e => exact h1
    | ok _ => exact h1.trans (delOutstanding_ext key s1).1

theorem recv_sinv {v : Nat} (hv0 : v ≠ 0) (hv : v ≤ 127) (hs : HooksSettle env) (raw : RawFrame) : Pres 0 (SInv v) (recvFrame env raw) := by
  have T := PI.top hv0 hv env
  unfold recvFrame
  split
  · exact Pres.pure _
  · intro s hb h
    simp only [tmReceive, bind_run]
    have h0 : SInv v { s with tm := (receiveFrame s.tm s.now { id := raw.id, bytes := raw.data, ts := raw.ts, canfd := raw.canfd }).1 } :=
      ⟨T.tm s _ h.1, h.2⟩
    cases ho : (receiveFrame s.tm s.now { id := raw.id, bytes := raw.data, ts := raw.ts, canfd := raw.canfd }).2 with
    | none => exact ⟨h0, Ext.refl s⟩
    | some frames =>
      simp only [bind_run, lift_run]
      cases hf : fromFrames env.db frames with
      | error e => exact ⟨h0, Ext.refl s⟩
      | ok tr =>
        simp only [acceptRx]
        have p1 := T.rx tr _ ⟨frames, hf⟩ h0.1
        simp only [acceptRx] at p1
        revert p1
        generalize hs2 : ({ s with
            tm := (receiveFrame s.tm s.now { id := raw.id, bytes := raw.data, ts := raw.ts, canfd := raw.canfd }).1
            nextNum := s.nextNum + 1
            trace := s.trace ++ [.received s.nextNum tr] } : Node) = s2
        intro p1
        have t2 : s2.trace = s.trace ++ [.received s.nextNum tr] := by rw [← hs2]
        have n2 : s2.nextNum = s.nextNum + 1 := by rw [← hs2]
        have hn2 : s.nextNum < s2.nextNum := by omega
        have x2 : Ext s s2 := ⟨by rw [t2]; exact List.prefix_append .., by omega⟩
        have hu := (T.user none).and (blind_stir.user (env := env) (s2.trace.filterMap stirEv))
        have hk := callHooks_pres (env := env) (hookCall_ok hu) s.nextNum (.rx tr) (Nat.zero_le _) s2 hn2 ⟨p1, rfl⟩
        have hok := callHooks_settles hs s.nextNum (.rx tr) s2
        cases hc : callHooks env (hookCall env) s.nextNum (.rx tr) s2 with
        | mk r s3 =>
          rw [hc] at hk hok
          simp only at hk hok
          subst hok
          obtain ⟨⟨p3, q3⟩, x3⟩ := hk
          have hd := dispatch_pres T.toActClosed tr s3 (Nat.zero_le _) p3
          have hd2 := dispatch_pres (net_act (env := env) s3.tm (netLog s3.trace)) tr s3 (Nat.zero_le _) ⟨rfl, rfl⟩
          show SInv v (dispatch env tr s3).2 ∧ Ext s (dispatch env tr s3).2
          refine ⟨⟨hd.1, ?_⟩, (x2.trans x3).trans hd.2⟩
          intro hr hcl
          obtain ⟨ev4, e4⟩ := hd.2.1
          have hrec4 : ev4.any isReceived = false := by
            have := hd2.1.2
            rw [← e4] at this
            exact netLog_received this
          obtain ⟨ev3, e3⟩ := x3.1
          have hq3 : (s2.trace ++ ev3).filterMap stirEv = s2.trace.filterMap stirEv := by rw [e3]; exact q3
          obtain ⟨l3, rec3, c3⟩ := stir_quiet hq3
          have et : (dispatch env tr s3).2.trace = s.trace ++ (.received s.nextNum tr :: (ev3 ++ ev4)) := by
            rw [← e4, ← e3, t2]; simp
          have hr0 : s.trace.any isRespRaise = false := by
            rw [et, List.any_append, Bool.or_eq_false_iff] at hr
            exact hr.1
          have hcl0 : NoClash s.trace := by
            rw [et] at hcl
            exact hcl.left
          have hr3 : s3.trace.any isRespRaise = false := by
            rw [← e4, List.any_append, Bool.or_eq_false_iff] at hr
            exact hr.1
          have hcl3 : NoClash s3.trace := by
            rw [← e4] at hcl
            exact hcl.left
          have hold := h.2 hr0 hcl0
          intro pre m tr' post r' hdr tid he hsent hun hm
          rw [et] at he
          rcases List.append_eq_append_iff.1 he with ⟨as, h1, h2⟩ | ⟨bs, h1, h2⟩
          · cases as with
            | nil =>
              rw [List.append_nil] at h1
              rw [List.nil_append] at h2
              injection h2 with h2 h3
              injection h2 with _ h2
              subst h2
              subst h1
              have hcalls3 : calls s3.trace r' = 0 := by
                rw [← e3, c3, t2, calls_append, hun]
                rfl
              have hsent3 : Sent s3.trace r' hdr tid := by
                rw [← e3, t2]
                exact hsent.mono.mono
              obtain ⟨key, q, hfind, hreq⟩ := reply_find p3 hr3 hcl3 hsent3 hcalls3 hm
              have hpre := dispatch_calls (env := env) s3 p3.me tr key q hfind hm.service hm.response hm.dest
              obtain ⟨rest, hrest⟩ := hpre
              rw [← e4, List.append_assoc] at hrest
              have hev4 := List.append_cancel_left hrest
              refine ⟨ev3, rest, ?_, l3⟩
              rw [← h3, ← hev4, hreq]
              rfl
            | cons a as =>
              exfalso
              injection h2 with h2 h3
              have hmem : Ev.received m tr' ∈ ev3 ++ ev4 := by
                change ev3 ++ ev4 = as ++ Ev.received m tr' :: post at h3
                rw [h3]; simp
              have hall : (ev3 ++ ev4).any isReceived = false := by rw [List.any_append, rec3, hrec4]; rfl
              rw [List.any_eq_false] at hall
              exact hall _ hmem rfl
          · cases bs with
            | nil =>
              rw [List.append_nil] at h1
              rw [List.nil_append] at h2
              injection h2 with h2 h3
              injection h2 with _ h2
              subst h2
              subst h1
              have hcalls3 : calls s3.trace r' = 0 := by
                rw [← e3, c3, t2, calls_append, hun]
                rfl
              have hsent3 : Sent s3.trace r' hdr tid := by
                rw [← e3, t2]
                exact hsent.mono.mono
              obtain ⟨key, q, hfind, hreq⟩ := reply_find p3 hr3 hcl3 hsent3 hcalls3 hm
              have hpre := dispatch_calls (env := env) s3 p3.me tr' key q hfind hm.service hm.response hm.dest
              obtain ⟨rest, hrest⟩ := hpre
              rw [← e4, List.append_assoc] at hrest
              have hev4 := List.append_cancel_left hrest
              refine ⟨ev3, rest, ?_, l3⟩
              rw [h3, ← hev4, hreq]
              rfl
            | cons b bs =>
              injection h2 with h2 h3
              subst h2
              obtain ⟨mid, post', e1, e2⟩ := hold pre m tr' bs r' hdr tid h1 hsent hun hm
              refine ⟨mid, post' ++ (.received s.nextNum tr :: (ev3 ++ ev4)), ?_, e2⟩
              change post = bs ++ (.received s.nextNum tr :: (ev3 ++ ev4)) at h3
              rw [h3, e1]
              simp

theorem sinv_history {v : Nat} (hv0 : v ≠ 0) (hv : v ≤ 127) (hs : HooksSettle env) (ops : List Op) (s : Node) (h : SInv v s) :
    SInv v (run env ops s) := by
  have T := PI.top hv0 hv env
  refine history_pres ?_ ?_ (recv_sinv hv0 hv hs) ?_ ?_ ops s h
  · intro ds s hb h
    have h1 := poll_pres T.toPollClosed ds s (Nat.zero_le _) h.1
    have h2 := poll_pres (net_act (env := env) s.tm (netLog s.trace)).toPollClosed ds s (Nat.zero_le _) ⟨rfl, rfl⟩
    exact ⟨h.of h1.1 h1.2 h2.1.2, h1.2⟩
  · intro f s hb h
    refine ⟨⟨T.read f s h.1, ?_⟩, log_ext _ s⟩
    intro hr hc
    simp only [log, modify_run] at hr hc ⊢
    rw [List.any_append, Bool.or_eq_false_iff] at hr
    exact delivered_append (h.2 hr.1 hc.left) rfl
  · intro d s hb h
    exact ⟨⟨(T.user none).tick d s h.1, h.2⟩, tick_ext d s⟩
  · intro c s hb h
    have h1 := exec_pres (T.user none) T.toPollClosed.call_ok c s (Nat.zero_le _) h.1
    have h2 := exec_pres ((net_act (env := env) s.tm (netLog s.trace)).user none) (net_act (env := env) s.tm (netLog s.trace)).call_ok c s (Nat.zero_le _) ⟨rfl, rfl⟩
    exact ⟨h.of h1.1 h1.2 h2.1.2, h1.2⟩

theorem sinv_init (v : Nat) (t : Int) (iv : Option Int) (ce fd : Bool) (it : Nat × Bool) : SInv v (init (some v) t iv ce fd it) := by
  refine ⟨PI.init .., ?_⟩
  intro _ _ pre m tr post r h tid he
  have : (init (some v) t iv ce fd it).trace = [] := rfl
  rw [this] at he
  cases pre <;> cases he

/-! ## C93 -/

/-- The property in full: a reply that arrives while its request is waiting is passed to the callback of the request. -/
def C93_statement : Prop := ∀ (env : Env) (ops : List Op) (v : Nat) (t : Int) (iv : Option Int) (ce fd : Bool) (it : Nat × Bool), v ≠ 0 → v ≤ 127 →
  HooksSettle env → (history env ops (some v) t iv ce fd it).any isRespRaise = false → Delivered v (history env ops (some v) t iv ce fd it)

/-- An environment in which callbacks do nothing. -/
def idleEnv : Env where
  db d sv := if d = 5 ∧ sv = true then some svcType else none
  script _ _ := {}
  statusPayload _ := { dt := { dtid := 341, baseCrc := 0, msg := emptyTy }, val := .comp none [] }
  infoPayload _ := { dt := { dtid := 1, baseCrc := 0, msg := emptyTy }, val := .comp none [] }
  lim := 3

/-- 33 requests to node 20, the first with a short timeout; it expires, and the response to the last request arrives. -/
def clashOps : List Op :=
  .api (.request { dt := svcType, val := .comp none [] } 20 none (some 10) none) ::
  List.replicate 32 (.api (.request { dt := svcType, val := .comp none [] } 20 none (some 1000) none)) ++
  [.poll [20, 0], .frame (svcAnswer 0)]

def clashHistory : List Ev := history idleEnv clashOps (some 10) 0 none true false (1, true)

/-- In this history a transfer is received that is a reply to request `r` of node 20, for service 5, with transfer ID 0, when the request is waiting,
and the callback is not called with a response. -/
def unanswered (r : Nat) (l : List Ev) : Bool :=
  let pre := l.takeWhile (!isReceived ·)
  pre.any (fun
    | .requested r' _ h tid _ => r' == r && h.dest == some 20 && h.dtid == 5 && tid == 0
    | _ => false) && pre.all (!isRespCall r ·) &&
  match l.dropWhile (!isReceived ·) with
  | .received _ tr :: post =>
    tr.header.service && !tr.header.request && tr.header.source == 20 && tr.header.dest == some 10 && tr.header.dtid == 5 && tr.tid.toNat == 0 &&
      post.all (!isRespCall r ·)
  | _ => false

theorem not_delivered {r : Nat} {l : List Ev} (h : unanswered r l = true) : ¬ Delivered 10 l := by
  intro hd
  simp only [unanswered, Bool.and_eq_true] at h
  obtain ⟨⟨h1, h2⟩, h3⟩ := h
  have hl : l = l.takeWhile (!isReceived ·) ++ l.dropWhile (!isReceived ·) := List.takeWhile_append_dropWhile.symm
  revert h1 h2 h3 hl
  generalize l.takeWhile (!isReceived ·) = pre
  generalize l.dropWhile (!isReceived ·) = rest
  intro h3 h1 h2 hl
  split at h3
  · rename_i m tr post
    simp only [Bool.and_eq_true, beq_iff_eq, Bool.not_eq_true'] at h3
    obtain ⟨⟨⟨⟨⟨⟨a1, a2⟩, a3⟩, a4⟩, a5⟩, a6⟩, a7⟩ := h3
    obtain ⟨x, hx, hb⟩ := List.any_eq_true.1 h1
    cases x with
    | requested r' n h tid d =>
      simp only [Bool.and_eq_true, beq_iff_eq] at hb
      obtain ⟨⟨⟨b1, b2⟩, b3⟩, b4⟩ := hb
      subst b1
      have hu : calls pre r' = 0 := by
        unfold calls
        rw [List.countP_eq_zero]
        intro y hy
        have := List.all_eq_true.1 h2 y hy
        simpa using this
      obtain ⟨mid, post', e1, -⟩ := hd pre m tr post r' h tid hl ⟨n, d, hx⟩ hu
        ⟨a1, a2, by rw [b2, a3], a4, by rw [b3, a5], by rw [b4, a6]⟩
      have := List.all_eq_true.1 a7 (.called (.response r' (some tr))) (by rw [e1]; simp)
      simp [isRespCall] at this
    | _ => cases hb
  · cases h3

/-- The property does not hold in full: transfer IDs repeat after 32 requests, the 33rd request replaces the first one in the dictionary of outstanding requests
(node.py:494), and when the first one's timeout expires (node.py:490) the entry of the 33rd is deleted. The response to it is then ignored. -/
theorem C93_counterexample : ¬ C93_statement := by
  intro h
  have h1 := h idleEnv clashOps 10 0 none true false (1, true) (by decide) (by decide) (fun _ _ _ _ a ha => (List.not_mem_nil ha).elim) (by decide +kernel)
  exact not_delivered (r := 32) (by decide +kernel) h1

/-- As long as request callbacks do not raise and no request is sent while another one that a reply could not tell from it is waiting: a reply
that arrives while its request is waiting is passed to the callback of the request, before the main loop goes on - whatever the program, the
handlers, the timers and the other request callbacks do, and whatever the hooks do except adding hooks. -/
theorem C93_partial (ops : List Op) (v : Nat) (t : Int) (iv : Option Int) (ce fd : Bool) (it : Nat × Bool) (hv0 : v ≠ 0) (hv : v ≤ 127)
    (hs : HooksSettle env) (hr : (history env ops (some v) t iv ce fd it).any isRespRaise = false)
    (hc : NoClash (history env ops (some v) t iv ce fd it)) : Delivered v (history env ops (some v) t iv ce fd it) :=
  (sinv_history hv0 hv hs ops _ (sinv_init v t iv ce fd it)).2 hr hc

/-- Destination, service and transfer ID of the requests sent. -/
def sentKeys (l : List Ev) : List (Option Nat × Nat × Nat) := l.filterMap fun
  | .requested _ _ h tid _ => some (h.dest, h.dtid, tid)
  | _ => none

/-- Requests do not clash if destination, service and transfer ID never repeat (for instance if no service of any node is requested more than
32 times). -/
theorem noClash_of_nodup {l : List Ev} (h : (sentKeys l).Nodup) : NoClash l := by
  intro pre x post he r n hd tid d hx r' h' tid' hs hsame
  exfalso
  obtain ⟨n', d', hm⟩ := hs
  subst hx
  subst he
  have h1 : sentKeys (pre ++ .requested r n hd tid d :: post) = sentKeys pre ++ (hd.dest, hd.dtid, tid) :: sentKeys post := by
    unfold sentKeys
    rw [List.filterMap_append]
    rfl
  rw [h1] at h
  have h2 : (h'.dest, h'.dtid, tid') ∈ sentKeys pre := List.mem_filterMap.2 ⟨_, hm, rfl⟩
  have h3 := (List.nodup_append.1 h).2.2 _ h2 _ List.mem_cons_self
  apply h3
  rw [hsame.1, hsame.2.1, hsame.2.2]

example : HooksSettle (svcEnv false) := by
  intro s hk n arg a ha
  exact (List.not_mem_nil ha).elim

/-- In the history of C24, C25 the first request is answered, a forged answer comes in between. -/
example : NoClash (svcHistory false) := noClash_of_nodup (by decide +kernel)
example : (svcHistory false).any isRespRaise = false ∧ svcLog (svcHistory false) = [(0, true), (2, false), (1, false)] := by decide +kernel

/-! ## From request to response -/

/-- Every transfer received comes directly after the frame read. -/
def Prompt (t : List Ev) : Prop := HistAll (fun pre x => isReceived x = true → ∃ pre' raw, pre = pre' ++ [.read (some raw)]) t

theorem Prompt.append {t evs : List Ev} (h : Prompt t) (hr : evs.any isReceived = false) : Prompt (t ++ evs) := by
  refine HistAll.append h evs ?_
  intro pre x hx hrx
  rw [List.any_eq_false] at hr
  exact absurd hrx (hr x hx)

theorem net_ext {s s' : Node} (hx : Ext s s') (hn : netLog s'.trace = netLog s.trace) (h : Prompt s.trace) : Prompt s'.trace := by
  obtain ⟨evs, he⟩ := hx.1
  rw [← he] at hn ⊢
  exact h.append (netLog_received hn)

theorem prompt_history (ops : List Op) (hops : Public ops) (nid : Option Nat) (t : Int) (iv : Option Int) (ce fd : Bool) (it : Nat × Bool) :
    Prompt (run env ops (init nid t iv ce fd it)).trace := by
  refine public_pres (I := fun s => Prompt s.trace) ?_ ?_ ?_ ?_ ?_ ops hops _ ?_
  · intro ds s hb h
    have h2 := poll_pres (net_act (env := env) s.tm (netLog s.trace)).toPollClosed ds s (Nat.zero_le _) ⟨rfl, rfl⟩
    exact ⟨net_ext h2.2 h2.1.2 h, h2.2⟩
  · intro s hb h
    exact ⟨Prompt.append (evs := [.read none]) h rfl, log_ext _ s⟩
  · intro raw s hb h
    simp only [bind_run, log, modify_run]
    have hrd : Prompt (s.trace ++ [.read (some raw)]) := h.append rfl
    have xrd : Ext s { s with trace := s.trace ++ [.read (some raw)] } := ⟨List.prefix_append .., Nat.le_refl _⟩
    unfold recvFrame
    split
    · exact ⟨hrd, xrd⟩
    · simp only [tmReceive, bind_run]
      cases ho : (receiveFrame s.tm s.now { id := raw.id, bytes := raw.data, ts := raw.ts, canfd := raw.canfd }).2 with
      | none => exact ⟨hrd, xrd⟩
      | some frames =>
        simp only [bind_run, lift_run]
        cases hf : fromFrames env.db frames with
        | error e => exact ⟨hrd, xrd⟩
        | ok tr =>
          simp only [acceptRx]
          generalize hs2 : ({ s with
              tm := (receiveFrame s.tm s.now { id := raw.id, bytes := raw.data, ts := raw.ts, canfd := raw.canfd }).1
              nextNum := s.nextNum + 1
              trace := s.trace ++ [.read (some raw)] ++ [.received s.nextNum tr] } : Node) = s2
          have t2 : s2.trace = s.trace ++ [.read (some raw)] ++ [.received s.nextNum tr] := by rw [← hs2]
          have n2 : s2.nextNum = s.nextNum + 1 := by rw [← hs2]
          have p2 : Prompt s2.trace := by
            rw [t2]
            exact HistAll.snoc hrd fun _ => ⟨s.trace, raw, rfl⟩
          have x2 : Ext s s2 := ⟨by rw [t2, List.append_assoc]; exact List.prefix_append .., by omega⟩
          have hk := callHooks_pres (env := env) (net_act (env := env) s2.tm (netLog s2.trace)).call_ok s.nextNum (.rx tr) (Nat.zero_le _) s2
            (by omega) ⟨rfl, rfl⟩
          cases hc : callHooks env (hookCall env) s.nextNum (.rx tr) s2 with
          | mk r s3 =>
            rw [hc] at hk
            have p3 := net_ext hk.2 hk.1.2 p2
            cases r with
            | error e => exact ⟨p3, x2.trans hk.2⟩
            | ok a =>
              have hd := dispatch_pres (net_act (env := env) s3.tm (netLog s3.trace)) tr s3 (Nat.zero_le _) ⟨rfl, rfl⟩
              exact ⟨net_ext hd.2 hd.1.2 p3, (x2.trans hk.2).trans hd.2⟩
  · intro d s hb h
    exact ⟨h, tick_ext d s⟩
  · intro c s hb h
    have h2 := exec_pres ((net_act (env := env) s.tm (netLog s.trace)).user none) (net_act (env := env) s.tm (netLog s.trace)).call_ok c s
      (Nat.zero_le _) ⟨rfl, rfl⟩
    exact ⟨net_ext h2.2 h2.1.2 h, h2.2⟩
  · exact HistAll.nil

theorem prompt_mid {pre mid post : List Ev} {raw : RawFrame} {m : Nat} {tr : InTransfer}
    (h : Prompt (pre ++ .read (some raw) :: (mid ++ .received m tr :: post))) (hn : netLog mid = []) : mid = [] := by
  cases hm : mid.reverse with
  | nil => simpa using hm
  | cons x xs =>
    exfalso
    have hmid : mid = xs.reverse ++ [x] := by
      have := congrArg List.reverse hm
      simpa using this
    subst hmid
    obtain ⟨pre', raw', he⟩ := h (pre ++ .read (some raw) :: (xs.reverse ++ [x])) (.received m tr) post (by simp) rfl
    have hx : x = .read (some raw') := by
      have e : (pre ++ .read (some raw) :: xs.reverse) ++ [x] = pre' ++ [.read (some raw')] := by rw [← he]; simp
      have := List.append_inj_right' e rfl
      injection this
    subst hx
    unfold netLog at hn
    rw [List.filterMap_append, List.append_eq_nil_iff] at hn
    cases hn.2

/-- The header of the answer to a request. -/
def answerHeader (tr : InTransfer) (w dtid : Nat) : Header :=
  { prio := tr.header.prio, dtid, source := w, dest := some tr.header.source, service := true }

/-- A node that answered a request has handed to the driver frames with the following property. Any node that sent that request (same header and
transfer ID), when it reads those frames while the request is waiting (under the conditions of `C93_partial`), passes the answer to the
callback of the request, before its main loop goes on. -/
theorem C93_answer (tr : InTransfer) (s1 s' : Node) (p : Payload) (w v : Nat) (htid : tr.tid.toNat < 32)
    (hid : s1.nodeId = some w) (hw0 : w ≠ 0) (hw : w ≤ 127)
    (hsrc : tr.header.source = v) (hv0 : v ≠ 0) (hv : v ≤ 127) (hprio : tr.header.prio < 32) (hdst : tr.header.dest = some w)
    (hd : p.dt.dtid < 256) (hdt : tr.header.dtid = p.dt.dtid) (hwf : WfTy (p.dt.payloadTy true false) = true)
    (hty : hasTy (p.dt.payloadTy true false) p.val = true)
    (hresp : respond env (hookCall env) p tr.header.source tr.tid.toNat (some tr.header.prio) none s1 = (.ok (), s')) :
    ∃ mid frames, s'.trace = s1.trace ++ mid ++ frames.map (.frame s1.nextNum) ∧
      ∀ (env' : Env) (ops : List Op) (t : Int) (iv : Option Int) (ce fd : Bool) (it : Nat × Bool) (pre post : List Ev) (raw first : RawFrame)
        (rest : List RawFrame) (old : List Frame) (r : Nat),
        Public ops → env'.db p.dt.dtid true = some p.dt → HooksSettle env' →
        (history env' ops (some v) t iv ce fd it).any isRespRaise = false → NoClash (history env' ops (some v) t iv ce fd it) →
        history env' ops (some v) t iv ce fd it = pre ++ .read (some raw) :: post → raw.extended = true → Arrive frames (first :: rest) →
        ofKey raw.toFrame.key (framesIn (netLog pre) ++ [raw.toFrame]) = old ++ (first :: rest).map RawFrame.toFrame →
        Sent pre r tr.header tr.tid.toNat → calls pre r = 0 →
        ∃ m mid' post', mid'.any loopEv = false ∧
          let answer := arrived (answerHeader tr w p.dt.dtid) tr.tid.toNat first.ts (canon (p.dt.payloadTy true false) p.val) s1.sendCanfd
          post = .received m answer :: mid' ++ .called (.response r (some answer)) :: post' := by
  cases w with
  | zero => exact absurd rfl hw0
  | succ w =>
    obtain ⟨mid, frames, ht, hu⟩ := C91_respond p tr.header.source tr.tid.toNat (some tr.header.prio) none s1 s' w hid (by omega) (by omega) (by omega)
      hprio hd hwf hty hresp
    refine ⟨mid, frames, ht, ?_⟩
    intro env' ops t iv ce fd it pre post raw first rest old r hops hdb hset hr hc hh hx harr hkey hsent hcalls
    obtain ⟨mid1, m, post1, e1, e2⟩ := hu env' ops (some v) t iv ce fd it pre post raw first rest old hops hdb hh hx harr hkey
    have hprompt := prompt_history (env := env') ops hops (some v) t iv ce fd it
    have hh' : (run env' ops (init (some v) t iv ce fd it)).trace = pre ++ .read (some raw) :: post := hh
    rw [hh', e1] at hprompt
    have hm1 := prompt_mid hprompt e2
    subst hm1
    rw [List.nil_append] at e1
    have hdel := C93_partial (env := env') ops v t iv ce fd it hv0 hv hset hr hc
    have hrep : Reply v tr.header tr.tid.toNat (arrived (answerHeader tr (w + 1) p.dt.dtid) tr.tid.toNat first.ts
        (canon (p.dt.payloadTy true false) p.val) s1.sendCanfd) := by
      refine ⟨rfl, rfl, hdst, by simp [arrived, answerHeader, hsrc], hdt, ?_⟩
      show tr.tid.toNat = (BitVec.ofNat 8 (tr.tid.toNat % 32)).toNat
      rw [BitVec.toNat_ofNat, Nat.mod_eq_of_lt htid]
      omega
    have hcalls' : calls (pre ++ [.read (some raw)]) r = 0 := by
      rw [calls_append, hcalls]
      rfl
    obtain ⟨mid', post', f1, f2⟩ := hdel (pre ++ [.read (some raw)]) m _ post1 r tr.header tr.tid.toNat
      (by rw [hh, e1]; simp only [List.append_assoc, List.cons_append, List.nil_append]; rfl) hsent.mono hcalls' hrep
    refine ⟨m, mid', post', f2, ?_⟩
    rw [e1, f1]
    rfl

/-- Remote procedure calls, from the handler of the server to the callback of the client. A service handler of node `w` that was called with a request and
whose answer was sent has handed to the driver frames with the following property. Any node that sent that request (same header and transfer
ID), when it reads those frames while the request is waiting (under the conditions of `C93_partial`), passes the handler's result to the
callback of the request, before its main loop goes on. -/
theorem C93_round_trip (e : HEntry) (tr : InTransfer) (s s1 s' : Node) (p : Payload) (w v : Nat) (hb : e.builtin = false)
    (hsv : isService e.type = true) (hsn : e.sniff = false) (hrq : tr.header.request = true) (htid : tr.tid.toNat < 32)
    (hf : runScript env (hookCall env) (.handler e.uid tr) s = (.ok (some p), s1)) (hid : s1.nodeId = some w) (hw0 : w ≠ 0) (hw : w ≤ 127)
    (hsrc : tr.header.source = v) (hv0 : v ≠ 0) (hv : v ≤ 127) (hprio : tr.header.prio < 32) (hdst : tr.header.dest = some w)
    (hd : p.dt.dtid < 256) (hdt : tr.header.dtid = p.dt.dtid) (hwf : WfTy (p.dt.payloadTy true false) = true)
    (hty : hasTy (p.dt.payloadTy true false) p.val = true) (hok : callHandler env e tr s = (.ok (), s')) :
    ∃ mid frames, s'.trace = s1.trace ++ mid ++ frames.map (.frame s1.nextNum) ∧
      ∀ (env' : Env) (ops : List Op) (t : Int) (iv : Option Int) (ce fd : Bool) (it : Nat × Bool) (pre post : List Ev) (raw first : RawFrame)
        (rest : List RawFrame) (old : List Frame) (r : Nat),
        Public ops → env'.db p.dt.dtid true = some p.dt → HooksSettle env' →
        (history env' ops (some v) t iv ce fd it).any isRespRaise = false → NoClash (history env' ops (some v) t iv ce fd it) →
        history env' ops (some v) t iv ce fd it = pre ++ .read (some raw) :: post → raw.extended = true → Arrive frames (first :: rest) →
        ofKey raw.toFrame.key (framesIn (netLog pre) ++ [raw.toFrame]) = old ++ (first :: rest).map RawFrame.toFrame →
        Sent pre r tr.header tr.tid.toNat → calls pre r = 0 →
        ∃ m mid' post', mid'.any loopEv = false ∧
          let answer := arrived (answerHeader tr w p.dt.dtid) tr.tid.toNat first.ts (canon (p.dt.payloadTy true false) p.val) s1.sendCanfd
          post = .received m answer :: mid' ++ .called (.response r (some answer)) :: post' := by
  have hresp : respond env (hookCall env) p tr.header.source tr.tid.toNat (some tr.header.prio) none s1 = (.ok (), s') := by
    rw [← hok]
    simp [callHandler, hb, hsv, hsn, hrq, hf]
  exact C93_answer tr s1 s' p w v htid hid hw0 hw hsrc hv0 hv hprio hdst hd hdt hwf hty hresp

/-- The same for the built-in server of the node's information. -/
theorem C93_node_info (e : HEntry) (tr : InTransfer) (s s' : Node) (w v : Nat) (hb : e.builtin = true)
    (hsv : isService e.type = true) (hsn : e.sniff = false) (hrq : tr.header.request = true) (htid : tr.tid.toNat < 32)
    (hid : s.nodeId = some w) (hw0 : w ≠ 0) (hw : w ≤ 127)
    (hsrc : tr.header.source = v) (hv0 : v ≠ 0) (hv : v ≤ 127) (hprio : tr.header.prio < 32) (hdst : tr.header.dest = some w)
    (p : Payload) (hp : p = env.infoPayload { s with trace := s.trace ++ [.called (.handler e.uid tr)] })
    (hd : p.dt.dtid < 256) (hdt : tr.header.dtid = p.dt.dtid) (hwf : WfTy (p.dt.payloadTy true false) = true)
    (hty : hasTy (p.dt.payloadTy true false) p.val = true) (hok : callHandler env e tr s = (.ok (), s')) :
    ∃ mid frames, s'.trace = s.trace ++ mid ++ frames.map (.frame s.nextNum) ∧
      ∀ (env' : Env) (ops : List Op) (t : Int) (iv : Option Int) (ce fd : Bool) (it : Nat × Bool) (pre post : List Ev) (raw first : RawFrame)
        (rest : List RawFrame) (old : List Frame) (r : Nat),
        Public ops → env'.db p.dt.dtid true = some p.dt → HooksSettle env' →
        (history env' ops (some v) t iv ce fd it).any isRespRaise = false → NoClash (history env' ops (some v) t iv ce fd it) →
        history env' ops (some v) t iv ce fd it = pre ++ .read (some raw) :: post → raw.extended = true → Arrive frames (first :: rest) →
        ofKey raw.toFrame.key (framesIn (netLog pre) ++ [raw.toFrame]) = old ++ (first :: rest).map RawFrame.toFrame →
        Sent pre r tr.header tr.tid.toNat → calls pre r = 0 →
        ∃ m mid' post', mid'.any loopEv = false ∧
          let answer := arrived (answerHeader tr w p.dt.dtid) tr.tid.toNat first.ts (canon (p.dt.payloadTy true false) p.val) s.sendCanfd
          post = .received m answer :: mid' ++ .called (.response r (some answer)) :: post' := by
  have hresp : respond env (hookCall env) p tr.header.source tr.tid.toNat (some tr.header.prio) none
      { s with trace := s.trace ++ [.called (.handler e.uid tr)] } = (.ok (), s') := by
    rw [← hok, hp]
    simp [callHandler, hb, hsv, hsn, hrq, log, PyM.modify, PyM.get, PyM.bind, PyM.pure]
  obtain ⟨mid, frames, h1, h2⟩ := C93_answer tr { s with trace := s.trace ++ [.called (.handler e.uid tr)] } s' p w v htid hid hw0 hw hsrc hv0 hv hprio hdst hd hdt hwf hty hresp
  exact ⟨_ :: mid, frames, by rw [h1]; simp only [List.append_assoc, List.cons_append, List.nil_append]; rfl, h2⟩

/-- The frames sent in a history, as another node reads them. -/
def onWire (l : List Ev) : List (Option RawFrame) := l.filterMap fun
  | .frame _ f => some (some { id := f.id, data := f.bytes, canfd := f.canfd })
  | _ => none

/-- A program that requests service 5 of node 20. -/
def askOps : List Op := [.api (.request { dt := svcType, val := .comp none [] } 20 none (some 10) none)]

/-- Node 20 reads the request and answers. -/
def serverHistory : List Ev := history srvEnv
  [.api (.addHandler (some (5, true)) false), .spin0 (onWire (history (svcEnv true) askOps (some 10) 0 none true false (1, true))) [0, 0, 0]]
  (some 20) 0 none true false (1, true)

/-- Node 10 reads the answer of node 20. -/
def clientOps : List Op := askOps ++ [.spin0 (onWire serverHistory) [0, 0, 0]]

example : Public clientOps := by
  intro f h
  simp [clientOps, askOps] at h

example : (onWire serverHistory).length = 1 ∧ svcLog (history idleEnv clientOps (some 10) 0 none true false (1, true)) = [(0, true)] := by
  decide +kernel

end Dronecan
