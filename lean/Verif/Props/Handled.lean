import Verif.Props.Network

/-!
# Which handlers are called in a history (C92)
-/

namespace Dronecan
open Node Dispatch PyM

/-! ## Specification -/

/-- Calls that leave the registrations and the node ID alone. -/
def Cmd.quiet : Cmd → Bool
  | .addHandler .. | .removeHandler _ | .removeHandlers _ | .addHook | .removeHook _ | .setNodeId _ => false
  | _ => true

/-- Callbacks make only such calls. -/
def Quiet (env : Env) : Prop := ∀ s c, ∀ a ∈ (env.script s c).acts, a.1.quiet = true

/-- So does the main program. -/
def QuietOps (ops : List Op) : Prop := ∀ c, Op.api c ∈ ops → c.quiet = true

/-- Receptions and invocations of handlers. -/
inductive HandEv where
  | received (tr : InTransfer)
  | called (uid : Nat) (tr : InTransfer)

def handEv : Ev → Option HandEv
  | .received _ tr => some (.received tr)
  | .called (.handler u tr) => some (.called u tr)
  | _ => none

def handLog (t : List Ev) : List HandEv := t.filterMap handEv

/-- The transfers received. -/
def receivedIn (l : List HandEv) : List InTransfer := l.filterMap fun
  | .received tr => some tr
  | .called .. => none

/-- Node `me`, with the registrations `H`, passes the transfer on to its handlers: messages, requests to it, and responses to others if a
handler of that service sniffs. -/
def Offered (me : Option Nat) (H : List HEntry) (tr : InTransfer) : Prop :=
  tr.header.service = false ∨ (tr.header.request = true ∧ tr.header.dest = me) ∨
    (tr.header.request = false ∧ tr.header.dest ≠ me ∧ ∃ e ∈ H, e.type = some (tr.header.dtid, true) ∧ e.sniff = true)

instance (me : Option Nat) (H : List HEntry) (tr : InTransfer) : Decidable (Offered me H tr) := inferInstanceAs (Decidable (_ ∨ _))

/-- The handlers to be called. -/
def callees (me : Option Nat) (H : List HEntry) (tr : InTransfer) : List Nat :=
  if Offered me H tr then (H.filter fun e => decide (Wants e.type tr.header)).map (·.uid) else []

/-- Every reception is followed by the calls of the handlers registered for it, in order of registration; nothing else happens. -/
def Handled (me : Option Nat) (H : List HEntry) (l : List HandEv) : Prop :=
  l = (receivedIn l).flatMap fun tr => .received tr :: (callees me H tr).map (.called · tr)

theorem Handled.nil (me : Option Nat) (H : List HEntry) : Handled me H [] := rfl

theorem receivedIn_append (a b : List HandEv) : receivedIn (a ++ b) = receivedIn a ++ receivedIn b := List.filterMap_append ..

theorem Handled.append {me : Option Nat} {H : List HEntry} {a b : List HandEv} (ha : Handled me H a) (hb : Handled me H b) :
    Handled me H (a ++ b) := by
  unfold Handled
  rw [receivedIn_append, List.flatMap_append, ← ha, ← hb]

theorem Handled.one (me : Option Nat) (H : List HEntry) (tr : InTransfer) :
    Handled me H (.received tr :: (callees me H tr).map (.called · tr)) := by
  have : receivedIn (.received tr :: (callees me H tr).map (.called · tr)) = [tr] := by
    simp [receivedIn, List.filterMap_cons, List.filterMap_map, Function.comp_def]
  unfold Handled
  rw [this]
  simp

/-! ## What callbacks leave alone -/

variable {env : Env}

/-- The registrations, the node ID and the settings. -/
def setup (s : Node) : (Nat → List HEntry) × Nat × List Nat × Option Nat × Bool := (s.hlists, s.hcur, s.hooks, s.nodeId, s.catchExc)

def Keeps {α : Type} (m : PyM Node α) : Prop := ∀ s, setup (m s).2 = setup s

theorem Keeps.pure {α : Type} (a : α) : Keeps (PyM.pure a) := fun _ => rfl
theorem Keeps.raise {α : Type} (e : Err) : Keeps (PyM.raise e : PyM Node α) := fun _ => rfl
theorem Keeps.get : Keeps (PyM.get : PyM Node Node) := fun _ => rfl
theorem Keeps.lift {α : Type} (r : Except Err α) : Keeps (PyM.lift r : PyM Node α) := fun _ => rfl
theorem Keeps.log (e : Ev) : Keeps (Node.log e) := fun _ => rfl

theorem Keeps.bind {α β : Type} {m : PyM Node α} {f : α → PyM Node β} (hm : Keeps m) (hf : ∀ a, Keeps (f a)) : Keeps (m >>- f) := by
  intro s
  rw [bind_run]
  have h := hm s
  cases hms : m s with
  | mk r s1 =>
    rw [hms] at h
    cases r with
    | error e => exact h
    | ok a => exact (hf a s1).trans h

theorem Keeps.tryCatch {α : Type} {m : PyM Node α} {h : Err → PyM Node α} (hm : Keeps m) (hh : ∀ e, Keeps (h e)) : Keeps (PyM.tryCatch m h) := by
  intro s
  unfold PyM.tryCatch
  have h := hm s
  cases hms : m s with
  | mk r s1 =>
    rw [hms] at h
    cases r with
    | error e => exact (hh e s1).trans h
    | ok a => exact h

theorem Keeps.forEach {β : Type} {xs : List β} {f : β → PyM Node Unit} (h : ∀ x ∈ xs, Keeps (f x)) : Keeps (PyM.forEach xs f) := by
  induction xs with
  | nil => exact Keeps.pure ()
  | cons x xs ih => exact (h x List.mem_cons_self).bind fun _ => ih fun y hy => h y (List.mem_cons_of_mem _ hy)

theorem keeps_hooks {call : Call → PyM Node (Option Payload)} (hc : ∀ c, Keeps (call c)) (n : Nat) (arg : HookArg) : Keeps (callHooks env call n arg) := by
  apply Keeps.get.bind
  intro s0
  generalize s0.hooks.length + env.lim + 1 = fuel
  generalize 0 = i
  induction fuel generalizing i with
  | zero => exact Keeps.raise _
  | succ fuel ih =>
    apply Keeps.get.bind
    intro s
    split
    · exact Keeps.pure _
    · exact ((hc _).bind fun _ => Keeps.pure _).tryCatch (fun _ => Keeps.pure _) |>.bind fun _ => ih _

theorem keeps_send {call : Call → PyM Node (Option Payload)} (hc : ∀ c, Keeps (call c)) (n : Nat) (p : Payload) (h : Header) (tid : Nat) (canfd : Bool) :
    Keeps (sendTransfer env call n p h tid canfd) := by
  apply (Keeps.lift _).bind
  intro t
  apply (keeps_hooks hc _ _).bind
  intro _
  apply (Keeps.lift _).bind
  intro tf
  refine Keeps.bind (Keeps.forEach fun f _ s => ?_) fun _ => Keeps.pure _
  unfold sendFrame
  split <;> rfl

theorem keeps_acceptTid (kind : TxKind) (dtid : Nat) (prio : Option Nat) (key : TidKey) : Keeps (acceptTid kind dtid prio key) := by
  intro s
  unfold acceptTid
  split <;> rfl

theorem keeps_exec {call : Call → PyM Node (Option Payload)} (hc : ∀ c, Keeps (call c)) (c : Cmd) (hq : c.quiet = true) : Keeps (exec env call c) := by
  cases c with
  | tick d => exact fun _ => rfl
  | defer t => exact Keeps.bind (fun _ => rfl) fun _ => Keeps.pure _
  | periodic p => exact Keeps.bind (fun _ => rfl) fun _ => Keeps.pure _
  | cancel i =>
    intro s
    show setup (Node.cancel i s).2 = _
    unfold Node.cancel
    split
    · split <;> rfl
    · rfl
  | request p dest prio timeout canfd =>
    show Keeps (request env call p dest prio timeout canfd)
    unfold request
    apply Keeps.get.bind
    intro s0
    apply (keeps_acceptTid _ _ _ _).bind
    intro x
    apply (keeps_send hc x.1 p _ _ _).bind
    intro t
    apply (Keeps.lift _).bind
    intro mid
    exact fun _ => rfl
  | respond p dest tid prio canfd =>
    show Keeps (respond env call p dest tid prio canfd)
    unfold respond
    apply Keeps.get.bind
    intro s0
    apply Keeps.bind
    · intro s
      unfold acceptResponse
      split <;> rfl
    intro x
    exact Keeps.bind (keeps_send hc x.1 p _ _ _) fun _ => Keeps.pure _
  | broadcast p prio canfd =>
    show Keeps (broadcast env call p prio canfd)
    unfold broadcast
    apply Keeps.get.bind
    intro s0
    apply (keeps_acceptTid _ _ _ _).bind
    intro x
    exact Keeps.bind (keeps_send hc x.1 p _ _ _) fun _ => Keeps.pure _
  | setCanfd b => exact fun _ => rfl
  | raise e => exact Keeps.raise _
  | _ => cases hq

theorem keeps_script (hq : Quiet env) {call : Call → PyM Node (Option Payload)} (hc : ∀ c, Keeps (call c)) (c : Call) : Keeps (runScript env call c) := by
  apply Keeps.get.bind
  intro s
  apply (Keeps.log _).bind
  intro _
  refine (Keeps.tryCatch (Keeps.forEach fun a ha => ?_) fun e => (Keeps.log _).bind fun _ => Keeps.raise _).bind fun _ => Keeps.pure _
  have h := keeps_exec (env := env) hc a.1 (hq s c a ha)
  show Keeps (if a.2 then PyM.tryCatch (exec env call a.1) (fun _ => PyM.pure ()) else exec env call a.1)
  split
  · exact h.tryCatch fun _ => Keeps.pure _
  · exact h

theorem keeps_call (hq : Quiet env) : ∀ c, Keeps (hookCall env c) := by
  unfold hookCall
  generalize env.lim = n
  induction n with
  | zero => exact fun _ => Keeps.raise _
  | succ n ih => exact fun c => keeps_script hq ih c

theorem keeps_handler (hq : Quiet env) (e : HEntry) (tr : InTransfer) : Keeps (callHandler env e tr) := by
  unfold callHandler
  apply Keeps.bind
  · split
    · exact (Keeps.log _).bind fun _ => Keeps.get.bind fun _ => Keeps.pure _
    · exact keeps_script hq (keeps_call hq) _
  · intro result
    split
    · split
      · exact Keeps.pure _
      · cases result with
        | none => exact Keeps.raise _
        | some p => exact keeps_exec (keeps_call hq) (.respond p tr.header.source tr.tid.toNat (some tr.header.prio) none) rfl
    · cases result with
      | none => exact Keeps.pure _
      | some p => exact Keeps.raise _

theorem takeDue_setup {s s' : Node} {e : TEvent Action} (h : takeDue s = some (e, s')) : setup s' = setup s := by
  unfold takeDue at h
  split at h
  · cases h
  · split at h
    · cases h
    · injection h with h
      injection h with _ h
      subst h
      unfold beforeCallback
      split <;> rfl

theorem keeps_poll (hq : Quiet env) : ∀ ds, Keeps (poll env ds) := by
  intro ds
  induction ds with
  | nil => exact Keeps.pure _
  | cons d ds ih =>
    refine Keeps.bind (fun _ => rfl) fun _ s => ?_
    simp only [bind_run, get_run]
    cases hqu : s.sched.queue with
    | nil => rfl
    | cons e q =>
      simp only
      cases htd : takeDue s with
      | none => rfl
      | some es =>
        obtain ⟨e', s'⟩ := es
        have h1 : Keeps (runAction env e'.action >>- fun _ => poll env ds) := by
          refine Keeps.bind ?_ fun _ => ih
          unfold runAction
          split
          · exact (keeps_script hq (keeps_call hq) _).bind fun _ => Keeps.pure _
          · exact (keeps_script hq (keeps_call hq) _).bind fun _ => Keeps.pure _
          · refine Keeps.get.bind fun s => ?_
            split
            · exact Keeps.pure _
            · exact Keeps.pure _
            · exact keeps_exec (keeps_call hq) (.broadcast (env.statusPayload s) none none) rfl
          · exact (keeps_script hq (keeps_call hq) _).bind fun _ => Keeps.pure _
        exact (h1 s').trans (takeDue_setup htd)

/-! ## The log -/

theorem blind_hand : Blind 0 handEv where
  armed _ _ _ _ := rfl
  cancelled _ _ := rfl
  accepted _ _ := rfl
  requested _ _ _ _ _ := rfl
  frame _ _ _ := rfl
  hook _ _ _ _ := rfl
  hookRaised _ _ _ _ := rfl

theorem hand_poll (K : List HandEv) : PollClosed env 0 (fun _ s => handLog s.trace = K) where
  user _ := blind_hand.user K
  fire s e s' h ht := by
    unfold takeDue at ht
    split at ht
    · cases ht
    · split at ht
      · cases ht
      · injection ht with ht
        injection ht with h1 h2
        subst h2
        show ((beforeCallback _ _).trace ++ callOf e.action).filterMap handEv = K
        rw [beforeCallback_trace, List.filterMap_append, filterMap_snoc_none rfl]
        have : (callOf e.action).filterMap handEv = [] := by
          cases e.action <;> rfl
        rw [this, List.append_nil]
        exact h
  raisedTimer _ _ h := (filterMap_snoc_none rfl).trans h
  raisedTimeout _ _ h := (filterMap_snoc_none rfl).trans h

theorem callHandler_hand (e : HEntry) (tr : InTransfer) (s : Node) :
    handLog (callHandler env e tr s).2.trace = handLog s.trace ++ [.called e.uid tr] := by
  have h := callHandler_proj (env := env) blind_hand (fun _ _ => rfl) e tr s (Nat.zero_le _)
  unfold handLog
  rw [h, List.filterMap_append]
  rfl

theorem callHandlers_hand (hq : Quiet env) (tr : InTransfer) (s : Node) (hce : s.catchExc = true) :
    (callHandlers env tr s).1 = .ok () ∧ setup (callHandlers env tr s).2 = setup s ∧
      handLog (callHandlers env tr s).2.trace = handLog s.trace ++ (wanting s tr).map fun e => .called e.uid tr := by
  have hst : TableStable env tr s := by
    intro e _ s' hs'
    have := congrArg (fun x => x.1 s.hcur) (keeps_handler hq e tr s')
    exact this.trans hs'
  rw [callHandlers_eq env tr s hst, hce]
  generalize wanting s tr = L
  clear hst hce
  induction L generalizing s with
  | nil => simp [PyM.forEach]
  | cons e L ih =>
    have hl := callHandler_hand (env := env) e tr s
    have hk := keeps_handler hq e tr s
    simp only [PyM.forEach, bind_run, attempt, if_true, PyM.tryCatch]
    cases hc : callHandler env e tr s with
    | mk r s1 =>
      rw [hc] at hl hk
      simp only at hl hk
      have h2 := ih s1
      rw [hl, hk] at h2
      cases r with
      | ok a => simpa using h2
      | error err => simpa using h2

theorem dispatch_hand (hq : Quiet env) (tr : InTransfer) (s : Node) (hce : s.catchExc = true) :
    setup (dispatch env tr s).2 = setup s ∧
      handLog (dispatch env tr s).2.trace = handLog s.trace ++ (callees s.nodeId (s.hlists s.hcur) tr).map (.called · tr) := by
  by_cases h : tr.header.service = true ∧ tr.header.request = false ∧ tr.header.dest = s.nodeId
  · obtain ⟨hs, hr, hd⟩ := h
    have hno : callees s.nodeId (s.hlists s.hcur) tr = [] := by
      unfold callees
      rw [if_neg]
      rintro (h | h | h)
      · rw [hs] at h; cases h
      · rw [hr] at h; cases h.1
      · exact h.2.1 hd
    rw [hno]
    simp only [dispatch, bind_run, get_run, hs, hr, hd, Bool.not_false, Bool.and_self, decide_true, if_true, List.map_nil, List.append_nil]
    cases hf : findRequest tr s.outstanding with
    | none => exact ⟨rfl, rfl⟩
    | some kq =>
      obtain ⟨key, q⟩ := kq
      have hu := blind_hand.user (env := env) (handLog s.trace)
      have h := runScript_pres hu (hookCall_ok hu) (fun s' => handLog s'.trace = handLog s.trace)
        (.response q.req (some tr)) (dropTimeout q.seq s).2 (Nat.zero_le _)
        (fun s' _ hs' => (filterMap_snoc_none rfl).trans hs') (filterMap_snoc_none rfl)
      have hk := keeps_script hq (keeps_call hq) (.response q.req (some tr)) (dropTimeout q.seq s).2
      simp only [bind_run, dropTimeout, modify_run]
      simp only [dropTimeout, modify_run] at h hk
      cases hc : runScript env (hookCall env) (.response q.req (some tr))
          { s with sched := (s.sched.cancel q.seq).getD s.sched } with
      | mk r s1 =>
        rw [hc] at h hk
        have h1 : handLog s1.trace = handLog s.trace := by
          rcases h.1 with h | h
          · exact h.1
          · exact h.1
        cases r with
        | error e => exact ⟨hk, h1⟩
        | ok a =>
          simp only [delOutstanding]
          split <;> exact ⟨hk, h1⟩
  · by_cases ho : Offered s.nodeId (s.hlists s.hcur) tr
    · have : dispatch env tr s = callHandlers env tr s := by
        rcases ho with h | h | h
        · simp [dispatch, h]
        · by_cases hsv : tr.header.service = true
          · simp [dispatch, hsv, h.1, h.2]
          · simp [dispatch, hsv]
        · by_cases hsv : tr.header.service = true
          · have hsn : sniffing s tr = true := by
              simp only [sniffing, hsv, h.1, Bool.not_false, Bool.and_self, Bool.true_and]
              rw [List.any_eq_true]
              obtain ⟨e, he, ht, hsn⟩ := h.2.2
              exact ⟨e, he, by simp [ht, hsn]⟩
            simp [dispatch, hsv, h.1, h.2.1, hsn]
          · simp [dispatch, hsv]
      rw [this]
      have h2 := callHandlers_hand hq tr s hce
      refine ⟨h2.2.1, h2.2.2.trans ?_⟩
      unfold callees
      rw [if_pos ho, List.map_map]
      rfl
    · have hsv : tr.header.service = true := by
        cases hsv : tr.header.service with
        | true => rfl
        | false => exact absurd (Or.inl hsv) ho
      have : dispatch env tr s = (.ok (), s) := by
        cases hr : tr.header.request with
        | true =>
          have hd : tr.header.dest ≠ s.nodeId := fun hd => ho (Or.inr (Or.inl ⟨hr, hd⟩))
          exact C26_request_elsewhere env tr s hsv hr hd
        | false =>
          have hd : tr.header.dest ≠ s.nodeId := fun hd => h ⟨hsv, hr, hd⟩
          refine C26_response_elsewhere env tr s hsv hr hd ?_
          intro e he ht
          cases hsn : e.sniff with
          | false => rfl
          | true => exact absurd (Or.inr (Or.inr ⟨hr, hd, e, he, ht, hsn⟩)) ho
      rw [this]
      refine ⟨rfl, ?_⟩
      unfold callees
      rw [if_neg ho]
      simp

/-! ## Histories -/

/-- From `s` to `s'` only the handlers registered in `s` were called, as they should be. -/
def Well (s s' : Node) : Prop :=
  setup s' = setup s ∧ ∃ l, handLog s'.trace = handLog s.trace ++ l ∧ Handled s.nodeId (s.hlists s.hcur) l

theorem Well.refl (s : Node) : Well s s := ⟨rfl, [], by simp, Handled.nil _ _⟩

theorem Well.same {s s' : Node} (h : setup s' = setup s) (hl : handLog s'.trace = handLog s.trace) : Well s s' :=
  ⟨h, [], by simp [hl], Handled.nil _ _⟩

theorem Well.trans {s s1 s2 : Node} (h1 : Well s s1) (h2 : Well s1 s2) : Well s s2 := by
  obtain ⟨a1, l1, b1, c1⟩ := h1
  obtain ⟨a2, l2, b2, c2⟩ := h2
  have e1 : s1.nodeId = s.nodeId := congrArg (fun x => x.2.2.2.1) a1
  have e2 : s1.hlists s1.hcur = s.hlists s.hcur := congrArg (fun x => x.1 x.2.1) a1
  rw [e1, e2] at c2
  exact ⟨a2.trans a1, l1 ++ l2, by rw [b2, b1, List.append_assoc], c1.append c2⟩

def Wells {α : Type} (m : PyM Node α) : Prop := ∀ s, s.catchExc = true → Well s (m s).2

theorem Wells.pure {α : Type} (a : α) : Wells (PyM.pure a) := fun s _ => Well.refl s
theorem Wells.get : Wells (PyM.get : PyM Node Node) := fun s _ => Well.refl s

theorem Wells.bind {α β : Type} {m : PyM Node α} {f : α → PyM Node β} (hm : Wells m) (hf : ∀ a, Wells (f a)) : Wells (m >>- f) := by
  intro s hs
  rw [bind_run]
  have h := hm s hs
  cases hms : m s with
  | mk r s1 =>
    rw [hms] at h
    cases r with
    | error e => exact h
    | ok a =>
      have hc : s1.catchExc = s.catchExc := congrArg (fun x => x.2.2.2.2) h.1
      exact h.trans (hf a s1 (hc.trans hs))

theorem wells_poll (hq : Quiet env) (ds : List Nat) : Wells (poll env ds) := fun s _ =>
  Well.same (keeps_poll hq ds s) (poll_pres (hand_poll (env := env) (handLog s.trace)) ds s (Nat.zero_le _) rfl).1

theorem wells_log (e : Ev) (he : handEv e = none) : Wells (log e) := fun _ _ => Well.same rfl (filterMap_snoc_none he)

theorem callHooks_ok (hq : Quiet env) (n : Nat) (arg : HookArg) (s : Node) : (callHooks env (hookCall env) n arg s).1 = .ok () := by
  simp only [callHooks, bind_run, get_run]
  rw [hooksLoop_eq (hookCall env) n arg s.hooks ?_ _ 0 s (Nat.zero_le _) (by omega) rfl]
  · generalize s.hooks.drop 0 = L
    induction L generalizing s with
    | nil => rfl
    | cons x L ih =>
      simp only [PyM.forEach, bind_run, PyM.tryCatch]
      cases hookCall env (.hook x n arg) s with
      | mk r s1 => cases r <;> exact ih s1
  · intro hk _ s' hs'
    have := congrArg (fun x => x.2.2.1) (keeps_call hq (.hook hk n arg) s')
    exact this.trans hs'

theorem wells_recv (hq : Quiet env) (raw : RawFrame) : Wells (recvFrame env raw) := by
  intro s hs
  unfold recvFrame
  split
  · exact Well.refl s
  · simp only [tmReceive, bind_run]
    cases ho : (receiveFrame s.tm s.now { id := raw.id, bytes := raw.data, ts := raw.ts, canfd := raw.canfd }).2 with
    | none => exact Well.same rfl rfl
    | some frames =>
      simp only [bind_run, lift_run]
      cases hf : fromFrames env.db frames with
      | error e => exact Well.same rfl rfl
      | ok tr =>
        simp only [acceptRx]
        generalize hs2 : ({ s with
            tm := (receiveFrame s.tm s.now { id := raw.id, bytes := raw.data, ts := raw.ts, canfd := raw.canfd }).1
            nextNum := s.nextNum + 1
            trace := s.trace ++ [.received s.nextNum tr] } : Node) = s2
        have h2 : setup s2 = setup s := by rw [← hs2]; rfl
        have h2l : handLog s2.trace = handLog s.trace ++ [.received tr] := by rw [← hs2]; exact filterMap_snoc_some rfl
        have hn2 : s.nextNum < s2.nextNum := by rw [← hs2]; exact Nat.lt_succ_self _
        have hu := blind_hand.user (env := env) (handLog s2.trace)
        have hk := callHooks_pres (env := env) (hookCall_ok hu) s.nextNum (.rx tr) (Nat.zero_le _) s2 hn2 rfl
        have hk2 := keeps_hooks (env := env) (keeps_call hq) s.nextNum (.rx tr) s2
        have hok := callHooks_ok hq s.nextNum (.rx tr) s2
        cases hc : callHooks env (hookCall env) s.nextNum (.rx tr) s2 with
        | mk r s3 =>
          rw [hc] at hk hk2 hok
          simp only at hk hk2 hok
          subst hok
          have h3 := hk2.trans h2
          have e0 : s3.catchExc = s.catchExc := congrArg (fun x => x.2.2.2.2) h3
          have e1 : s3.nodeId = s.nodeId := congrArg (fun x => x.2.2.2.1) h3
          have e2 : s3.hlists s3.hcur = s.hlists s.hcur := congrArg (fun x => x.1 x.2.1) h3
          obtain ⟨d1, d2⟩ := dispatch_hand hq tr s3 (e0.trans hs)
          refine ⟨d1.trans h3, _, ?_, Handled.one s.nodeId (s.hlists s.hcur) tr⟩
          show handLog (dispatch env tr s3).2.trace = _
          have hk1 : handLog s3.trace = handLog s2.trace := hk.1
          rw [d2, e1, e2, hk1, h2l]
          simp

theorem wells_drain (hq : Quiet env) (fs : List (Option RawFrame)) : ∀ n, Wells (drain env fs n) := by
  induction fs with
  | nil => exact fun n => (wells_log _ rfl).bind fun _ => Wells.pure _
  | cons f fs ih =>
    intro n
    cases f with
    | none => exact (wells_log _ rfl).bind fun _ => Wells.pure _
    | some f => exact (wells_log _ rfl).bind fun _ => (wells_recv hq f).bind fun _ => ih (n + 1)

theorem wells_once (hq : Quiet env) (r : Round) : Wells (executeOnce env r) := by
  apply (wells_poll hq r.clock).bind
  intro _
  refine Wells.bind (fun s _ => Well.same rfl rfl) fun _ => (wells_log _ rfl).bind fun _ => ?_
  cases r.frame with
  | none => exact Wells.pure _
  | some f => exact (wells_recv hq f).bind fun _ => Wells.pure _

theorem wells_loop (hq : Quiet env) (dl : Option Int) : ∀ rs, Wells (spinLoop env dl rs) := by
  intro rs
  induction rs with
  | nil => exact Wells.pure _
  | cons r rs ih =>
    apply Wells.get.bind
    intro s
    split
    · exact (wells_once hq r).bind fun _ => ih
    · exact Wells.pure _

theorem step_well (hq : Quiet env) (op : Op) (hop : ∀ c, op = .api c → c.quiet = true) (s : Node) (hs : s.catchExc = true) : Well s (step env op s) := by
  cases op with
  | api c =>
    have hu := blind_hand.user (env := env) (handLog s.trace)
    exact Well.same (keeps_exec (keeps_call hq) c (hop c rfl) s) (exec_pres hu (hookCall_ok hu) c s (Nat.zero_le _) rfl).1
  | poll ds => exact wells_poll hq ds s hs
  | frame f => exact wells_recv hq f s hs
  | spin0 fs ds => exact ((wells_drain hq fs 0).bind fun _ => (wells_poll hq ds).bind fun _ => Wells.pure _) s hs
  | spin t r rs => exact (Wells.get.bind fun _ => (wells_once hq r).bind fun _ => (wells_loop hq _ rs).bind fun _ => Wells.pure _) s hs

/-- From any state on: as long as neither the main program nor the callbacks change the registrations or the node ID, every transfer received is
followed by calls of exactly the handlers registered for it, once each, in order of registration, before anything else is received. What
handlers and hooks do and raise makes no difference. -/
theorem C92_handled (hq : Quiet env) (ops : List Op) (hops : QuietOps ops) (s : Node) (hs : s.catchExc = true) :
    ∃ l, handLog (run env ops s).trace = handLog s.trace ++ l ∧ Handled s.nodeId (s.hlists s.hcur) l := by
  have : Well s (run env ops s) := by
    induction ops generalizing s with
    | nil => exact Well.refl s
    | cons op ops ih =>
      have h := step_well hq op (fun c hc => hops c (by rw [← hc]; exact List.mem_cons_self)) s hs
      have hc : (step env op s).catchExc = s.catchExc := congrArg (fun x => x.2.2.2.2) h.1
      exact h.trans (ih (fun c hc => hops c (List.mem_cons_of_mem _ hc)) _ (hc.trans hs))
  exact this.2

theorem flatMap_received {C : InTransfer → List Nat} (L : List InTransfer) : ∀ {a b : List HandEv} {tr : InTransfer},
    (L.flatMap fun tr => .received tr :: (C tr).map (.called · tr)) = a ++ .received tr :: b → ∃ b', b = (C tr).map (.called · tr) ++ b' := by
  induction L with
  | nil =>
    intro a b tr h
    simp at h
  | cons tr0 L ih =>
    intro a b tr h
    rw [List.flatMap_cons] at h
    cases a with
    | nil =>
      injection h with h1 h2
      injection h1 with h1
      subst h1
      exact ⟨_, h2.symm⟩
    | cons x a =>
      injection h with _ h
      rcases List.append_eq_append_iff.1 h with ⟨a', h1, h2⟩ | ⟨c', h1, h2⟩
      · exact ih h2
      · cases c' with
        | nil => exact ih (a := []) h2.symm
        | cons y c' =>
          injection h2 with h2 _
          subst h2
          have : HandEv.received tr ∈ (C tr0).map (HandEv.called · tr0) := by rw [h1]; simp
          obtain ⟨u, _, hu⟩ := List.mem_map.1 this
          cases hu

/-- Directly after a reception the handlers registered for it are called, in order. -/
theorem C92_each (hq : Quiet env) (ops : List Op) (hops : QuietOps ops) (s : Node) (hs : s.catchExc = true) (t : List Ev)
    (ht : (run env ops s).trace = s.trace ++ t) (a b : List HandEv) (tr : InTransfer) (hr : handLog t = a ++ .received tr :: b) :
    ∃ b', b = (callees s.nodeId (s.hlists s.hcur) tr).map (.called · tr) ++ b' := by
  obtain ⟨l, h1, h2⟩ := C92_handled hq ops hops s hs
  rw [ht] at h1
  have h3 : handLog (s.trace ++ t) = handLog s.trace ++ handLog t := List.filterMap_append ..
  rw [h3] at h1
  have h4 := List.append_cancel_left h1
  rw [← h4] at h2
  rw [hr] at h2
  exact flatMap_received _ h2.symm

/-- No handler is called without a reception. -/
theorem C92_only (hq : Quiet env) (ops : List Op) (hops : QuietOps ops) (s : Node) (hs : s.catchExc = true) (t : List Ev)
    (ht : (run env ops s).trace = s.trace ++ t) (u : Nat) (tr : InTransfer) (hc : Ev.called (.handler u tr) ∈ t) :
    (∃ m, Ev.received m tr ∈ t) ∧ u ∈ callees s.nodeId (s.hlists s.hcur) tr := by
  obtain ⟨l, h1, h2⟩ := C92_handled hq ops hops s hs
  rw [ht] at h1
  have h3 : handLog (s.trace ++ t) = handLog s.trace ++ handLog t := List.filterMap_append ..
  rw [h3] at h1
  have h4 := List.append_cancel_left h1
  rw [← h4] at h2
  have hm : HandEv.called u tr ∈ handLog t := List.mem_filterMap.2 ⟨_, hc, rfl⟩
  rw [h2] at hm
  obtain ⟨tr', hr, hm⟩ := List.mem_flatMap.1 hm
  rcases List.mem_cons.1 hm with hm | hm
  · cases hm
  · obtain ⟨u', hu', he⟩ := List.mem_map.1 hm
    injection he with e1 e2
    subst e1 e2
    refine ⟨?_, hu'⟩
    obtain ⟨x, hx, he⟩ := List.mem_filterMap.1 hr
    cases x with
    | called _ _ => cases he
    | received tr'' =>
      injection he with he
      subst he
      obtain ⟨ev, hev, he⟩ := List.mem_filterMap.1 hx
      cases ev with
      | received m tr3 =>
        injection he with he
        injection he with he
        subst he
        exact ⟨m, hev⟩
      | called c =>
        cases c with
        | handler u2 t2 =>
          injection he with he
          cases he
        | _ => cases he
      | _ => cases he

/-- From the sender's call to the receivers' handlers: the frames of a transfer sent (`Understood`, C91) lead to one call of each handler registered
for it, with the transfer sent, before anything else is received. -/
theorem C92_end_to_end (dt : DataType) (service : Bool) (frames : List Frame) (tr : Option Int → InTransfer) (hu : Understood dt service frames tr)
    (hq : Quiet env) (first ops : List Op) (hp : Public (first ++ ops)) (hops : QuietOps ops) (hreg : env.db dt.dtid service = some dt)
    (nid : Option Nat) (t0 : Int) (iv : Option Int) (ce fd : Bool) (it : Nat × Bool) (s : Node) (hs : s = run env first (init nid t0 iv ce fd it))
    (hce : s.catchExc = true) (pre post : List Ev) (raw r : RawFrame) (rest : List RawFrame) (old : List Frame)
    (htr : (run env ops s).trace = s.trace ++ (pre ++ .read (some raw) :: post)) (hx : raw.extended = true) (ha : Arrive frames (r :: rest))
    (hk : ofKey raw.toFrame.key (framesIn (netLog (s.trace ++ pre)) ++ [raw.toFrame]) = old ++ (r :: rest).map RawFrame.toFrame) :
    ∃ a b, handLog post = a ++ .received (tr r.ts) :: (callees s.nodeId (s.hlists s.hcur) (tr r.ts)).map (.called · (tr r.ts)) ++ b ∧
      receivedIn a = [] := by
  have hrun : run env (first ++ ops) (init nid t0 iv ce fd it) = run env ops s := by
    rw [hs]
    exact List.foldl_append ..
  obtain ⟨mid, m, post', hpost, hmid⟩ := hu env (first ++ ops) nid t0 iv ce fd it (s.trace ++ pre) post raw r rest old hp hreg
    (by rw [hrun, htr]; simp) hx ha hk
  have hl : handLog (pre ++ .read (some raw) :: post) =
      (handLog pre ++ handLog mid) ++ .received (tr r.ts) :: handLog post' := by
    rw [hpost]
    show List.filterMap handEv (pre ++ _) = _
    rw [List.filterMap_append, List.append_assoc]
    show handLog pre ++ handLog (mid ++ _) = _
    congr 1
    exact List.filterMap_append ..
  obtain ⟨b, hb⟩ := C92_each hq ops hops s hce _ htr _ _ _ hl
  refine ⟨handLog mid, b, ?_, ?_⟩
  · have : handLog post = handLog mid ++ .received (tr r.ts) :: handLog post' := by
      rw [hpost]
      simp [handLog, handEv]
    rw [this, hb]
    simp
  · clear hpost hl hb
    induction mid with
    | nil => rfl
    | cons e mid ih =>
      cases hne : netEv e with
      | some x => simp [netLog, hne] at hmid
      | none =>
        have hm2 : netLog mid = [] := by simpa [netLog, hne] using hmid
        have hh : receivedIn (handLog (e :: mid)) = receivedIn (handLog mid) := by
          cases e with
          | received m tr => cases hne
          | called c => cases c <;> rfl
          | _ => rfl
        rw [hh]
        exact ih hm2

/-! An example: node 9 of the example above registers a handler for the type and one for everything; another is for another type. -/

example : Quiet netEnv := fun _ _ _ h => (List.not_mem_nil h).elim
example : QuietOps [.spin0 (tenFrames.map some) [0], .poll [5]] := by
  intro c h
  simp at h

/-- The kinds of the events. -/
def HandEv.kind : HandEv → Nat × Option Nat
  | .received tr => (tr.header.source, none)
  | .called u tr => (tr.header.source, some u)

example : (handLog (run netEnv [.spin0 (tenFrames.map some) [0], .poll [5]]
    (run netEnv [.api (.addHandler (some (1000, false)) false), .api (.addHandler (some (1001, false)) false), .api (.addHandler none false)]
      (init (some 9) 0 none true false (1, true)))).trace).map HandEv.kind = [(5, none), (5, some 1), (5, some 3)] := by decide +kernel

end Dronecan
