import Verif.Proofs.Timers
import Verif.Proofs.Dict
import Verif.Spec.Transmit
import Verif.Props.Framing

/-! Invariants of transmissions. -/

namespace Dronecan.Transmit
open Node Timers

/-- The counter that a transmission uses. -/
def keyOf (c : TxCall) : Option TidKey :=
  match c.kind with
  | .broadcast => some (.msg c.dtid)
  | .request dest => some (.svc c.dtid dest)
  | .response _ => none

/-- Does this entry use the counter `key`? -/
def usesKey (key : TidKey) : Ev → Bool
  | .accepted _ c => decide (keyOf c = some key)
  | _ => false

theorem sameStream_eq {c : TxCall} {key : TidKey} (h : keyOf c = some key) : sameStream c = usesKey key := by
  funext x
  cases x with
  | accepted n c' =>
    obtain ⟨k, d, t, p, s⟩ := c
    obtain ⟨k', d', t', p', s'⟩ := c'
    simp only [sameStream, usesKey]
    cases k <;> simp only [keyOf, Option.some.injEq, reduceCtorEq] at h
    · subst h
      cases k' <;> simp [keyOf]
    · subst h
      rw [Bool.eq_iff_iff]
      cases k' <;> simp [keyOf, and_comm]
  | _ => rfl

/-- What entries of the history must satisfy. -/
def EvOk (pre : List Ev) (x : Ev) : Prop :=
  (∀ n c, x = .accepted n c → counted c = true → c.tid = pre.countP (sameStream c) % 32) ∧
  (∀ n f, x = .frame n f → ∃ c, .accepted n c ∈ pre ∧ f.tail.toNat % 32 = c.tid % 32 ∧
    encodeId { headerOf c with dtid := c.dtid } = .ok f.id)

structure XInv (s : Node) : Prop where
  tids : ∀ key, (s.tids.get? key).getD 0 = s.trace.countP (usesKey key) % 32
  num : ∀ n c, .accepted n c ∈ s.trace → n < s.nextNum
  uniq : ∀ n c c', .accepted n c ∈ s.trace → .accepted n c' ∈ s.trace → c = c'
  src : ∀ n c, .accepted n c ∈ s.trace → s.nodeId = some c.source ∧ c.source ≠ 0
  hist : HistAll EvOk s.trace

/-- Entries without meaning for transmissions. -/
def quietX : Ev → Bool
  | .accepted .. | .frame .. => false
  | _ => true

theorem evOk_quiet {pre : List Ev} {x : Ev} (h : quietX x = true) : EvOk pre x := by
  constructor
  · rintro n c rfl; simp [quietX] at h
  · rintro n c rfl; simp [quietX] at h

theorem XInv.frame {s s' : Node} (h : XInv s) (ht : s'.tids = s.tids) (hn : s.nextNum ≤ s'.nextNum)
    (hid : ∀ v, v ≠ 0 → s.nodeId = some v → s'.nodeId = some v) (evs : List Ev) (he : s'.trace = s.trace ++ evs)
    (hq : ∀ x ∈ evs, quietX x = true) : XInv s' := by
  have hc : ∀ key, evs.countP (usesKey key) = 0 := by
    intro key
    rw [List.countP_eq_zero]
    intro x hx
    have := hq x hx
    cases x <;> simp [usesKey, quietX] at *
  have hm : ∀ n c, .accepted n c ∈ s'.trace → .accepted n c ∈ s.trace := by
    intro n c hx
    rw [he] at hx
    rcases List.mem_append.1 hx with hx | hx
    · exact hx
    · have := hq _ hx; simp [quietX] at this
  constructor
  · intro key; rw [ht, he, List.countP_append, hc]; exact h.tids key
  · intro n c hx; exact Nat.lt_of_lt_of_le (h.num n c (hm n c hx)) hn
  · intro n c c' h1 h2; exact h.uniq n c c' (hm _ _ h1) (hm _ _ h2)
  · intro n c hx
    obtain ⟨h1, h2⟩ := h.src n c (hm n c hx)
    exact ⟨hid _ h2 h1, h2⟩
  · rw [he]; exact h.hist.append evs fun pre x hx => evOk_quiet (hq x hx)

theorem XInv.same {s s' : Node} (h : XInv s) (ht : s'.tids = s.tids) (hn : s'.nextNum = s.nextNum)
    (hid : s'.nodeId = s.nodeId) (evs : List Ev) (he : s'.trace = s.trace ++ evs)
    (hq : ∀ x ∈ evs, quietX x = true) : XInv s' :=
  h.frame ht (by omega) (fun v _ h => by rw [hid]; exact h) evs he hq

theorem XInv.log {s : Node} (h : XInv s) (x : Ev) (hx : quietX x = true) : XInv (Node.log x s).2 :=
  h.same rfl rfl rfl [x] rfl (by simpa using hx)

theorem XInv.accept {s : Node} (h : XInv s) (c : TxCall) (hs : s.nodeId = some c.source) (h0 : c.source ≠ 0)
    (tids' : Dict TidKey Nat)
    (ht : ∀ key, (tids'.get? key).getD 0 = (s.trace.countP (usesKey key) + if keyOf c = some key then 1 else 0) % 32)
    (hc : ∀ key, keyOf c = some key → c.tid = (s.tids.get? key).getD 0) :
    XInv { s with tids := tids', nextNum := s.nextNum + 1, trace := s.trace ++ [.accepted s.nextNum c] } := by
  constructor
  · intro key
    simp only [ht, List.countP_append, List.countP_cons, List.countP_nil, usesKey, decide_eq_true_eq, Nat.zero_add]
  · intro n c' hx
    rcases List.mem_append.1 hx with hx | hx
    · exact Nat.lt_succ_of_lt (h.num n c' hx)
    · simp only [List.mem_singleton, Ev.accepted.injEq] at hx
      rw [hx.1]; exact Nat.lt_succ_self _
  · intro n c1 c2 h1 h2
    rcases List.mem_append.1 h1 with h1 | h1 <;> rcases List.mem_append.1 h2 with h2 | h2
    · exact h.uniq n c1 c2 h1 h2
    · simp only [List.mem_singleton, Ev.accepted.injEq] at h2
      have := h.num _ _ h1; omega
    · simp only [List.mem_singleton, Ev.accepted.injEq] at h1
      have := h.num _ _ h2; omega
    · simp only [List.mem_singleton, Ev.accepted.injEq] at h1 h2
      rw [h1.2, h2.2]
  · intro n c' hx
    rcases List.mem_append.1 hx with hx | hx
    · exact h.src n c' hx
    · simp only [List.mem_singleton, Ev.accepted.injEq] at hx
      rw [hx.2]; exact ⟨hs, h0⟩
  · refine h.hist.snoc ⟨?_, ?_⟩
    · intro n c' he hcnt
      injection he with _ he
      subst he
      obtain ⟨key, hk⟩ : ∃ key, keyOf c = some key := by
        unfold counted at hcnt
        unfold keyOf
        split <;> simp_all
      rw [sameStream_eq hk, hc key hk, h.tids]
    · intro n f he; cases he

theorem XInv.acceptTid {s : Node} (h : XInv s) (k : TxKind) (d : Nat) (p : Option Nat) (key : TidKey)
    (hk : ∀ t so, keyOf { kind := k, dtid := d, tid := t, prio := p, source := so } = some key) :
    XInv (Node.acceptTid k d p key s).2 := by
  unfold Node.acceptTid
  split
  · exact h
  · exact h
  · rename_i v hne hid
    refine h.accept _ hid (fun h0 => ?_) _ ?_ ?_
    · simp only at h0; subst h0; exact hne rfl
    · intro key'
      rw [Dict.get?_set]
      by_cases hkk : key = key'
      · subst hkk
        rw [if_pos rfl, if_pos (hk _ _), h.tids, and_5]
        simp only [Option.getD_some]
        omega
      · rw [if_neg hkk, if_neg (by rw [hk]; simpa using hkk)]
        exact h.tids key'
    · intro key' hk'
      rw [hk] at hk'
      injection hk' with hk'
      rw [hk']

theorem frameOf_ok {c : TxCall} {f : Frame} (h : FrameOf c f) :
    f.tail.toNat % 32 = c.tid % 32 ∧ encodeId { headerOf c with dtid := c.dtid } = .ok f.id := by
  obtain ⟨p, canfd, t, t', frames, hd, hm, hf, hmem⟩ := h
  obtain ⟨e1, e2⟩ := mkTransfer_header hm
  obtain ⟨-, h1, h2, -⟩ := C13_frame_sequence t t' frames hf
  obtain ⟨i, hi, rfl⟩ := List.getElem_of_mem hmem
  refine ⟨?_, ?_⟩
  · rw [(h1 i hi).2.1, e2]
  · rw [← (h2 _ hmem).1, e1, hd]

theorem XInv.user (env : Env) : UserClosed env 0 XInv where
  tick d s h := h.same rfl rfl rfl [] (List.append_nil _).symm (by simp)
  defer t s h := h.same rfl rfl rfl [_] rfl (by simp [quietX])
  periodic p s h := h.same rfl rfl rfl [_] rfl (by simp [quietX])
  cancel i s h := by
    unfold Node.cancel
    split
    · split
      · exact h.same rfl rfl rfl [_] rfl (by simp [quietX])
      · exact h.same rfl rfl rfl [_] rfl (by simp [quietX])
    · exact h
  acceptReq dest dtid prio s h := h.acceptTid _ _ _ _ fun _ _ => rfl
  acceptMsg dtid prio s h := h.acceptTid _ _ _ _ fun _ _ => rfl
  acceptResponse dest dtid tid prio s h := by
    unfold acceptResponse
    split
    · exact h
    · exact h
    · rename_i v hne hid
      refine h.accept { kind := .response dest, dtid, tid, prio, source := v } hid (fun h0 => ?_) s.tids ?_ ?_
      · simp only at h0; subst h0; exact hne rfl
      · intro key; simp only [keyOf, reduceCtorEq, if_false, Nat.add_zero]; exact h.tids key
      · intro key hk; cases hk
  sendFrame n f c s _ ha hf h := by
    unfold sendFrame
    split
    · exact h
    · have hm : ∀ n' c', .accepted n' c' ∈ s.trace ++ [Ev.frame n f] → .accepted n' c' ∈ s.trace := by
        intro n' c' hx
        rcases List.mem_append.1 hx with hx | hx
        · exact hx
        · simp at hx
      constructor
      · intro key
        simp only [List.countP_append, List.countP_cons, List.countP_nil, usesKey, Bool.false_eq_true, if_false,
          Nat.add_zero]
        exact h.tids key
      · exact fun n' c' hx => h.num n' c' (hm _ _ hx)
      · exact fun n' c' c'' hx hy => h.uniq n' c' c'' (hm _ _ hx) (hm _ _ hy)
      · exact fun n' c' hx => h.src n' c' (hm _ _ hx)
      · refine h.hist.snoc ⟨fun n' c' he => (by cases he), fun n' f' he => ?_⟩
        injection he with e1 e2
        subst e1 e2
        exact ⟨c, ha, frameOf_ok hf⟩
  registerRequest n c mid dest to s _ _ _ _ h := h.same rfl rfl rfl [_] rfl (by simp [quietX])
  addHandler t sn s h := h.same rfl rfl rfl [] (List.append_nil _).symm (by simp)
  removeHandler u s h := by
    unfold removeHandler
    split
    · exact h.same rfl rfl rfl [] (List.append_nil _).symm (by simp)
    · exact h
  removeHandlers t s h := h.same rfl rfl rfl [] (List.append_nil _).symm (by simp)
  addHook s h := h.same rfl rfl rfl [] (List.append_nil _).symm (by simp)
  removeHook hk s h := by
    unfold removeHook
    split
    · exact h.same rfl rfl rfl [] (List.append_nil _).symm (by simp)
    · exact h
  setNodeId v s h := by
    unfold setNodeId
    split
    · rename_i han
      split
      · exact h
      · refine h.frame rfl (Nat.le_refl _) (fun w hw hs => ?_) [] (List.append_nil _).symm (by simp)
        simp only [isAnonymous, hs, Option.getD_some, beq_iff_eq] at han
        exact absurd han hw
    · exact h
  setCanfd v s h := h.same rfl rfl rfl [] (List.append_nil _).symm (by simp)
  logHook hk n arg s _ _ h := h.log _ rfl
  logHookRaised hk n arg s _ _ h := h.log _ rfl

theorem beforeCallback_fields (e : TEvent Action) (s : Node) :
    (beforeCallback e s).tids = s.tids ∧ (beforeCallback e s).nextNum = s.nextNum ∧
      (beforeCallback e s).nodeId = s.nodeId ∧ (beforeCallback e s).trace = s.trace := by
  unfold beforeCallback
  split <;> exact ⟨rfl, rfl, rfl, rfl⟩

theorem XInv.top (env : Env) : TopClosed env (fun _ => XInv) where
  user _ := XInv.user env
  fire s e s' h ht := by
    obtain ⟨q, hq, -, rfl⟩ := takeDue_some ht
    obtain ⟨h1, h2, h3, h4⟩ := beforeCallback_fields e
      { s with sched := { s.sched with queue := q }, trace := s.trace ++ [.fired e s.now s.sched.queue] }
    refine h.same h1 h2 h3 (.fired e s.now s.sched.queue :: callOf e.action) (by rw [h4]; simp) ?_
    intro x hx
    rcases List.mem_cons.1 hx with rfl | hx
    · rfl
    · cases ha : e.action <;> rw [ha] at hx <;> simp [callOf] at hx <;> subst hx <;> rfl
  raisedTimer i s h := h.log _ rfl
  raisedTimeout r s h := h.log _ rfl
  tm s tm h := h.same rfl rfl rfl [] (List.append_nil _).symm (by simp)
  rx tr s hf h := h.frame rfl (Nat.le_succ _) (fun _ _ h => h) [_] rfl (by simp [quietX])
  read f s h := h.log _ rfl
  handler u tr s h := h.log _ rfl
  handlerRaised u tr s h := h.log _ rfl
  deliver tr key q s h1 h2 h3 hf h := by
    have : XInv (dropTimeout q.seq s).2 := h.same rfl rfl rfl [] (List.append_nil _).symm (by simp)
    exact this.log _ rfl
  deliverRaised r tr key s h := h.log _ rfl
  del key s h := by
    unfold delOutstanding
    split
    · exact h.same rfl rfl rfl [] (List.append_nil _).symm (by simp)
    · exact h

theorem XInv.init (nid : Option Nat) (now : Int) (iv : Option Int) (ce fd : Bool) (it : Nat × Bool) :
    XInv (Node.init nid now iv ce fd it) :=
  ⟨fun _ => rfl, fun _ _ hk => (List.not_mem_nil hk).elim, fun _ _ _ hk => (List.not_mem_nil hk).elim,
    fun _ _ hk => (List.not_mem_nil hk).elim, HistAll.nil⟩

/-- A predicate of the node ID alone that `setNodeId` keeps is kept by everything. -/
theorem nodeId_top (env : Env) (P : Option Nat → Prop) (hP : ∀ v s, P s.nodeId → P (setNodeId v s).2.nodeId) :
    TopClosed env (fun _ s => P s.nodeId) where
  user _ :=
    { tick := fun d s h => h
      defer := fun t s h => h
      periodic := fun t s h => h
      cancel := fun i s h => by
        unfold Node.cancel
        split
        · split <;> exact h
        · exact h
      acceptReq := fun a b c s h => by unfold acceptTid; split <;> exact h
      acceptMsg := fun a b s h => by unfold acceptTid; split <;> exact h
      acceptResponse := fun a b c d s h => by unfold acceptResponse; split <;> exact h
      sendFrame := fun n f c s _ _ _ h => by unfold sendFrame; split <;> exact h
      registerRequest := fun n c mid dest to s _ _ _ _ h => h
      addHandler := fun t sn s h => h
      removeHandler := fun u s h => by unfold removeHandler; split <;> exact h
      removeHandlers := fun t s h => h
      addHook := fun s h => h
      removeHook := fun hk s h => by unfold removeHook; split <;> exact h
      setNodeId := hP
      setCanfd := fun v s h => h
      logHook := fun hk n arg s _ _ h => h
      logHookRaised := fun hk n arg s _ _ h => h }
  fire s e s' h ht := by
    obtain ⟨q, hq, -, rfl⟩ := takeDue_some ht
    obtain ⟨h1, h2, h3, h4⟩ := beforeCallback_fields e
      { s with sched := { s.sched with queue := q }, trace := s.trace ++ [.fired e s.now s.sched.queue] }
    simp only
    rw [h3]; exact h
  raisedTimer i s h := h
  raisedTimeout r s h := h
  tm s tm h := h
  rx tr s hf h := h
  read f s h := h
  handler u tr s h := h
  handlerRaised u tr s h := h
  deliver tr key q s h1 h2 h3 hf h := h
  deliverRaised r tr key s h := h
  del key s h := by unfold delOutstanding; split <;> exact h

end Dronecan.Transmit
