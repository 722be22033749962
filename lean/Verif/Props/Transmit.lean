import Verif.Proofs.Transmit
import Verif.Props.Requests

/-!
# Transmissions (C23, C29, C30, C31)

Histories are those of an arbitrary program with arbitrary callbacks, as for timers. `accepted n c` in the history is the
point where `request`, `respond` or `broadcast` accepted transmission number `n` with the arguments `c`; `frame n f` is a
frame of it handed to the driver.
-/

namespace Dronecan
open Timers Node Transmit

variable (env : Env) (ops : List Op) (nid : Option Nat) (t : Int) (iv : Option Int) (ce fd : Bool) (it : Nat × Bool)

theorem xinv : XInv (run env ops (init nid t iv ce fd it)) :=
  (run_pres (XInv.top env) ops _ (XInv.init nid t iv ce fd it)).1

/-! ## C23 -/

/-- A call of `request` by a node with a node ID is accepted with the destination, type and priority given. -/
theorem C23_request_is_accepted (p : Payload) (dest : Nat) (prio : Option Nat) (timeout : Option Int)
    (canfd : Option Bool) (s : Node) (v : Nat) (hv : s.nodeId = some v) (h0 : v ≠ 0) :
    ∃ tid, s.trace ++ [.accepted s.nextNum { kind := .request dest, dtid := p.dt.dtid, tid, prio, source := v }] <+:
      (request env (hookCall env) p dest prio timeout canfd s).2.trace := by
  let tid := (s.tids.get? (.svc p.dt.dtid dest)).getD 0
  refine ⟨tid, ?_⟩
  have ha : acceptTid (.request dest) p.dt.dtid prio (.svc p.dt.dtid dest) s = (.ok (s.nextNum, v, tid),
      { s with
        tids := s.tids.set (.svc p.dt.dtid dest) ((tid + 1) &&& 0x1F)
        nextNum := s.nextNum + 1
        trace := s.trace ++ [.accepted s.nextNum { kind := .request dest, dtid := p.dt.dtid, tid, prio, source := v }] }) := by
    unfold acceptTid
    rw [hv]
    cases v with
    | zero => exact absurd rfl h0
    | succ v => rfl
  have hu : UserClosed env 0 (fun _ => True) := by constructor <;> intros <;> trivial
  simp only [request, PyM.bind_run, PyM.get_run, ha]
  have h2 := sendTransfer_pres hu (hookCall_true env) s.nextNum
    { kind := .request dest, dtid := p.dt.dtid, tid, prio, source := v } p (canfd.getD s.sendCanfd) (Nat.zero_le _) rfl
    (acceptTid (.request dest) p.dt.dtid prio (.svc p.dt.dtid dest) s).2 (by rw [ha]; exact Nat.lt_succ_self _)
    (by rw [ha]; exact List.mem_append_right _ List.mem_cons_self) trivial
  rw [ha] at h2
  simp only [headerOf] at h2
  split
  · rename_i tr s2 hst
    rw [hst] at h2
    simp only [PyM.lift_run]
    split
    · rename_i he
      injection he with _ he
      subst he
      exact h2.2.1.1.trans (registerRequest_ext ..).1
    · rename_i he
      injection he with _ he
      subst he
      exact h2.2.1.1
  · rename_i hst
    rw [hst] at h2
    exact h2.2.1.1

/-- A call of `broadcast` by a node with a node ID is accepted with the type and priority given. -/
theorem C23_broadcast_is_accepted (p : Payload) (prio : Option Nat) (canfd : Option Bool) (s : Node) (v : Nat)
    (hv : s.nodeId = some v) (h0 : v ≠ 0) :
    ∃ tid, s.trace ++ [.accepted s.nextNum { kind := .broadcast, dtid := p.dt.dtid, tid, prio, source := v }] <+:
      (broadcast env (hookCall env) p prio canfd s).2.trace := by
  let tid := (s.tids.get? (.msg p.dt.dtid)).getD 0
  refine ⟨tid, ?_⟩
  have ha : acceptTid .broadcast p.dt.dtid prio (.msg p.dt.dtid) s = (.ok (s.nextNum, v, tid),
      { s with
        tids := s.tids.set (.msg p.dt.dtid) ((tid + 1) &&& 0x1F)
        nextNum := s.nextNum + 1
        trace := s.trace ++ [.accepted s.nextNum { kind := .broadcast, dtid := p.dt.dtid, tid, prio, source := v }] }) := by
    unfold acceptTid
    rw [hv]
    cases v with
    | zero => exact absurd rfl h0
    | succ v => rfl
  have hu : UserClosed env 0 (fun _ => True) := by constructor <;> intros <;> trivial
  simp only [broadcast, PyM.bind_run, PyM.get_run, ha]
  have h2 := sendTransfer_pres hu (hookCall_true env) s.nextNum
    { kind := .broadcast, dtid := p.dt.dtid, tid, prio, source := v } p (canfd.getD s.sendCanfd) (Nat.zero_le _) rfl
    (acceptTid .broadcast p.dt.dtid prio (.msg p.dt.dtid) s).2 (by rw [ha]; exact Nat.lt_succ_self _)
    (by rw [ha]; exact List.mem_append_right _ List.mem_cons_self) trivial
  rw [ha] at h2
  simp only [headerOf] at h2
  split
  · rename_i tr s2 hst
    rw [hst] at h2
    exact h2.2.1.1
  · rename_i hst
    rw [hst] at h2
    exact h2.2.1.1

/-- **C23**: a request or broadcast preceded by `k` accepted ones of the same stream (same type and destination, or same
message type) gets the transfer ID `k mod 32`. -/
theorem C23_transfer_id (pre post : List Ev) (n : Nat) (c : TxCall)
    (h : history env ops nid t iv ce fd it = pre ++ .accepted n c :: post) (hc : counted c = true) :
    c.tid = pre.countP (sameStream c) % 32 :=
  ((xinv env ops nid t iv ce fd it).hist pre _ post h).1 n c rfl hc

/-- **C23** on the wire: every frame belongs to exactly one accepted transmission and its tail byte carries that
transmission's transfer ID (modulo 32). -/
theorem C23_on_the_wire (pre post : List Ev) (n : Nat) (f : Frame)
    (h : history env ops nid t iv ce fd it = pre ++ .frame n f :: post) :
    ∃ c, .accepted n c ∈ pre ∧ (∀ c', .accepted n c' ∈ history env ops nid t iv ce fd it → c' = c) ∧
      f.tail.toNat % 32 = c.tid % 32 := by
  obtain ⟨c, hc, h1, -⟩ := ((xinv env ops nid t iv ce fd it).hist pre _ post h).2 n f rfl
  refine ⟨c, hc, fun c' hc' => ?_, h1⟩
  exact (xinv env ops nid t iv ce fd it).uniq n c' c hc' (show Ev.accepted n c ∈ history env ops nid t iv ce fd it by
    rw [h]; exact List.mem_append_left _ hc)

/-- The transmissions of the request example: type, transfer ID, destination. -/
def txLog (tr : List Ev) : List (TxKind × Nat × Nat) := tr.filterMap fun
  | .accepted _ c => some (c.kind, c.dtid, c.tid)
  | _ => none

example : txLog (svcHistory false) = [(.request 20, 5, 0), (.request 20, 5, 1), (.request 21, 5, 0)] ∧
    (svcHistory false).countP isFrame = 3 := by decide +kernel

/-! ## C29 -/

/-- **C29**: `request`, `respond` and `broadcast` on an anonymous node raise and change nothing: no frame is sent, no
transfer ID is consumed, no hook is called. The status publisher does nothing. -/
theorem C29_calls_raise (s : Node) (ha : Anonymous s.nodeId) (call : Call → PyM Node (Option Payload)) (p : Payload)
    (dest tid : Nat) (prio : Option Nat) (timeout : Option Int) (canfd : Option Bool) :
    request env call p dest prio timeout canfd s = (.error .uavcanException, s) ∧
    respond env call p dest tid prio canfd s = (.error .uavcanException, s) ∧
    broadcast env call p prio canfd s = (.error .uavcanException, s) ∧
    sendNodeStatus env s = (.ok (), s) := by
  rcases ha with ha | ha <;>
    simp [request, respond, broadcast, sendNodeStatus, acceptTid, acceptResponse, ha]

/-- **C29**: a node that is anonymous has never handed a frame to its driver and never accepted a transmission, whatever
the program did, whatever was received and however often the scheduler was polled. -/
theorem C29_never_transmits (ha : Anonymous (run env ops (init nid t iv ce fd it)).nodeId) :
    ∀ x ∈ history env ops nid t iv ce fd it, isFrame x = false ∧ isAccepted x = false := by
  have hx := xinv env ops nid t iv ce fd it
  have hno : ∀ n c, Ev.accepted n c ∉ history env ops nid t iv ce fd it := by
    intro n c hm
    obtain ⟨h1, h2⟩ := hx.src n c hm
    rcases ha with ha | ha <;> rw [ha] at h1
    · cases h1
    · injection h1 with h1; exact h2 h1.symm
  intro x hm
  constructor
  · cases x with
    | frame n f =>
      obtain ⟨pre, post, he⟩ := List.append_of_mem hm
      obtain ⟨c, hc, -⟩ := (hx.hist pre _ post he).2 n f rfl
      exact absurd (by rw [he]; exact List.mem_append_left _ hc) (hno n c)
    | _ => rfl
  · cases x with
    | accepted n c => exact absurd hm (hno n c)
    | _ => rfl

example : Anonymous (run (svcEnv false) svcOps (init none 0 none true false (1, true))).nodeId := by
  left; decide +kernel

/-! ## C30 -/

/-- **C30**: once the node has a node ID, nothing that any program does changes it. -/
theorem C30_never_changes (s : Node) (v : Nat) (hs : s.nodeId = some v) (h0 : v ≠ 0) :
    (run env ops s).nodeId = some v := by
  refine (run_pres (nodeId_top env (· = some v) ?_) ops s hs).1
  intro w s' hs'
  have : s'.isAnonymous = false := by simp [isAnonymous, hs', h0]
  simp [setNodeId, this, hs']

/-- **C30**: the node ID is the one given to the constructor, or, if that was none, one between 1 and 127. -/
theorem C30_only_valid : (run env ops (init nid t iv ce fd it)).nodeId = nid ∨
    (Anonymous nid ∧ ∃ v, 1 ≤ v ∧ v ≤ 127 ∧ (run env ops (init nid t iv ce fd it)).nodeId = some v) := by
  refine (run_pres (nodeId_top env (fun o => o = nid ∨ (Anonymous nid ∧ ∃ v, 1 ≤ v ∧ v ≤ 127 ∧ o = some v)) ?_) ops _
    (.inl rfl)).1
  intro w s hs
  unfold setNodeId
  split
  · rename_i han
    split
    · exact hs
    · rename_i hw
      right
      have hw' : 1 ≤ w ∧ w ≤ 127 := by
        rcases Classical.em (1 ≤ w ∧ w ≤ 127) with h | h
        · exact h
        · exact absurd h hw
      have hn : Anonymous nid := by
        rcases hs with hs | ⟨hs, -⟩
        · rw [← hs]
          unfold isAnonymous at han
          cases hi : s.nodeId with
          | none => exact .inl rfl
          | some x => rw [hi] at han; right; simpa using han
        · exact hs
      exact ⟨hn, w.toNat, by omega, by omega, rfl⟩
  · exact hs

/-- A sequence of attempted assignments: what each of them did, and the node afterwards. -/
def assignAll : List Int → Node → List (Except Err Unit) × Node
  | [], s => ([], s)
  | v :: vs, s => ((setNodeId v s).1 :: (assignAll vs (setNodeId v s).2).1, (assignAll vs (setNodeId v s).2).2)

/-- **C30**: in a sequence of assignments to an anonymous node, invalid values are refused with `ValueError` and change
nothing; the first value in 1..127 is taken; every later assignment, valid or not, is refused. -/
theorem C30_assignments (s : Node) (ha : Anonymous s.nodeId) (bad : List Int) (hb : ∀ v ∈ bad, ¬ (1 ≤ v ∧ v ≤ 127)) :
    assignAll bad s = (bad.map fun _ => .error .valueError, s) ∧
    ∀ v rest, 1 ≤ v → v ≤ 127 → assignAll (bad ++ v :: rest) s =
      (bad.map (fun _ => .error .valueError) ++ .ok () :: rest.map (fun _ => .error .uavcanException),
        { s with nodeId := some v.toNat }) := by
  have han : s.isAnonymous = true := by rcases ha with h | h <;> simp [isAnonymous, h]
  induction bad with
  | nil =>
    refine ⟨rfl, fun v rest h1 h2 => ?_⟩
    have hset : setNodeId v s = (.ok (), { s with nodeId := some v.toNat }) := by
      unfold setNodeId
      rw [if_pos han, if_neg (fun h => h ⟨h1, h2⟩)]
    have hrest : ∀ rest : List Int, assignAll rest { s with nodeId := some v.toNat } =
        (rest.map fun _ => .error .uavcanException, { s with nodeId := some v.toNat }) := by
      intro rest
      induction rest with
      | nil => rfl
      | cons w rest ih =>
        have hw : setNodeId w { s with nodeId := some v.toNat } =
            (.error .uavcanException, { s with nodeId := some v.toNat }) := by
          unfold setNodeId
          rw [if_neg]
          simp only [isAnonymous, Option.getD_some, beq_iff_eq]
          omega
        simp only [assignAll, hw, ih, List.map_cons]
    simp only [List.nil_append, assignAll, hset, hrest, List.map_nil]
  | cons w bad ih =>
    have hw : setNodeId w s = (.error .valueError, s) := by
      unfold setNodeId
      rw [if_pos han, if_pos (hb w List.mem_cons_self)]
    obtain ⟨i1, i2⟩ := ih fun v hv => hb v (List.mem_cons_of_mem _ hv)
    refine ⟨?_, fun v rest h1 h2 => ?_⟩
    · simp only [assignAll, hw, i1, List.map_cons]
    · simp only [List.cons_append, assignAll, hw, i2 v rest h1 h2, List.map_cons]

example : (assignAll [0, -3, 128, 42, 7, 500] {}).1 =
    [.error .valueError, .error .valueError, .error .valueError, .ok (), .error .uavcanException,
      .error .uavcanException] := by decide +kernel

/-! ## C31 -/

theorem encodeId_prio {h : Header} {mid : Nat} (hs : 1 ≤ h.source) (hs' : h.source ≤ 127) (he : encodeId h = .ok mid) :
    mid / 2 ^ 24 % 32 = h.prio % 32 := by
  obtain ⟨prio, source, dest, service, request, disc, dtid⟩ := h
  simp only at hs hs'
  cases service with
  | true =>
    have hd : dtid < 256 := by
      simp only [encodeId, if_true] at he
      split at he
      · cases he
      · omega
    cases dest with
    | none => simp only [encodeId, if_true] at he; split at he <;> cases he
    | some dest =>
      have hdest : 1 ≤ dest ∧ dest ≤ 0x7F := by
        simp only [encodeId, if_true] at he
        split at he
        · cases he
        · split at he
          · cases he
          · omega
      have hdisc : encodeId { prio, source, dest := some dest, service := true, request, discriminator := disc, dtid } =
        encodeId { prio, source, dest := some dest, service := true, request, dtid } := rfl
      rw [hdisc, encode_service prio dtid source dest request hd (by omega) hdest.1 (by omega)] at he
      injection he with he
      have := bool_toNat_lt request
      simp only
      omega
  | false =>
    have hd : dtid < 65536 := by
      simp only [encodeId, Bool.false_eq_true, if_false] at he
      rw [if_neg (by omega)] at he
      split at he
      · cases he
      · omega
    rw [encode_message prio dtid source hd (by omega) (by omega)] at he
    injection he with he
    simp only
    omega

/-- The priority field of a CAN identifier. -/
def prioField (mid : Nat) : Nat := mid / 2 ^ 24 % 32

/-- **C31** as stated: an explicit priority 0..31 of a request or broadcast is the one in the CAN ID of its frames. -/
def C31_statement : Prop :=
  ∀ (env : Env) (ops : List Op) (nid : Option Nat) (t : Int) (iv : Option Int) (ce fd : Bool) (it : Nat × Bool),
    (∀ v, nid = some v → v ≤ 127) → ∀ n f c p, .frame n f ∈ history env ops nid t iv ce fd it →
      .accepted n c ∈ history env ops nid t iv ce fd it → counted c = true → c.prio = some p → p < 32 →
      prioField f.id = p

/-- What the frames carry, for every transmission. -/
theorem C31_wire (hnid : ∀ v, nid = some v → v ≤ 127) (n : Nat) (f : Frame) (c : TxCall)
    (hf : .frame n f ∈ history env ops nid t iv ce fd it) (hc : .accepted n c ∈ history env ops nid t iv ce fd it) :
    prioField f.id = (headerOf c).prio % 32 := by
  have hx := xinv env ops nid t iv ce fd it
  obtain ⟨pre, post, he⟩ := List.append_of_mem hf
  obtain ⟨c', hc', -, h2⟩ := (hx.hist pre _ post he).2 n f rfl
  have : c' = c := hx.uniq n c' c (show Ev.accepted n c' ∈ history env ops nid t iv ce fd it by
    rw [he]; exact List.mem_append_left _ hc') hc
  subst this
  obtain ⟨s1, s2⟩ := hx.src n c' hc
  have hsrc : c'.source ≤ 127 := by
    rcases C30_only_valid env ops nid t iv ce fd it with h | ⟨-, v, -, hv, h⟩
    · rw [h] at s1; exact hnid _ s1
    · rw [h] at s1; injection s1 with s1; omega
  have hh : (headerOf c').source = c'.source := by unfold headerOf; split <;> rfl
  exact encodeId_prio (h := { headerOf c' with dtid := c'.dtid }) (by simp only [hh]; omega)
    (by simp only [hh]; exact hsrc) h2

/-- **C31** holds for the priorities 1..31 (missing: priority 0, see the counterexample). -/
theorem C31_nonzero_partial (hnid : ∀ v, nid = some v → v ≤ 127) (n : Nat) (f : Frame) (c : TxCall) (p : Nat)
    (hf : .frame n f ∈ history env ops nid t iv ce fd it) (hc : .accepted n c ∈ history env ops nid t iv ce fd it)
    (hcnt : counted c = true) (hp : c.prio = some p) (h1 : 1 ≤ p) (h2 : p < 32) : prioField f.id = p := by
  rw [C31_wire env ops nid t iv ce fd it hnid n f c hf hc]
  obtain ⟨k, d, tid, pr, so⟩ := c
  simp only at hp
  subst hp
  cases p with
  | zero => omega
  | succ p =>
    cases k with
    | response d => cases hcnt
    | _ => simp only [headerOf, effPrio]; omega

/-- With priority 0, or no priority, the frames carry the default priority 20. -/
theorem C31_zero_becomes_default (hnid : ∀ v, nid = some v → v ≤ 127) (n : Nat) (f : Frame) (c : TxCall)
    (hf : .frame n f ∈ history env ops nid t iv ce fd it) (hc : .accepted n c ∈ history env ops nid t iv ce fd it)
    (hcnt : counted c = true) (hp : c.prio = some 0 ∨ c.prio = none) : prioField f.id = 20 := by
  rw [C31_wire env ops nid t iv ce fd it hnid n f c hf hc]
  obtain ⟨k, d, tid, pr, so⟩ := c
  simp only at hp
  cases k with
  | response d => cases hcnt
  | _ => rcases hp with rfl | rfl <;> rfl

/-- Responses carry exactly the priority passed to `respond`, including 0. -/
theorem C31_responses (hnid : ∀ v, nid = some v → v ≤ 127) (n : Nat) (f : Frame) (c : TxCall) (p dest : Nat)
    (hf : .frame n f ∈ history env ops nid t iv ce fd it) (hc : .accepted n c ∈ history env ops nid t iv ce fd it)
    (hk : c.kind = .response dest) (hp : c.prio = some p) (h2 : p < 32) : prioField f.id = p := by
  rw [C31_wire env ops nid t iv ce fd it hnid n f c hf hc]
  obtain ⟨k, d, tid, pr, so⟩ := c
  simp only at hp hk
  subst hp hk
  simp only [headerOf, Option.getD_some]; omega

/-- One request with the given priority, from node 10. -/
def prioHistory (p : Nat) : List Ev :=
  history (svcEnv false) [.api (.request { dt := svcType, val := .comp none [] } 20 (some p) none none)] (some 10) 0 none
    true false (1, true)

/-- The priority fields of all frames in a history. -/
def prios (tr : List Ev) : List Nat := tr.filterMap fun
  | .frame _ f => some (prioField f.id)
  | _ => none

example : prios (prioHistory 5) = [5] ∧ prios (prioHistory 0) = [20] := by decide +kernel

/-- **C31** is false: a request with priority 0 goes out with priority 20 (`priority or DEFAULT_TRANSFER_PRIORITY`). -/
theorem C31_counterexample : ¬ C31_statement := by
  intro h
  have hm : ∃ f c, Ev.frame 0 f ∈ prioHistory 0 ∧ Ev.accepted 0 c ∈ prioHistory 0 ∧ counted c = true ∧ c.prio = some 0 := by
    have h1 : (prioHistory 0).any (fun | .frame 0 _ => true | _ => false) = true := by decide +kernel
    have h2 : (prioHistory 0).any (fun | .accepted 0 c => counted c && decide (c.prio = some 0) | _ => false) = true := by
      decide +kernel
    obtain ⟨x, hx, hx'⟩ := List.any_eq_true.1 h1
    obtain ⟨y, hy, hy'⟩ := List.any_eq_true.1 h2
    split at hx'
    rotate_left
    · cases hx'
    split at hy'
    rotate_left
    · cases hy'
    simp only [Bool.and_eq_true, decide_eq_true_eq] at hy'
    exact ⟨_, _, hx, hy, hy'⟩
  obtain ⟨f, c, h1, h2, h3, h4⟩ := hm
  have e1 := h _ _ (some 10) _ _ _ _ _ (by simp) 0 f c 0 h1 h2 h3 h4 (by omega)
  have e2 := C31_zero_becomes_default _ _ (some 10) _ _ _ _ _ (by simp) 0 f c h1 h2 h3 (.inl h4)
  omega

end Dronecan
