import Verif.Props.Transmit
import Verif.Props.Dispatch

/-!
# Service responses, the deadline of `spin`, and the status publisher (C63, C64, C65)
-/

namespace Dronecan
open Node Dispatch PyM Timers Transmit

variable (env : Env)

/-! ## C63 -/

/-- Everything a response records comes after its acceptance. -/
theorem respond_accepted (p : Payload) (dest tid : Nat) (prio : Option Nat) (canfd : Option Bool) (s : Node) (v : Nat)
    (hv : s.nodeId = some v) (h0 : v ≠ 0) :
    s.trace ++ [.accepted s.nextNum { kind := .response dest, dtid := p.dt.dtid, tid, prio, source := v }] <+:
      (respond env (hookCall env) p dest tid prio canfd s).2.trace := by
  have ha : acceptResponse dest p.dt.dtid tid prio s = (.ok (s.nextNum, v),
      { s with
        nextNum := s.nextNum + 1
        trace := s.trace ++ [.accepted s.nextNum { kind := .response dest, dtid := p.dt.dtid, tid, prio, source := v }] }) := by
    unfold acceptResponse
    rw [hv]
    cases v with
    | zero => exact absurd rfl h0
    | succ v => rfl
  have hu : UserClosed env 0 (fun _ => True) := by constructor <;> intros <;> trivial
  simp only [respond, bind_run, get_run, ha]
  have h2 := sendTransfer_pres hu (hookCall_true env) s.nextNum
    { kind := .response dest, dtid := p.dt.dtid, tid, prio, source := v } p (canfd.getD s.sendCanfd) (Nat.zero_le _) rfl
    (acceptResponse dest p.dt.dtid tid prio s).2 (by rw [ha]; exact Nat.lt_succ_self _)
    (by rw [ha]; exact List.mem_append_right _ List.mem_cons_self) trivial
  rw [ha] at h2
  simp only [headerOf] at h2
  split
  · rename_i tr s2 hst
    rw [hst] at h2
    exact h2.2.1.1
  · rename_i hst
    rw [hst] at h2
    exact h2.2.1.1

/-- The transmission that answers request `tr` with payload `p`, sent by node `v`. -/
def answer (tr : InTransfer) (p : Payload) (v : Nat) : TxCall :=
  { kind := .response tr.header.source, dtid := p.dt.dtid, tid := tr.tid.toNat, prio := some tr.header.prio, source := v }

/-- A service handler (not a sniffing one) called with a request sends what its function returns as the response: to
the requester, with the request's transfer ID and priority. -/
theorem C63_responds (e : HEntry) (tr : InTransfer) (s s1 : Node) (p : Payload) (v : Nat) (hb : e.builtin = false)
    (hsv : isService e.type = true) (hsn : e.sniff = false) (hrq : tr.header.request = true)
    (hf : runScript env (hookCall env) (.handler e.uid tr) s = (.ok (some p), s1)) (hv : s1.nodeId = some v) (h0 : v ≠ 0) :
    s1.trace ++ [.accepted s1.nextNum (answer tr p v)] <+: (callHandler env e tr s).2.trace := by
  have : callHandler env e tr s =
      respond env (hookCall env) p tr.header.source tr.tid.toNat (some tr.header.prio) none s1 := by
    simp [callHandler, hb, hsv, hsn, hrq, hf]
  rw [this]
  exact respond_accepted env p tr.header.source tr.tid.toNat (some tr.header.prio) none s1 v hv h0

/-- The built-in GetNodeInfo server does the same with the node's information. -/
theorem C63_node_info (e : HEntry) (tr : InTransfer) (s : Node) (v : Nat) (hb : e.builtin = true)
    (hsv : isService e.type = true) (hsn : e.sniff = false) (hrq : tr.header.request = true) (hv : s.nodeId = some v)
    (h0 : v ≠ 0) :
    ∃ p, s.trace ++ [.called (.handler e.uid tr), .accepted s.nextNum (answer tr p v)] <+:
      (callHandler env e tr s).2.trace := by
  have : callHandler env e tr s =
      respond env (hookCall env) (env.infoPayload (log (.called (.handler e.uid tr)) s).2) tr.header.source tr.tid.toNat
        (some tr.header.prio) none (log (.called (.handler e.uid tr)) s).2 := by
    simp [callHandler, hb, hsv, hsn, hrq, log]
  rw [this]
  have h := respond_accepted env (env.infoPayload (log (.called (.handler e.uid tr)) s).2) tr.header.source tr.tid.toNat
    (some tr.header.prio) none (log (.called (.handler e.uid tr)) s).2 v hv h0
  refine ⟨env.infoPayload (log (.called (.handler e.uid tr)) s).2, ?_⟩
  simpa [log, answer] using h

/-- The header that such a response carries makes the requester recognise it as the response to its request. -/
theorem C63_matches (tr : InTransfer) (p : Payload) (v : Nat) (rq : Header) (rtid : Nat) (h1 : rq.service = true)
    (h2 : rq.request = true) (h3 : rq.source = tr.header.source) (h4 : rq.dest = some v) (h5 : rq.dtid = p.dt.dtid)
    (h6 : rtid = tr.tid.toNat) :
    isResponseTo { headerOf (answer tr p v) with dtid := (answer tr p v).dtid } (answer tr p v).tid rq rtid = true := by
  simp [isResponseTo, headerOf, answer, h1, h2, h3, h4, h5, h6]

/-- A service handler that returns nothing for a request raises and sends nothing. -/
theorem C63_no_result (e : HEntry) (tr : InTransfer) (s s1 : Node) (hb : e.builtin = false)
    (hsv : isService e.type = true) (hsn : e.sniff = false) (hrq : tr.header.request = true)
    (hf : runScript env (hookCall env) (.handler e.uid tr) s = (.ok none, s1)) :
    callHandler env e tr s = (.error .uavcanException, s1) := by
  simp [callHandler, hb, hsv, hsn, hrq, hf]

/-- A service handler that is called with a response (because another handler sniffs responses) sends nothing. -/
theorem C63_never_answers_responses (e : HEntry) (tr : InTransfer) (s s1 : Node) (r : Option Payload)
    (hb : e.builtin = false) (hsv : isService e.type = true) (hsn : e.sniff = false) (hrq : tr.header.request = false)
    (hf : runScript env (hookCall env) (.handler e.uid tr) s = (.ok r, s1)) :
    callHandler env e tr s = (.ok (), s1) := by
  simp [callHandler, hb, hsv, hsn, hrq, hf]

/-- Message handlers and sniffing handlers never send a response; returning something is an error. -/
theorem C63_message_handlers (e : HEntry) (tr : InTransfer) (s s1 : Node) (r : Option Payload)
    (hb : e.builtin = false) (hsv : isService e.type = false ∨ e.sniff = true)
    (hf : runScript env (hookCall env) (.handler e.uid tr) s = (.ok r, s1)) :
    callHandler env e tr s = (if r.isSome then .error .uavcanException else .ok (), s1) := by
  have : (isService e.type && !e.sniff) = false := by rcases hsv with h | h <;> simp [h]
  simp only [callHandler, hb, this, bind_run, hf, Bool.false_eq_true, if_false]
  cases r <;> rfl

/-! An example: a request is answered over the wire; the requester then finds its request. -/

/-- The server's environment: the handler of service 5 returns an empty response. -/
def srvEnv : Env where
  db d sv := if d = 5 ∧ sv = true then some svcType else none
  script _ c := match c with
    | .handler _ _ => { result := some { dt := svcType, val := .comp none [] } }
    | _ => {}
  statusPayload _ := { dt := { dtid := 341, baseCrc := 0, msg := emptyTy }, val := .comp none [] }
  infoPayload _ := { dt := { dtid := 1, baseCrc := 0, msg := emptyTy }, val := .comp none [] }
  lim := 3

/-- A request of node 10 to node 20 with transfer ID 9 and priority 7. -/
def srvFrame : RawFrame :=
  { id := (7 <<< 24) ||| (5 <<< 16) ||| 0x8000 ||| (20 <<< 8) ||| 0x80 ||| 10, data := [BitVec.ofNat 8 (0xC0 ||| 9)] }

/-- The frames sent in a history: identifiers and data. -/
def sentLog (tr : List Ev) : List (Nat × List Byte) := tr.filterMap fun
  | .frame _ f => some (f.id, f.bytes)
  | _ => none

example : sentLog (history srvEnv [.api (.addHandler (some (5, true)) false), .frame srvFrame] (some 20) 0 none true false
    (1, true)) = [((7 <<< 24) ||| (5 <<< 16) ||| (10 <<< 8) ||| 0x80 ||| 20, [BitVec.ofNat 8 (0xC0 ||| 9)])] := by
  decide +kernel

/-! ## C64 -/

/-- The states between the rounds of `spin`. -/
def afterRounds (s : Node) (rs : List Round) : Node := rs.foldl (fun s r => (executeOnce env r s).2) s

theorem spinLoop_rounds (dl : Option Int) : ∀ (rs : List Round) (s s' : Node), spinLoop env dl rs s = (.ok (), s') →
    ∃ k, k ≤ rs.length ∧ s' = afterRounds env s (rs.take k) ∧
      (∀ i, i < k → ∀ d, dl = some d → (afterRounds env s (rs.take i)).now < d) ∧
      (k = rs.length ∨ ∃ d, dl = some d ∧ d ≤ s'.now) := by
  intro rs
  induction rs with
  | nil =>
    intro s s' h
    simp only [spinLoop, pure_run] at h
    injection h with _ h
    subst h
    exact ⟨0, Nat.le_refl _, rfl, fun i hi => absurd hi (Nat.not_lt_zero i), .inl rfl⟩
  | cons r rs ih =>
    intro s s' h
    simp only [spinLoop, bind_run, get_run] at h
    split at h
    · rename_i hb
      simp only [bind_run] at h
      cases hc : executeOnce env r s with
      | mk x s1 =>
        rw [hc] at h
        cases x with
        | error e => cases h
        | ok a =>
          simp only at h
          obtain ⟨k, h1, h2, h3, h4⟩ := ih s1 s' h
          refine ⟨k + 1, Nat.succ_le_succ h1, ?_, ?_, ?_⟩
          · rw [h2]
            simp [afterRounds, hc]
          · intro i hi d hd
            cases i with
            | zero =>
              rw [hd] at hb
              simpa [afterRounds, beforeDeadline] using hb
            | succ i =>
              have := h3 i (by omega) d hd
              simpa [afterRounds, hc] using this
          · rcases h4 with h4 | h4
            · left; simp [h4]
            · right; exact h4
    · rename_i hb
      simp only [pure_run] at h
      injection h with _ h
      subst h
      refine ⟨0, Nat.zero_le _, rfl, fun i hi => absurd hi (Nat.not_lt_zero i), .inr ?_⟩
      cases dl with
      | none => exact absurd rfl hb
      | some d =>
        refine ⟨d, rfl, ?_⟩
        simp only [beforeDeadline, decide_eq_true_eq] at hb
        omega

/-- `spin(timeout)` runs one round at least; it starts no further round once the clock has reached the start time plus
the timeout; and it returns only then (or when the driver has nothing more to give: `rounds` is used up). -/
theorem C64_spin_deadline (timeout : Option Int) (first : Round) (rounds : List Round) (s s' : Node) (n : Nat)
    (h : spinTimeout env timeout first rounds s = (.ok n, s')) :
    ∃ k, k ≤ rounds.length ∧ s' = afterRounds env s (first :: rounds.take k) ∧
      (∀ i, i < k → ∀ d, timeout = some d → (afterRounds env s (first :: rounds.take i)).now < s.now + d) ∧
      (k = rounds.length ∨ ∃ d, timeout = some d ∧ s.now + d ≤ s'.now) := by
  simp only [spinTimeout, bind_run, get_run] at h
  cases hc : executeOnce env first s with
  | mk x s1 =>
    rw [hc] at h
    cases x with
    | error e => cases h
    | ok m =>
      simp only at h
      cases hs : spinLoop env (timeout.map (s.now + ·)) rounds s1 with
      | mk y s2 =>
        rw [hs] at h
        cases y with
        | error e => cases h
        | ok u =>
          simp only [pure_run] at h
          injection h with h3 h4
          subst h4
          obtain ⟨k, h1, h2, h3, h4⟩ := spinLoop_rounds env _ rounds s1 s2 hs
          refine ⟨k, h1, ?_, ?_, ?_⟩
          · rw [h2]; simp [afterRounds, hc]
          · intro i hi d hd
            have := h3 i hi (s.now + d) (by rw [hd]; rfl)
            simpa [afterRounds, hc] using this
          · rcases h4 with h4 | ⟨d, hd, h4⟩
            · exact .inl h4
            · right
              cases timeout with
              | none => cases hd
              | some d' =>
                injection hd with hd
                subst hd
                exact ⟨d', rfl, h4⟩

example : (spinTimeout dispEnv (some 10) ⟨[0], none, 4⟩ [⟨[0], none, 5⟩, ⟨[0], none, 6⟩, ⟨[0], none, 7⟩]
    (init (some 10) 0 none true false (1, true))).2.now = 15 := by decide +kernel

/-! ## C65 -/

/-- The nominal time of a run of the status publisher. -/
def statusEv : Ev → Option Int
  | .fired e _ _ => match e.action with
    | .status _ => some e.time
    | _ => none
  | _ => none

/-- The nominal times of the runs of the status publisher. -/
def statusTimes (tr : List Ev) : List Int := tr.filterMap statusEv

/-- `t + p, t + 2 p, ..., t + n p`. -/
def ticks (t p : Int) (n : Nat) : List Int := (List.range n).map fun k : Nat => t + ((k : Int) + 1) * p

theorem ticks_succ (t p : Int) (n : Nat) : ticks t p (n + 1) = ticks t p n ++ [t + (n + 1) * p] := by
  simp [ticks, List.range_succ]

/-- Is this an event of the status publisher? -/
def isStatus (a : Action) : Bool :=
  match a with
  | .status _ => true
  | _ => false

/-- The status publisher is queued, once, for its next nominal time. -/
structure Stat (t p : Int) (s : Node) : Prop where
  q : QInv s
  times : statusTimes s.trace = ticks t p (statusTimes s.trace).length
  ev : ∃ e ∈ s.sched.queue, e.action = .status p ∧ e.time = t + ((statusTimes s.trace).length + 1) * p ∧
    (∀ e' ∈ s.sched.queue, isStatus e'.action = true → e' = e) ∧ ∀ kq ∈ s.outstanding, kq.2.seq ≠ e.seq

theorem Stat.frame {t p : Int} {s s' : Node} (h : Stat t p s) (hQ : QInv s') (hs : s'.sched = s.sched)
    (ho : ∀ kq ∈ s'.outstanding, kq ∈ s.outstanding) (ht : statusTimes s'.trace = statusTimes s.trace) : Stat t p s' := by
  refine ⟨hQ, by rw [ht]; exact h.times, ?_⟩
  obtain ⟨e, h1, h2, h3, h4, h5⟩ := h.ev
  rw [hs, ht]
  exact ⟨e, h1, h2, h3, h4, fun kq hk => h5 kq (ho kq hk)⟩

theorem statusTimes_snoc {tr : List Ev} {x : Ev} (hx : statusEv x = none) : statusTimes (tr ++ [x]) = statusTimes tr :=
  filterMap_snoc_none hx

/-- Another event enters the queue. -/
theorem Stat.enter {t p : Int} {s s' : Node} (h : Stat t p s) (hQ : QInv s') (time : Int) (pr : Nat) (a : Action)
    (ha : isStatus a = false) (hs : s'.sched = (s.sched.enterabs time pr a).2)
    (ho : ∀ kq ∈ s'.outstanding, kq ∈ s.outstanding ∨ kq.2.seq = s.sched.nextSeq)
    (ht : statusTimes s'.trace = statusTimes s.trace) : Stat t p s' := by
  refine ⟨hQ, by rw [ht]; exact h.times, ?_⟩
  obtain ⟨e, h1, h2, h3, h4, h5⟩ := h.ev
  rw [hs, ht]
  refine ⟨e, mem_enterabs.2 (.inr h1), h2, h3, ?_, ?_⟩
  · intro e' he' hst
    rcases mem_enterabs.1 he' with rfl | he'
    · simp only [ha] at hst; cases hst
    · exact h4 e' he' hst
  · intro kq hk
    rcases ho kq hk with hk | hk
    · exact h5 kq hk
    · rw [hk]
      exact Nat.ne_of_gt (h.q.ok.lt e h1)

/-- Another event leaves the queue. -/
theorem Stat.erase {t p : Int} {s s' : Node} (h : Stat t p s) (hQ : QInv s') (n : Nat)
    (hn : ∀ e ∈ s.sched.queue, isStatus e.action = true → (∀ kq ∈ s.outstanding, kq.2.seq ≠ e.seq) → e.seq ≠ n)
    (hs : ∀ e, e ∈ s'.sched.queue ↔ e ∈ s.sched.queue ∧ e.seq ≠ n)
    (ho : ∀ kq ∈ s'.outstanding, kq ∈ s.outstanding)
    (ht : statusTimes s'.trace = statusTimes s.trace) : Stat t p s' := by
  refine ⟨hQ, by rw [ht]; exact h.times, ?_⟩
  obtain ⟨e, h1, h2, h3, h4, h5⟩ := h.ev
  rw [ht]
  refine ⟨e, (hs e).2 ⟨h1, hn e h1 (by rw [h2]; rfl) h5⟩, h2, h3, ?_, fun kq hk => h5 kq (ho kq hk)⟩
  intro e' he' hst
  exact h4 e' ((hs e').1 he').1 hst

theorem Stat.log {t p : Int} {s : Node} (h : Stat t p s) (x : Ev) (hx : statusEv x = none) (hq : x.quiet = true) :
    Stat t p (Node.log x s).2 :=
  h.frame (h.q.quiet1 x hq) rfl (fun _ hk => hk) (statusTimes_snoc hx)

theorem Stat.user (t p : Int) (b : Nat) : UserClosed env b (Stat t p) where
  tick d s h := h.frame ((QInv.user env b).tick d s h.q) rfl (fun _ hk => hk) rfl
  defer d s h := h.enter ((QInv.user env b).defer d s h.q) (s.now + d) 1 (.once s.nextTimer) rfl rfl
    (fun _ hk => .inl hk) (statusTimes_snoc rfl)
  periodic d s h := h.enter ((QInv.user env b).periodic d s h.q) (s.now + d) 0 (.every s.nextTimer d) rfl rfl
    (fun _ hk => .inl hk) (statusTimes_snoc rfl)
  cancel i s h := by
    have hQ := (QInv.user env b).cancel i s h.q
    unfold Node.cancel at hQ ⊢
    split
    · rename_i hi
      rw [if_pos hi] at hQ
      cases hc : s.sched.cancel (s.holder i) with
      | none =>
        rw [hc] at hQ
        exact h.frame hQ rfl (fun _ hk => hk) (statusTimes_snoc rfl)
      | some q =>
        rw [hc] at hQ
        obtain ⟨-, hq⟩ := cancel_some hc
        refine h.erase hQ (s.holder i) ?_ ?_ (fun _ hk => hk) (statusTimes_snoc rfl)
        · intro e he hst _ hseq
          have := (h.q.hold i hi).2 e he hseq
          cases ha : e.action <;> rw [ha] at hst this <;> first | (simp [Action.timer?] at this; done) | exact absurd hst (by simp [isStatus])
        · intro e
          rw [hq]
          exact h.q.ok.mem_erase _ e
    · exact h
  acceptReq dest dtid prio s h := by
    have hQ := (QInv.user env b).acceptReq dest dtid prio s h.q
    unfold acceptTid at hQ ⊢
    revert hQ
    split
    · exact fun _ => h
    · exact fun _ => h
    · exact fun hQ => h.frame hQ rfl (fun _ hk => hk) (statusTimes_snoc rfl)
  acceptMsg dtid prio s h := by
    have hQ := (QInv.user env b).acceptMsg dtid prio s h.q
    unfold acceptTid at hQ ⊢
    revert hQ
    split
    · exact fun _ => h
    · exact fun _ => h
    · exact fun hQ => h.frame hQ rfl (fun _ hk => hk) (statusTimes_snoc rfl)
  acceptResponse dest dtid tid prio s h := by
    have hQ := (QInv.user env b).acceptResponse dest dtid tid prio s h.q
    unfold Node.acceptResponse at hQ ⊢
    revert hQ
    split
    · exact fun _ => h
    · exact fun _ => h
    · exact fun hQ => h.frame hQ rfl (fun _ hk => hk) (statusTimes_snoc rfl)
  sendFrame n f c s h1 h2 h3 h := by
    have hQ := (QInv.user env b).sendFrame n f c s h1 h2 h3 h.q
    unfold Node.sendFrame at hQ ⊢
    revert hQ
    split
    · exact fun _ => h
    · exact fun hQ => h.frame hQ rfl (fun _ hk => hk) (statusTimes_snoc rfl)
  registerRequest n c mid dest to s h1 h2 h3 h4 h := by
    refine h.enter ((QInv.user env b).registerRequest n c mid dest to s h1 h2 h3 h4 h.q) (s.now + to) 1
      (.timeout s.nextReq (mid, c.tid)) rfl rfl ?_ (statusTimes_snoc rfl)
    intro kq hk
    rcases dict_mem_set hk with hk | hk
    · exact .inl hk
    · right; rw [hk]
  addHandler ty sn s h := h.frame ((QInv.user env b).addHandler ty sn s h.q) rfl (fun _ hk => hk) rfl
  removeHandler u s h := by
    have hQ := (QInv.user env b).removeHandler u s h.q
    unfold Node.removeHandler at hQ ⊢
    revert hQ
    split
    · exact fun hQ => h.frame hQ rfl (fun _ hk => hk) rfl
    · exact fun _ => h
  removeHandlers ty s h := h.frame ((QInv.user env b).removeHandlers ty s h.q) rfl (fun _ hk => hk) rfl
  addHook s h := h.frame ((QInv.user env b).addHook s h.q) rfl (fun _ hk => hk) rfl
  removeHook u s h := by
    have hQ := (QInv.user env b).removeHook u s h.q
    unfold Node.removeHook at hQ ⊢
    revert hQ
    split
    · exact fun hQ => h.frame hQ rfl (fun _ hk => hk) rfl
    · exact fun _ => h
  setNodeId v s h := by
    have hQ := (QInv.user env b).setNodeId v s h.q
    unfold Node.setNodeId at hQ ⊢
    revert hQ
    split
    · split
      · exact fun _ => h
      · exact fun hQ => h.frame hQ rfl (fun _ hk => hk) rfl
    · exact fun _ => h
  setCanfd v s h := h.frame ((QInv.user env b).setCanfd v s h.q) rfl (fun _ hk => hk) rfl
  logHook hk n arg s _ _ h := h.log _ rfl rfl
  logHookRaised hk n arg s _ _ h := h.log _ rfl rfl

theorem Stat.fire {t p : Int} {s s' : Node} {e : TEvent Action} (h : Stat t p s) (ht : takeDue s = some (e, s')) :
    Stat t p { s' with trace := s'.trace ++ callOf e.action } := by
  have hQ := h.q.fire ht
  obtain ⟨q, hq, hd, rfl⟩ := takeDue_some ht
  obtain ⟨e0, h1, h2, h3, h4, h5⟩ := h.ev
  have hhead := h.q.head hq
  have hmem : ∀ x, x ∈ q ↔ x ∈ s.sched.queue ∧ x.seq ≠ e.seq := by
    intro x
    rw [hq]
    constructor
    · intro hx
      refine ⟨List.mem_cons_of_mem _ hx, fun hseq => ?_⟩
      have := h.q.ok.inj x (by rw [hq]; exact List.mem_cons_of_mem _ hx) e (by rw [hq]; exact List.mem_cons_self) hseq
      subst this
      exact hhead.2 hx
    · rintro ⟨hx, hne⟩
      rcases List.mem_cons.1 hx with rfl | hx
      · exact absurd rfl hne
      · exact hx
  have he : e ∈ s.sched.queue := by rw [hq]; exact List.mem_cons_self
  have other : isStatus e.action = false → ∀ tr', statusTimes tr' = statusTimes s.trace → ∀ s2 : Node, QInv s2 →
      s2.sched.queue = q → (∀ kq ∈ s2.outstanding, kq ∈ s.outstanding) → s2.trace = tr' → Stat t p s2 := by
    intro hna tr' htr s2 hQ2 hs2 ho ht2
    refine h.erase hQ2 e.seq ?_ (by rw [hs2]; exact hmem) ho (by rw [ht2, htr])
    intro x hx hst _ hseq
    have := h.q.ok.inj x hx e he hseq
    subst this
    rw [hna] at hst; cases hst
  have hfired : isStatus e.action = false → statusEv (.fired e s.now s.sched.queue) = none := by
    intro hna
    cases ha : e.action with
    | status p' => rw [ha] at hna; cases hna
    | _ => simp [statusEv, ha]
  cases ha : e.action with
  | once i =>
    have hna : isStatus e.action = false := by rw [ha]; rfl
    simp only [beforeCallback, ha, callOf] at hQ ⊢
    exact other hna _ ((statusTimes_snoc rfl).trans (statusTimes_snoc (hfired hna))) _ hQ rfl (fun _ hk => hk) rfl
  | every i p' =>
    have hna : isStatus e.action = false := by rw [ha]; rfl
    simp only [beforeCallback, ha, callOf] at hQ ⊢
    refine ⟨hQ, ?_, ?_⟩
    · have : statusTimes (s.trace ++ [.fired e s.now s.sched.queue] ++ [.called (.timer i)]) = statusTimes s.trace :=
        (statusTimes_snoc rfl).trans (statusTimes_snoc (hfired hna))
      simp only
      rw [this]
      exact h.times
    · have : statusTimes (s.trace ++ [.fired e s.now s.sched.queue] ++ [.called (.timer i)]) = statusTimes s.trace :=
        (statusTimes_snoc rfl).trans (statusTimes_snoc (hfired hna))
      simp only
      rw [this]
      have hne : e0.seq ≠ e.seq := by
        intro hseq
        have := h.q.ok.inj e0 h1 e he hseq
        subst this
        rw [h2] at ha; cases ha
      refine ⟨e0, mem_enterabs.2 (.inr ((hmem e0).2 ⟨h1, hne⟩)), h2, h3, ?_, h5⟩
      intro x hx hst
      rcases mem_enterabs.1 hx with rfl | hx
      · cases hst
      · exact h4 x ((hmem x).1 hx).1 hst
  | timeout r k =>
    have hna : isStatus e.action = false := by rw [ha]; rfl
    simp only [beforeCallback, ha, callOf] at hQ ⊢
    exact other hna _ ((statusTimes_snoc rfl).trans (statusTimes_snoc (hfired hna))) _ hQ rfl
      (fun _ hk => dict_mem_del hk) rfl
  | status p' =>
    have hee := h4 e he (by rw [ha]; rfl)
    subst hee
    rw [h2] at ha
    injection ha with ha
    subst ha
    simp only [beforeCallback, h2, callOf, List.append_nil] at hQ ⊢
    have htimes : statusTimes (s.trace ++ [.fired e s.now s.sched.queue]) = statusTimes s.trace ++ [e.time] :=
      filterMap_snoc_some (by simp [statusEv, h2])
    have hlen : (statusTimes (s.trace ++ [.fired e s.now s.sched.queue])).length = (statusTimes s.trace).length + 1 := by
      rw [htimes]; simp
    refine ⟨hQ, ?_, ?_⟩
    · simp only
      rw [hlen, ticks_succ, htimes, ← h.times, h3]
    · simp only
      rw [hlen]
      refine ⟨_, mem_enterabs.2 (.inl rfl), rfl, ?_, ?_, ?_⟩
      · simp only [h3]
        simp only [Int.natCast_add, Int.add_mul, Int.natCast_one, Int.one_mul, Int.add_assoc]
      · intro x hx hst
        rcases mem_enterabs.1 hx with rfl | hx
        · rfl
        · exfalso
          have := h4 x ((hmem x).1 hx).1 hst
          exact ((hmem x).1 hx).2 (by rw [this])
      · intro kq hk
        exact Nat.ne_of_lt (h.q.out kq hk).1

theorem Stat.top (t p : Int) : TopClosed env (fun _ => Stat t p) where
  user _ := Stat.user env t p 0
  fire s e s' h ht := h.fire ht
  raisedTimer i s h := h.log _ rfl rfl
  raisedTimeout r s h := h.log _ rfl rfl
  tm s tm h := h.frame ((QInv.top env).tm s tm h.q) rfl (fun _ hk => hk) rfl
  rx tr s hf h := h.frame ((QInv.top env).rx tr s hf h.q) rfl (fun _ hk => hk) (statusTimes_snoc rfl)
  read f s h := h.log _ rfl rfl
  handler u tr s h := h.log _ rfl rfl
  handlerRaised u tr s h := h.log _ rfl rfl
  deliver tr key q s h1 h2 h3 hf h := by
    have hk := findRequest_mem hf
    have hQ := h.q.dropTimeout hk
    have hd : Stat t p (dropTimeout q.seq s).2 := by
      unfold dropTimeout at hQ ⊢
      simp only [modify_run] at hQ ⊢
      cases hc : s.sched.cancel q.seq with
      | none => exact h
      | some s2 =>
        rw [hc] at hQ
        obtain ⟨-, hq⟩ := cancel_some hc
        refine h.erase hQ q.seq ?_ ?_ (fun _ hk => hk) rfl
        · intro e he hst ho hseq
          exact ho _ hk hseq.symm
        · intro e
          simp only [Option.getD_some]
          rw [hq]
          exact h.q.ok.mem_erase _ e
    exact hd.log _ rfl rfl
  deliverRaised r tr key s h := h.log _ rfl rfl
  del key s h := by
    have hQ := (QInv.top env).del key s h.q
    unfold delOutstanding at hQ ⊢
    revert hQ
    split
    · exact fun hQ => h.frame hQ rfl (fun _ hk => dict_mem_del hk) rfl
    · exact fun _ => h

theorem Stat.init (nid : Option Nat) (t : Int) (iv : Option Int) (ce fd : Bool) (it : Nat × Bool) :
    Stat t (effTimeout iv) (init nid t iv ce fd it) := by
  refine ⟨QInv.init nid t iv ce fd it, rfl, ?_⟩
  refine ⟨⟨t + effTimeout iv, 0, 0, .status (effTimeout iv)⟩, List.mem_cons_self, rfl, ?_, ?_, ?_⟩
  · show t + effTimeout iv = t + ((0 : Nat) + 1) * effTimeout iv
    simp
  · intro e' he' _
    exact List.mem_singleton.1 he'
  · intro kq hk
    exact (List.not_mem_nil hk).elim

variable (ops : List Op) (nid : Option Nat) (t : Int) (iv : Option Int) (ce fd : Bool) (it : Nat × Bool)

/-- The status publisher runs for the times `t + p`, `t + 2 p`, ... without drift and without gaps, whatever the program
and the callbacks do (`p` is the status interval, one second by default): in every history, and no other ones. -/
theorem C65_no_drift : statusTimes (history env ops nid t iv ce fd it) =
    ticks t (effTimeout iv) (statusTimes (history env ops nid t iv ce fd it)).length :=
  (run_pres (Stat.top env t (effTimeout iv)) ops _ (Stat.init nid t iv ce fd it)).1.times

/-- When a poll completes, the status publisher has run for every nominal time up to the clock. -/
theorem C65_all_due (clock : List Nat) (s' : Node) (next : Int)
    (h : poll env clock (run env ops (init nid t iv ce fd it)) = (.ok (some next), s')) :
    s'.now < t + ((statusTimes s'.trace).length + 1) * effTimeout iv := by
  have h0 := (run_pres (Stat.top env t (effTimeout iv)) ops _ (Stat.init nid t iv ce fd it)).1
  obtain ⟨-, h2⟩ := poll_done env clock _ s' next h0.q h
  have h3 := (poll_pres (Stat.top env t (effTimeout iv)).toPollClosed clock _ (Nat.zero_le _) h0).1
  rw [h] at h3
  obtain ⟨e, h4, -, h5, -⟩ := h3.ev
  have := h2 e h4
  rw [h5] at this
  exact this

/-- The queue is never empty, so a poll never fails for lack of events. -/
theorem C65_never_empty : (run env ops (init nid t iv ce fd it)).sched.queue ≠ [] := by
  obtain ⟨e, h, -⟩ := (run_pres (Stat.top env t (effTimeout iv)) ops _ (Stat.init nid t iv ce fd it)).1.ev
  intro h'
  rw [h'] at h
  exact (List.not_mem_nil h).elim

/-- When the publisher's event runs on a node with a node ID, the first thing that happens is the broadcast of the status
message with the default priority; on an anonymous node nothing happens. -/
theorem C65_publishes (s s' : Node) (e : TEvent Action) (p : Int) (ht : takeDue s = some (e, s'))
    (ha : e.action = .status p) :
    (∀ v, s.nodeId = some v → v ≠ 0 → ∃ pl n tid,
      s.trace ++ [.fired e s.now s.sched.queue,
        .accepted n { kind := .broadcast, dtid := (env.statusPayload pl).dt.dtid, tid, prio := none, source := v }] <+:
        (runAction env e.action s').2.trace) ∧
    (Anonymous s.nodeId → runAction env e.action s' = (.ok (), s')) := by
  obtain ⟨q, hq, hd, rfl⟩ := takeDue_some ht
  simp only [beforeCallback, ha, runAction]
  generalize hs1 : ({ s with
      sched := (Sched.enterabs { s.sched with queue := q } (e.time + p) 0 (.status p)).2
      trace := s.trace ++ [.fired e s.now s.sched.queue] } : Node) = s1
  have hn : s1.nodeId = s.nodeId := by rw [← hs1]
  have htr : s1.trace = s.trace ++ [.fired e s.now s.sched.queue] := by rw [← hs1]
  constructor
  · intro v hv h0
    rw [← hn] at hv
    have : sendNodeStatus env s1 = broadcast env (hookCall env) (env.statusPayload s1) none none s1 := by
      simp only [sendNodeStatus, bind_run, get_run, hv]
    rw [this]
    obtain ⟨tid, h⟩ := C23_broadcast_is_accepted env (env.statusPayload s1) none none s1 v hv h0
    refine ⟨s1, s1.nextNum, tid, ?_⟩
    rw [htr] at h
    simpa using h
  · intro han
    rw [← hn] at han
    exact (C29_calls_raise env s1 han (hookCall env) (env.statusPayload s1) 0 0 none none none).2.2.2

example : statusTimes (history dispEnv [.poll [2500000, 0, 0], .poll [600000, 0]] (some 10) 0 none true false (1, true)) =
    [1000000, 2000000, 3000000] := by decide +kernel
example : (poll dispEnv [2500000, 0, 0] (init (some 10) 0 none true false (1, true))).1 = .ok (some 3000000) := by
  decide +kernel

end Dronecan
