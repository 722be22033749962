import Verif.Proofs.Timers
import Verif.Spec.Requests
import Verif.Proofs.Dict

/-! Outstanding requests, their timeout events and their callbacks. -/

namespace Dronecan.Requests
open Node Timers

/-- Is this the timeout event of request `r`? -/
def isTimeout (r : Nat) (e : TEvent Action) : Bool :=
  match e.action with
  | .timeout r' _ => r' == r
  | _ => false

theorem countP_insert {α : Type} (p : TEvent α → Bool) (e : TEvent α) (q : List (TEvent α)) :
    (insertEvent e q).countP p = q.countP p + (if p e = true then 1 else 0) := by
  induction q with
  | nil => simp [insertEvent, List.countP_cons]
  | cons x q ih =>
    simp only [insertEvent]
    split
    · simp only [List.countP_cons, ih]; omega
    · simp only [List.countP_cons]

theorem countP_eraseP {α : Type} (p f : TEvent α → Bool) {q : List (TEvent α)} {e : TEvent α} (he : e ∈ q)
    (hf : f e = true) (hu : ∀ x ∈ q, f x = true → x = e) :
    (q.eraseP f).countP p + (if p e = true then 1 else 0) = q.countP p := by
  induction q with
  | nil => cases he
  | cons x q ih =>
    rw [List.eraseP_cons]
    cases hx : f x with
    | true =>
      have := hu x List.mem_cons_self hx
      subst this
      simp only [cond_true, List.countP_cons]
    | false =>
      simp only [cond_false, List.countP_cons]
      rcases List.mem_cons.1 he with rfl | he
      · rw [hf] at hx; cases hx
      · have := ih he fun y hy => hu y (List.mem_cons_of_mem _ hy)
        omega

theorem isTimeout_of {e : TEvent Action} {r : Nat} {k : Nat × Nat} (h : e.action = .timeout r k) (r' : Nat) :
    isTimeout r' e = (r == r') := by
  unfold isTimeout; rw [h]

/-- Requests, timeouts and callbacks agree (`K` is the key whose callback is running). -/
structure RInv (K : Option (Nat × Nat)) (s : Node) : Prop where
  load : ∀ r, s.sched.queue.countP (isTimeout r) + s.trace.countP (isRespCall r) = if r < s.nextReq then 1 else 0
  out : ∀ kq ∈ s.outstanding, some kq.1 ≠ K →
    ∃ e ∈ s.sched.queue, e.seq = kq.2.seq ∧ e.action = .timeout kq.2.req kq.1
  dead : ∀ e ∈ s.sched.queue, ∀ r, isTimeout r e = true → ∀ n h tid d, .requested r n h tid d ∈ s.trace → e.time = d
  reqs : ∀ r n h tid d, .requested r n h tid d ∈ s.trace → r < s.nextReq
  reqd : ∀ r, r < s.nextReq → ∃ n h tid d, .requested r n h tid d ∈ s.trace
  okd : s.outstanding.Ok

/-- Invariant for histories in which request callbacks do not raise. -/
def Inv (K : Option (Nat × Nat)) (s : Node) : Prop := QInv s ∧ (s.trace.any isRespRaise = false → RInv K s)

/-- Entries without meaning for requests. -/
def quietR : Ev → Bool
  | .called (.response _ _) => false
  | .requested .. => false
  | _ => true

theorem RInv.frame {K : Option (Nat × Nat)} {s s' : Node} (h : RInv K s) (hs : s'.sched = s.sched)
    (ho : s'.outstanding = s.outstanding) (hn : s'.nextReq = s.nextReq) (evs : List Ev) (ht : s'.trace = s.trace ++ evs)
    (hq : ∀ x ∈ evs, quietR x = true) : RInv K s' := by
  have hc : ∀ r, evs.countP (isRespCall r) = 0 := by
    intro r
    rw [List.countP_eq_zero]
    intro x hx
    have := hq x hx
    cases x with
    | called c => cases c <;> simp [quietR, isRespCall] at *
    | _ => simp [isRespCall]
  have hm : ∀ r n h tid d, .requested r n h tid d ∈ s'.trace → .requested r n h tid d ∈ s.trace := by
    intro r n h tid d hx
    rw [ht] at hx
    rcases List.mem_append.1 hx with hx | hx
    · exact hx
    · have := hq _ hx
      simp [quietR] at this
  constructor
  · intro r
    rw [hs, ht, List.countP_append, hc, hn]; exact h.load r
  · rw [ho, hs]; exact h.out
  · rw [hs]
    intro e he r hr n hh tid d hd
    exact h.dead e he r hr n hh tid d (hm _ _ _ _ _ hd)
  · intro r n hh tid d hd
    rw [hn]; exact h.reqs r n hh tid d (hm _ _ _ _ _ hd)
  · intro r hr
    rw [hn] at hr
    obtain ⟨n, hh, tid, d, hd⟩ := h.reqd r hr
    exact ⟨n, hh, tid, d, by rw [ht]; exact List.mem_append_left _ hd⟩
  · rw [ho]; exact h.okd

theorem any_mono {s : Node} {evs : List Ev} {tr : List Ev} (ht : tr = s.trace ++ evs)
    (h : tr.any isRespRaise = false) : s.trace.any isRespRaise = false := by
  rw [ht, List.any_append, Bool.or_eq_false_iff] at h; exact h.1

theorem Inv.frame {K : Option (Nat × Nat)} {s s' : Node} (h : Inv K s) (hQ : QInv s') (hs : s'.sched = s.sched)
    (ho : s'.outstanding = s.outstanding) (hn : s'.nextReq = s.nextReq) (evs : List Ev) (ht : s'.trace = s.trace ++ evs)
    (hq : ∀ x ∈ evs, quietR x = true) : Inv K s' :=
  ⟨hQ, fun hr => (h.2 (any_mono ht hr)).frame hs ho hn evs ht hq⟩

/-- A change of the queue that does not concern timeouts. -/
theorem RInv.queue {K : Option (Nat × Nat)} {s s' : Node} (h : RInv K s)
    (hc : ∀ r, s'.sched.queue.countP (isTimeout r) = s.sched.queue.countP (isTimeout r))
    (hm : ∀ e, (∃ r, isTimeout r e = true) → (e ∈ s'.sched.queue ↔ e ∈ s.sched.queue))
    (ho : s'.outstanding = s.outstanding) (hn : s'.nextReq = s.nextReq) (ht : s'.trace = s.trace) : RInv K s' := by
  constructor
  · intro r; rw [hc, hn, ht]; exact h.load r
  · intro kq hk hne
    rw [ho] at hk
    obtain ⟨e, he, hs, hti⟩ := h.out kq hk hne
    exact ⟨e, (hm e ⟨kq.2.req, by rw [isTimeout_of hti]; simp⟩).2 he, hs, hti⟩
  · intro e he r hr n hh tid d hd
    rw [ht] at hd
    exact h.dead e ((hm e ⟨r, hr⟩).1 he) r hr n hh tid d hd
  · rw [ht, hn]; exact h.reqs
  · rw [ht, hn]; exact h.reqd
  · rw [ho]; exact h.okd

theorem RInv.enter {K : Option (Nat × Nat)} {s : Node} (h : RInv K s) (t : Int) (p : Nat) (a : Action)
    (ha : ∀ r k, a ≠ .timeout r k) : RInv K { s with sched := (s.sched.enterabs t p a).2 } := by
  have hno : ∀ r (e : TEvent Action), e.action = a → isTimeout r e = false := by
    intro r e he
    unfold isTimeout
    split
    · rename_i r' k hk
      exact absurd (he ▸ hk) (ha r' k)
    · rfl
  refine h.queue ?_ ?_ rfl rfl rfl
  · intro r
    simp only [Sched.enterabs, countP_insert]
    rw [hno r _ rfl]
    rfl
  · rintro e ⟨r, hr⟩
    rw [mem_enterabs]
    constructor
    · rintro (rfl | he)
      · rw [hno r _ rfl] at hr; cases hr
      · exact he
    · exact .inr

theorem timer_not_timeout {e : TEvent Action} {i : Nat} (h : e.action.timer? = some i) (r : Nat) : isTimeout r e = false := by
  unfold isTimeout
  split
  · rename_i hk; rw [hk] at h; cases h
  · rfl

theorem RInv.cancel {K : Option (Nat × Nat)} {s : Node} (hQ : QInv s) (h : RInv K s) (i : Nat) :
    RInv K (Node.cancel i s).2 := by
  unfold Node.cancel
  split
  · rename_i hi
    cases hc : s.sched.cancel (s.holder i) with
    | none => exact h.frame rfl rfl rfl [.cancelled i false] rfl (by simp [quietR])
    | some q =>
      obtain ⟨⟨e0, he0, hs0⟩, hq⟩ := cancel_some hc
      have ht0 := (hQ.hold i hi).2 e0 he0 hs0
      have h1 : RInv K { s with sched := q } := by
        refine h.queue ?_ ?_ rfl rfl rfl
        · intro r
          have := countP_eraseP (isTimeout r) (·.seq == s.holder i) he0 (by simp [hs0])
            (fun x hx hxs => hQ.ok.inj x hx e0 he0 (by simp at hxs; rw [hxs, hs0]))
          rw [timer_not_timeout ht0 r] at this
          rw [hq]
          simpa using this
        · rintro e ⟨r, hr⟩
          simp only [hq, hQ.ok.mem_erase]
          constructor
          · exact fun h => h.1
          · intro he
            refine ⟨he, fun hseq => ?_⟩
            have := (hQ.hold i hi).2 e he hseq
            rw [timer_not_timeout this r] at hr; cases hr
      exact h1.frame rfl rfl rfl [.cancelled i true] rfl (by simp [quietR])
  · exact h

theorem mem_set_key {κ ν : Type} [DecidableEq κ] {d : Dict κ ν} {k : κ} {v : ν} {x : κ × ν} (h : x ∈ d.set k v) :
    x = (k, v) ∨ x ∈ d := by
  induction d with
  | nil => simp [Dict.set] at h; exact .inl h
  | cons y d ih =>
    obtain ⟨a, b⟩ := y
    simp only [Dict.set] at h
    split at h
    · rename_i hak
      rcases List.mem_cons.1 h with rfl | h
      · left; rw [hak]
      · right; exact List.mem_cons_of_mem _ h
    · rcases List.mem_cons.1 h with rfl | h
      · right; exact List.mem_cons_self
      · rcases ih h with h | h
        · exact .inl h
        · right; exact List.mem_cons_of_mem _ h

theorem del_key_ne {κ ν : Type} [DecidableEq κ] {d : Dict κ ν} (h : d.Ok) {k : κ} {x : κ × ν} (hx : x ∈ d.del k) :
    x.1 ≠ k := by
  induction d with
  | nil => cases hx
  | cons p d ih =>
    obtain ⟨a, b⟩ := p
    simp only [Dict.Ok, Dict.keys, List.map_cons, List.nodup_cons] at h
    simp only [Dict.del] at hx
    split at hx
    · rename_i hak
      subst hak
      intro hxe
      exact h.1 (List.mem_map.2 ⟨x, hx, hxe⟩)
    · rename_i hak
      rcases List.mem_cons.1 hx with rfl | hx
      · exact hak
      · exact ih h.2 hx

theorem RInv.register {K : Option (Nat × Nat)} {s : Node} (h : RInv K s) (n : Nat) (hd : Header) (tid : Nat)
    (key : Nat × Nat) (to : Int) : RInv K (registerRequest n hd tid key to s).2 := by
  have hto : ∀ r, isTimeout r { time := s.now + to, prio := 1, seq := s.sched.nextSeq, action := .timeout s.nextReq key } =
      (s.nextReq == r) := fun r => rfl
  simp only [registerRequest, Sched.enterabs]
  constructor
  · intro r
    simp only [countP_insert, hto, List.countP_append, List.countP_cons, List.countP_nil]
    have := h.load r
    by_cases hr : r = s.nextReq
    · subst hr
      rw [if_neg (Nat.lt_irrefl _)] at this
      rw [if_pos (Nat.lt_succ_self _)]
      simp only [isRespCall, beq_self_eq_true, if_true, Bool.false_eq_true, if_false]
      omega
    · have hne : (s.nextReq == r) = false := by simp; exact fun e => hr e.symm
      rw [hne]
      simp only [Bool.false_eq_true, if_false, Nat.add_zero, isRespCall]
      rw [this]
      by_cases hlt : r < s.nextReq
      · rw [if_pos hlt, if_pos (by omega)]
      · rw [if_neg hlt, if_neg (by omega)]
  · intro kq hk hne
    rcases mem_set_key hk with rfl | hk
    · exact ⟨_, mem_insertEvent.2 (.inl rfl), rfl, rfl⟩
    · obtain ⟨e, he, hs⟩ := h.out kq hk hne
      exact ⟨e, mem_insertEvent.2 (.inr he), hs⟩
  · intro e he r hr n' h' tid' d' hd'
    rcases List.mem_append.1 hd' with hd' | hd'
    · rcases mem_insertEvent.1 he with rfl | he
      · rw [hto] at hr
        simp at hr
        have := h.reqs _ _ _ _ _ hd'
        omega
      · exact h.dead e he r hr _ _ _ _ hd'
    · simp only [List.mem_singleton, Ev.requested.injEq] at hd'
      obtain ⟨rfl, -, -, -, rfl⟩ := hd'
      rcases mem_insertEvent.1 he with rfl | he
      · rfl
      · exfalso
        have := h.load s.nextReq
        rw [if_neg (by omega)] at this
        have h0 : s.sched.queue.countP (isTimeout s.nextReq) = 0 := by omega
        rw [List.countP_eq_zero] at h0
        exact h0 e he hr
  · intro r n' h' tid' d' hd'
    rcases List.mem_append.1 hd' with hd' | hd'
    · exact Nat.lt_succ_of_lt (h.reqs _ _ _ _ _ hd')
    · simp only [List.mem_singleton, Ev.requested.injEq] at hd'
      rw [hd'.1]; exact Nat.lt_succ_self _
  · intro r hr
    by_cases hlt : r < s.nextReq
    · obtain ⟨n', hh, tid', d, hd'⟩ := h.reqd r hlt
      exact ⟨n', hh, tid', d, List.mem_append_left _ hd'⟩
    · have : r = s.nextReq := by simp only at hr; omega
      subst this
      exact ⟨_, _, _, _, List.mem_append_right _ List.mem_cons_self⟩
  · exact Dict.ok_set h.okd _ _

theorem Inv.user (env : Env) (K : Option (Nat × Nat)) : UserClosed env 0 (Inv K) where
  tick d s h := h.frame ((QInv.user env 0).tick d s h.1) rfl rfl rfl [] (List.append_nil _).symm (by simp)
  defer t s h := ⟨(QInv.user env 0).defer t s h.1, fun hr =>
    ((h.2 (any_mono (evs := [_]) rfl hr)).enter (s.now + t) 1 (.once s.nextTimer) (by simp)).frame rfl rfl rfl [_] rfl
      (by simp [quietR])⟩
  periodic p s h := ⟨(QInv.user env 0).periodic p s h.1, fun hr =>
    ((h.2 (any_mono (evs := [_]) rfl hr)).enter (s.now + p) 0 (.every s.nextTimer p) (by simp)).frame rfl rfl rfl [_] rfl
      (by simp [quietR])⟩
  cancel i s h := ⟨(QInv.user env 0).cancel i s h.1, fun hr =>
    RInv.cancel h.1 (h.2 (by
      obtain ⟨evs, he⟩ := (cancel_ext i s).1
      exact any_mono he.symm hr)) i⟩
  acceptReq dest dtid prio s h := by
    have hq := (QInv.user env 0).acceptReq dest dtid prio s h.1
    revert hq
    unfold acceptTid
    split
    · exact fun _ => h
    · exact fun _ => h
    · exact fun hq => h.frame hq rfl rfl rfl [_] rfl (by simp [quietR])
  acceptMsg dtid prio s h := by
    have hq := (QInv.user env 0).acceptMsg dtid prio s h.1
    revert hq
    unfold acceptTid
    split
    · exact fun _ => h
    · exact fun _ => h
    · exact fun hq => h.frame hq rfl rfl rfl [_] rfl (by simp [quietR])
  acceptResponse dest dtid tid prio s h := by
    have hq := (QInv.user env 0).acceptResponse dest dtid tid prio s h.1
    revert hq
    unfold acceptResponse
    split
    · exact fun _ => h
    · exact fun _ => h
    · exact fun hq => h.frame hq rfl rfl rfl [_] rfl (by simp [quietR])
  sendFrame n f c s hb ha hf h := by
    have hq := (QInv.user env 0).sendFrame n f c s hb ha hf h.1
    revert hq
    unfold sendFrame
    split
    · exact fun _ => h
    · exact fun hq => h.frame hq rfl rfl rfl [_] rfl (by simp [quietR])
  registerRequest n c mid dest to s hb ha hk he h := ⟨(QInv.user env 0).registerRequest n c mid dest to s hb ha hk he h.1,
    fun hr => (h.2 (any_mono (evs := [_]) rfl hr)).register ..⟩
  addHandler t sn s h := h.frame ((QInv.user env 0).addHandler t sn s h.1) rfl rfl rfl [] (List.append_nil _).symm (by simp)
  removeHandler u s h := by
    have hq := (QInv.user env 0).removeHandler u s h.1
    revert hq
    unfold removeHandler
    split
    · exact fun hq => h.frame hq rfl rfl rfl [] (List.append_nil _).symm (by simp)
    · exact fun _ => h
  removeHandlers t s h := h.frame ((QInv.user env 0).removeHandlers t s h.1) rfl rfl rfl [] (List.append_nil _).symm (by simp)
  addHook s h := h.frame ((QInv.user env 0).addHook s h.1) rfl rfl rfl [] (List.append_nil _).symm (by simp)
  removeHook hk s h := by
    have hq := (QInv.user env 0).removeHook hk s h.1
    revert hq
    unfold removeHook
    split
    · exact fun hq => h.frame hq rfl rfl rfl [] (List.append_nil _).symm (by simp)
    · exact fun _ => h
  setNodeId v s h := by
    have hq := (QInv.user env 0).setNodeId v s h.1
    revert hq
    unfold setNodeId
    split
    · split
      · exact fun _ => h
      · exact fun hq => h.frame hq rfl rfl rfl [] (List.append_nil _).symm (by simp)
    · exact fun _ => h
  setCanfd v s h := h.frame ((QInv.user env 0).setCanfd v s h.1) rfl rfl rfl [] (List.append_nil _).symm (by simp)
  logHook hk n arg s hb hn h := h.frame ((QInv.user env 0).logHook hk n arg s hb hn h.1) rfl rfl rfl [_] rfl (by simp [quietR])
  logHookRaised hk n arg s hb hn h :=
    h.frame ((QInv.user env 0).logHookRaised hk n arg s hb hn h.1) rfl rfl rfl [_] rfl (by simp [quietR])

/-- Popping an event: effect on `RInv`, before `beforeCallback`. -/
theorem RInv.popOther {s : Node} (h : RInv none s) {e : TEvent Action} {q : List (TEvent Action)}
    (hq : s.sched.queue = e :: q) (hne : ∀ r k, e.action ≠ .timeout r k) :
    RInv none { s with
      sched := { s.sched with queue := q }
      trace := s.trace ++ [.fired e s.now s.sched.queue] } := by
  have hno : ∀ r, isTimeout r e = false := by
    intro r
    unfold isTimeout
    split
    · rename_i r' k hk; exact absurd hk (hne r' k)
    · rfl
  have h1 : RInv none { s with sched := { s.sched with queue := q } } := by
    refine h.queue ?_ ?_ rfl rfl rfl
    · intro r
      rw [hq]
      simp [List.countP_cons, hno r]
    · rintro x ⟨r, hr⟩
      rw [hq]
      simp only [List.mem_cons]
      constructor
      · exact .inr
      · rintro (rfl | hx)
        · rw [hno r] at hr; cases hr
        · exact hx
  exact h1.frame rfl rfl rfl [_] rfl (by simp [quietR])

theorem RInv.popTimeout {s : Node} (h : RInv none s) {e : TEvent Action} {q : List (TEvent Action)}
    (hq : s.sched.queue = e :: q) {r : Nat} {key : Nat × Nat} (ha : e.action = .timeout r key) :
    RInv none { s with
      sched := { s.sched with queue := q }
      outstanding := s.outstanding.del key
      trace := (s.trace ++ [.fired e s.now s.sched.queue]) ++ [.called (.response r none)] } := by
  have hto : ∀ r', isTimeout r' e = (r == r') := by intro r'; unfold isTimeout; rw [ha]
  have htr : (s.trace ++ [Ev.fired e s.now s.sched.queue]) ++ [.called (.response r none)] =
      s.trace ++ [.fired e s.now s.sched.queue, .called (.response r none)] := by simp
  rw [htr]
  constructor
  · intro r'
    have := h.load r'
    rw [hq, List.countP_cons, hto] at this
    simp only [List.countP_append, List.countP_cons, List.countP_nil, isRespCall, Bool.false_eq_true, if_false,
      Nat.zero_add, Nat.add_zero]
    rw [← this]
    by_cases hb : r = r'
    · simp [hb]; omega
    · simp [hb]
  · intro kq hk hne
    have hk' := dict_mem_del hk
    obtain ⟨e', he', hs', hr'⟩ := h.out kq hk' (by simp)
    have hne' : kq.1 ≠ key := del_key_ne h.okd hk
    rw [hq] at he'
    rcases List.mem_cons.1 he' with rfl | he'
    · rw [ha] at hr'
      injection hr' with _ h2
      exact absurd h2.symm hne'
    · exact ⟨e', he', hs', hr'⟩
  · intro x hx r' hr' n hh' tid d hd
    exact h.dead x (by rw [hq]; exact List.mem_cons_of_mem _ hx) r' hr' n hh' tid d (by
      rcases List.mem_append.1 hd with hd | hd
      · exact hd
      · simp at hd)
  · intro r' n hh' tid d hd
    exact h.reqs r' n hh' tid d (by
      rcases List.mem_append.1 hd with hd | hd
      · exact hd
      · simp at hd)
  · intro r' hr'
    obtain ⟨n', hh, tid', d, hd'⟩ := h.reqd r' hr'
    exact ⟨n', hh, tid', d, List.mem_append_left _ hd'⟩
  · exact Dict.ok_del h.okd _

theorem RInv.deliver {s : Node} (hQ : QInv s) (h : RInv none s) {key : Nat × Nat} {q : OutReq}
    (hk : (key, q) ∈ s.outstanding) (tr : Option InTransfer) :
    RInv (some key) (log (.called (.response q.req tr)) (dropTimeout q.seq s).2).2 := by
  obtain ⟨e, he, hseq, hact⟩ := h.out (key, q) hk (by simp)
  simp only at hseq hact
  unfold dropTimeout
  simp only [PyM.modify_run]
  cases hc : s.sched.cancel q.seq with
  | none => exact absurd hseq (cancel_none hc e he)
  | some q' =>
    obtain ⟨-, hq'⟩ := cancel_some hc
    have hmem : ∀ x, x ∈ q'.queue ↔ x ∈ s.sched.queue ∧ x.seq ≠ q.seq := by
      intro x; rw [hq']; exact hQ.ok.mem_erase _ x
    simp only [Option.getD_some, log, PyM.modify_run]
    constructor
    · intro r
      have h1 := h.load r
      have h2 := countP_eraseP (isTimeout r) (·.seq == q.seq) he (by simp [hseq])
        (fun x hx hxs => hQ.ok.inj x hx e he (by simp at hxs; rw [hxs, hseq]))
      rw [isTimeout_of hact] at h2
      rw [hq']
      simp only [List.countP_append, List.countP_cons, List.countP_nil, isRespCall, Nat.zero_add]
      rw [← h1, ← h2]
      by_cases hb : q.req = r
      · simp [hb]; omega
      · simp [hb]
    · intro kq hk' hne
      obtain ⟨e', he', hs', ha'⟩ := h.out kq hk' (by simp)
      refine ⟨e', (hmem e').2 ⟨he', fun hse => hne ?_⟩, hs', ha'⟩
      have := hQ.ok.inj e' he' e he (by rw [hse, hseq])
      rw [this, hact] at ha'
      injection ha' with _ h2
      rw [h2]
    · intro x hx r hr n hh tid d hd
      refine h.dead x ((hmem x).1 hx).1 r hr n hh tid d ?_
      rcases List.mem_append.1 hd with hd | hd
      · exact hd
      · simp at hd
    · intro r n hh tid d hd
      refine h.reqs r n hh tid d ?_
      rcases List.mem_append.1 hd with hd | hd
      · exact hd
      · simp at hd
    · intro r' hr'
      obtain ⟨n', hh, tid', d, hd'⟩ := h.reqd r' hr'
      exact ⟨n', hh, tid', d, List.mem_append_left _ hd'⟩
    · exact h.okd

theorem RInv.del {key : Nat × Nat} {s : Node} (h : RInv (some key) s) : RInv none (delOutstanding key s).2 := by
  unfold delOutstanding
  split
  · refine ⟨h.load, ?_, h.dead, h.reqs, h.reqd, Dict.ok_del h.okd _⟩
    intro kq hk _
    exact h.out kq (dict_mem_del hk) fun he => del_key_ne h.okd hk (Option.some.inj he)
  · rename_i hc
    refine ⟨h.load, ?_, h.dead, h.reqs, h.reqd, h.okd⟩
    intro kq hk _
    refine h.out kq hk fun he => hc ?_
    have := (Dict.mem_iff_get? h.okd kq.1 kq.2).1 hk
    rw [Dict.contains, ← Option.some.inj he, this]
    rfl

theorem Inv.top (env : Env) : TopClosed env Inv where
  user := Inv.user env
  fire s e s' h ht := by
    refine ⟨(QInv.top env).fire s e s' h.1 ht, fun hr => ?_⟩
    obtain ⟨q, hq, -, rfl⟩ := takeDue_some ht
    cases ha : e.action with
    | once i =>
      simp only [beforeCallback, ha, callOf] at hr ⊢
      have h0 := h.2 (any_mono (evs := [.fired e s.now s.sched.queue, .called (.timer i)]) (by simp) hr)
      exact (h0.popOther hq (by rw [ha]; simp)).frame rfl rfl rfl [_] rfl (by simp [quietR])
    | every i p =>
      simp only [beforeCallback, ha, callOf] at hr ⊢
      have h0 := h.2 (any_mono (evs := [.fired e s.now s.sched.queue, .called (.timer i)]) (by simp) hr)
      have h1 := (h0.popOther hq (by rw [ha]; simp)).enter (e.time + p) 0 (.every i p) (by simp)
      exact h1.frame rfl rfl rfl [_] rfl (by simp [quietR])
    | status p =>
      simp only [beforeCallback, ha, callOf] at hr ⊢
      have h0 := h.2 (any_mono (evs := [.fired e s.now s.sched.queue]) (by simp) hr)
      have h1 := (h0.popOther hq (by rw [ha]; simp)).enter (e.time + p) 0 (.status p) (by simp)
      exact h1.frame rfl rfl rfl [] (by simp) (by simp)
    | timeout r key =>
      simp only [beforeCallback, ha, callOf] at hr ⊢
      have h0 := h.2 (any_mono (evs := [.fired e s.now s.sched.queue, .called (.response r none)]) (by simp) hr)
      exact h0.popTimeout hq ha
  raisedTimer i s h := h.frame ((QInv.top env).raisedTimer i s h.1) rfl rfl rfl [_] rfl (by simp [quietR])
  raisedTimeout r s h := h.frame ((QInv.top env).raisedTimeout r s h.1) rfl rfl rfl [_] rfl (by simp [quietR])
  tm s tm h := h.frame ((QInv.top env).tm s tm h.1) rfl rfl rfl [] (List.append_nil _).symm (by simp)
  rx tr s hf h := h.frame ((QInv.top env).rx tr s hf h.1) rfl rfl rfl [_] rfl (by simp [quietR])
  read f s h := h.frame ((QInv.top env).read f s h.1) rfl rfl rfl [_] rfl (by simp [quietR])
  handler u tr s h := h.frame ((QInv.top env).handler u tr s h.1) rfl rfl rfl [_] rfl (by simp [quietR])
  handlerRaised u tr s h := h.frame ((QInv.top env).handlerRaised u tr s h.1) rfl rfl rfl [_] rfl (by simp [quietR])
  deliver tr key q s h1 h2 h3 hf h := ⟨(QInv.top env).deliver tr key q s h1 h2 h3 hf h.1, fun hr =>
    (h.2 (any_mono (evs := [.called (.response q.req (some tr))]) rfl hr)).deliver h.1 (findRequest_mem hf) (some tr)⟩
  deliverRaised r tr key s h := ⟨(QInv.top env).deliverRaised r tr key s h.1, fun hr => by
    simp [log, PyM.modify_run, isRespRaise] at hr⟩
  del key s h := ⟨(QInv.top env).del key s h.1, fun hr => (h.2 (by
    unfold delOutstanding at hr
    split at hr <;> exact hr)).del⟩

theorem Inv.init (nid : Option Nat) (now : Int) (iv : Option Int) (ce fd : Bool) (it : Nat × Bool) :
    Inv none (Node.init nid now iv ce fd it) := by
  refine ⟨QInv.init .., fun _ => ?_⟩
  have h0 : RInv none { now := now, nodeId := nid, catchExc := ce, sendCanfd := fd } := by
    constructor <;> simp [Dict.ok_nil]
  have h1 := h0.enter (now + effTimeout iv) 0 (.status (effTimeout iv)) (by simp)
  exact h1.frame rfl rfl rfl [] (List.append_nil _).symm (by simp)

end Dronecan.Requests
