import Verif.Model.Node

/-!
# Induction principles for node executions

`UserClosed`: a state predicate kept by every primitive effect of an API call is kept by all application code.
`TopClosed`: a (family of) predicates also kept by polling and reception is kept by every history.
-/

namespace Dronecan.Node
open PyM

/-- The transfer header that a transmission uses. -/
def headerOf (c : TxCall) : Header :=
  match c.kind with
  | .broadcast => { prio := effPrio c.prio, source := c.source }
  | .request dest => { prio := effPrio c.prio, source := c.source, dest := some dest, service := true, request := true }
  | .response dest =>
    { prio := c.prio.getD 31, source := c.source, dest := some dest, service := true, request := false }

/-- `f` is a frame of a transmission `c`. -/
def FrameOf (c : TxCall) (f : Frame) : Prop :=
  ∃ (p : Payload) (canfd : Bool) (t t' : OutTransfer) (frames : List Frame),
    p.dt.dtid = c.dtid ∧ mkTransfer p.dt (headerOf c) c.tid p.val canfd = .ok t ∧ toFrames t = .ok (t', frames) ∧ f ∈ frames

/-- The history only grows. -/
def Ext (s s' : Node) : Prop := s.trace <+: s'.trace ∧ s.nextNum ≤ s'.nextNum

theorem Ext.refl (s : Node) : Ext s s := ⟨List.prefix_rfl, Nat.le_refl _⟩
theorem Ext.trans {s t u : Node} (h : Ext s t) (h' : Ext t u) : Ext s u :=
  ⟨h.1.trans h'.1, Nat.le_trans h.2 h'.2⟩
theorem Ext.mem {s s' : Node} (h : Ext s s') {e : Ev} (he : e ∈ s.trace) : e ∈ s'.trace := h.1.subset he

/-- `I` is kept by every primitive effect of API calls; transmissions and hook calls have numbers at least `b`. -/
structure UserClosed (env : Env) (b : Nat) (I : Node → Prop) : Prop where
  tick : ∀ d s, I s → I (tick d s).2
  defer : ∀ t s, I s → I (defer t s).2
  periodic : ∀ p s, I s → I (periodic p s).2
  cancel : ∀ i s, I s → I (cancel i s).2
  acceptReq : ∀ dest dtid prio s, I s → I (acceptTid (.request dest) dtid prio (.svc dtid dest) s).2
  acceptMsg : ∀ dtid prio s, I s → I (acceptTid .broadcast dtid prio (.msg dtid) s).2
  acceptResponse : ∀ dest dtid tid prio s, I s → I (acceptResponse dest dtid tid prio s).2
  sendFrame : ∀ n f c s, b ≤ n → .accepted n c ∈ s.trace → FrameOf c f → I s → I (sendFrame env n f s).2
  registerRequest : ∀ n c mid dest timeout s, b ≤ n → .accepted n c ∈ s.trace → c.kind = .request dest →
    encodeId { headerOf c with dtid := c.dtid } = .ok mid → I s →
    I (registerRequest n { headerOf c with dtid := c.dtid } c.tid (mid, c.tid) timeout s).2
  addHandler : ∀ type sniff s, I s → I (addHandler type sniff false s).2
  removeHandler : ∀ uid s, I s → I (removeHandler uid s).2
  removeHandlers : ∀ type s, I s → I (removeHandlers type s).2
  addHook : ∀ s, I s → I (addHook s).2
  removeHook : ∀ hk s, I s → I (removeHook hk s).2
  setNodeId : ∀ v s, I s → I (setNodeId v s).2
  setCanfd : ∀ v s, I s → I (setCanfd v s).2
  logHook : ∀ hk n arg s, b ≤ n → n < s.nextNum → I s → I (log (.called (.hook hk n arg)) s).2
  logHookRaised : ∀ hk n arg s, b ≤ n → n < s.nextNum → I s → I (log (.raised (.hook hk n arg)) s).2

/-- `m` keeps `I`. -/
def Pres (b : Nat) (I : Node → Prop) {α : Type} (m : PyM Node α) : Prop :=
  ∀ s, b ≤ s.nextNum → I s → I (m s).2 ∧ Ext s (m s).2

namespace Pres
variable {b : Nat} {I : Node → Prop} {α β : Type}

theorem bind' {m : PyM Node α} {f : α → PyM Node β} (hm : Pres b I m)
    (hf : ∀ s a s', m s = (.ok a, s') → b ≤ s.nextNum → Ext s s' → I s → I s' → I (f a s').2 ∧ Ext s' (f a s').2) :
    Pres b I (m >>- f) := by
  intro s hb hs
  have h1 := hm s hb hs
  rw [bind_run]
  cases hc : m s with
  | mk r s' =>
    rw [hc] at h1
    cases r with
    | ok a =>
      have h2 := hf s a s' hc hb h1.2 hs h1.1
      exact ⟨h2.1, h1.2.trans h2.2⟩
    | error e => exact h1

theorem bind {m : PyM Node α} {f : α → PyM Node β} (hm : Pres b I m) (hf : ∀ a, Pres b I (f a)) :
    Pres b I (m >>- f) :=
  hm.bind' fun s a s' _ hb hx _ hs' => hf a s' (Nat.le_trans hb hx.2) hs'

theorem pure (a : α) : Pres b I (PyM.pure a : PyM Node α) := fun s _ hs => ⟨hs, Ext.refl s⟩
theorem raise (e : Err) : Pres b I (PyM.raise e : PyM Node α) := fun s _ hs => ⟨hs, Ext.refl s⟩
theorem lift (r : Except Err α) : Pres b I (PyM.lift r : PyM Node α) := fun s _ hs => ⟨hs, Ext.refl s⟩
theorem get : Pres b I (PyM.get : PyM Node Node) := fun s _ hs => ⟨hs, Ext.refl s⟩

theorem tryCatch {m : PyM Node α} {h : Err → PyM Node α} (hm : Pres b I m) (hh : ∀ e, Pres b I (h e)) :
    Pres b I (PyM.tryCatch m h) := by
  intro s hb hs
  have h1 := hm s hb hs
  simp only [PyM.tryCatch]
  cases hc : m s with
  | mk r s' =>
    rw [hc] at h1
    cases r with
    | ok a => exact h1
    | error e =>
      have h2 := hh e s' (Nat.le_trans hb h1.2.2) h1.1
      exact ⟨h2.1, h1.2.trans h2.2⟩

theorem forEach {xs : List β} {f : β → PyM Node Unit} (hf : ∀ x ∈ xs, Pres b I (f x)) :
    Pres b I (PyM.forEach xs f) := by
  induction xs with
  | nil => exact pure ()
  | cons x xs ih =>
    exact bind (hf x List.mem_cons_self) fun _ => ih fun y hy => hf y (List.mem_cons_of_mem x hy)

end Pres

/-! ## Primitive effects extend the history -/

theorem tick_ext (d : Nat) (s : Node) : Ext s (tick d s).2 := Ext.refl s
theorem log_ext (e : Ev) (s : Node) : Ext s (log e s).2 := ⟨List.prefix_append .., Nat.le_refl _⟩
theorem defer_ext (t : Int) (s : Node) : Ext s (defer t s).2 := ⟨List.prefix_append .., Nat.le_refl _⟩
theorem periodic_ext (t : Int) (s : Node) : Ext s (periodic t s).2 := ⟨List.prefix_append .., Nat.le_refl _⟩
theorem cancel_ext (i : Nat) (s : Node) : Ext s (cancel i s).2 := by
  unfold cancel
  split
  · split
    · exact ⟨List.prefix_append .., Nat.le_refl _⟩
    · exact ⟨List.prefix_append .., Nat.le_refl _⟩
  · exact Ext.refl s
theorem acceptTid_ext (k : TxKind) (d : Nat) (p : Option Nat) (key : TidKey) (s : Node) :
    Ext s (acceptTid k d p key s).2 := by
  unfold acceptTid
  split
  · exact Ext.refl s
  · exact Ext.refl s
  · exact ⟨List.prefix_append .., Nat.le_succ _⟩
theorem acceptResponse_ext (a d t : Nat) (p : Option Nat) (s : Node) : Ext s (acceptResponse a d t p s).2 := by
  unfold acceptResponse
  split
  · exact Ext.refl s
  · exact Ext.refl s
  · exact ⟨List.prefix_append .., Nat.le_succ _⟩
theorem sendFrame_ext (env : Env) (n : Nat) (f : Frame) (s : Node) : Ext s (sendFrame env n f s).2 := by
  unfold sendFrame
  split
  · exact Ext.refl s
  · exact ⟨List.prefix_append .., Nat.le_refl _⟩
theorem registerRequest_ext (n : Nat) (h : Header) (t : Nat) (k : Nat × Nat) (to : Int) (s : Node) :
    Ext s (registerRequest n h t k to s).2 := ⟨List.prefix_append .., Nat.le_refl _⟩
theorem addHandler_ext (t : Option (Nat × Bool)) (sn bi : Bool) (s : Node) : Ext s (addHandler t sn bi s).2 :=
  Ext.refl s
theorem removeHandler_ext (u : Nat) (s : Node) : Ext s (removeHandler u s).2 := by
  unfold removeHandler; split <;> exact Ext.refl s
theorem removeHandlers_ext (t : Option (Nat × Bool)) (s : Node) : Ext s (removeHandlers t s).2 := Ext.refl s
theorem addHook_ext (s : Node) : Ext s (addHook s).2 := Ext.refl s
theorem removeHook_ext (u : Nat) (s : Node) : Ext s (removeHook u s).2 := by
  unfold removeHook; split <;> exact Ext.refl s
theorem setNodeId_ext (v : Int) (s : Node) : Ext s (setNodeId v s).2 := by
  unfold setNodeId; split
  · split <;> exact Ext.refl s
  · exact Ext.refl s
theorem setCanfd_ext (v : Bool) (s : Node) : Ext s (setCanfd v s).2 := Ext.refl s

/-! ## API calls -/

/-- The nested calls that API functions make: hooks of a transfer with a number at least `b`. -/
def CallOk (b : Nat) (I : Node → Prop) (call : Call → PyM Node (Option Payload)) : Prop :=
  ∀ hk n arg s, b ≤ n → n < s.nextNum → I s → I (call (.hook hk n arg) s).2 ∧ Ext s (call (.hook hk n arg) s).2

variable {env : Env} {b : Nat} {I : Node → Prop} {call : Call → PyM Node (Option Payload)}

theorem hooksLoop_pres (hc : CallOk b I call) (n : Nat) (arg : HookArg) (hbn : b ≤ n) :
    ∀ fuel i s, n < s.nextNum → I s → I (hooksLoop call n arg fuel i s).2 ∧ Ext s (hooksLoop call n arg fuel i s).2 := by
  intro fuel
  induction fuel with
  | zero => intro i s _ hs; exact ⟨hs, Ext.refl s⟩
  | succ fuel ih =>
    intro i s hn hs
    simp only [hooksLoop, bind_run, get_run]
    cases hh : s.hooks[i]? with
    | none => exact ⟨hs, Ext.refl s⟩
    | some hk =>
      have h1 := hc hk n arg s hbn hn hs
      simp only [PyM.tryCatch, bind_run]
      cases hcall : call (.hook hk n arg) s with
      | mk r s' =>
        rw [hcall] at h1
        cases r with
        | ok a =>
          have h2 := ih (i + 1) s' (Nat.lt_of_lt_of_le hn h1.2.2) h1.1
          exact ⟨h2.1, h1.2.trans h2.2⟩
        | error e =>
          have h2 := ih (i + 1) s' (Nat.lt_of_lt_of_le hn h1.2.2) h1.1
          exact ⟨h2.1, h1.2.trans h2.2⟩

theorem callHooks_pres (hc : CallOk b I call) (n : Nat) (arg : HookArg) (hbn : b ≤ n) (s : Node) (hn : n < s.nextNum)
    (hs : I s) : I (callHooks env call n arg s).2 ∧ Ext s (callHooks env call n arg s).2 :=
  hooksLoop_pres hc n arg hbn _ _ s hn hs

theorem forEach_send (hu : UserClosed env b I) (n : Nat) (c : TxCall) (hbn : b ≤ n) (frames : List Frame)
    (hf : ∀ f ∈ frames, FrameOf c f) (s : Node) (ha : .accepted n c ∈ s.trace) (hs : I s) :
    I (PyM.forEach frames (sendFrame env n) s).2 ∧ Ext s (PyM.forEach frames (sendFrame env n) s).2 := by
  induction frames generalizing s with
  | nil => exact ⟨hs, Ext.refl s⟩
  | cons f fs ih =>
    have h1 := hu.sendFrame n f c s hbn ha (hf f List.mem_cons_self) hs
    have hx := sendFrame_ext env n f s
    simp only [PyM.forEach, bind_run]
    cases hc : sendFrame env n f s with
    | mk r s' =>
      rw [hc] at h1 hx
      cases r with
      | ok a =>
        have h2 := ih (fun g hg => hf g (List.mem_cons_of_mem f hg)) s' (hx.mem ha) h1
        exact ⟨h2.1, hx.trans h2.2⟩
      | error e => exact ⟨h1, hx⟩

theorem toFrames_header {t t' : OutTransfer} {fs : List Frame} (h : toFrames t = .ok (t', fs)) :
    t'.header = t.header ∧ t'.tid = t.tid := by
  simp only [toFrames, bind, Except.bind, pure, Except.pure] at h
  split at h
  · cases h
  · injection h with h
    injection h with h1 h2
    subst h1
    exact ⟨rfl, rfl⟩

theorem mkTransfer_header {dt : DataType} {h : Header} {tid : Nat} {v : Val} {canfd : Bool} {t : OutTransfer}
    (hm : mkTransfer dt h tid v canfd = .ok t) : t.header = { h with dtid := dt.dtid } ∧ t.tid = tid := by
  simp only [mkTransfer, bind, Except.bind, pure, Except.pure] at hm
  split at hm
  · cases hm
  · injection hm with hm; subst hm; exact ⟨rfl, rfl⟩

theorem sendTransfer_pres (hu : UserClosed env b I) (hc : CallOk b I call) (n : Nat) (c : TxCall) (p : Payload)
    (canfd : Bool) (hbn : b ≤ n) (hd : p.dt.dtid = c.dtid) (s : Node) (hn : n < s.nextNum)
    (ha : .accepted n c ∈ s.trace) (hs : I s) :
    I (sendTransfer env call n p (headerOf c) c.tid canfd s).2 ∧
      Ext s (sendTransfer env call n p (headerOf c) c.tid canfd s).2 ∧
      ∀ t, (sendTransfer env call n p (headerOf c) c.tid canfd s).1 = .ok t →
        t.header = { headerOf c with dtid := c.dtid } ∧ t.tid = c.tid := by
  simp only [sendTransfer, bind_run, lift_run]
  cases hm : mkTransfer p.dt (headerOf c) c.tid p.val canfd with
  | error e => exact ⟨hs, Ext.refl s, fun t ht => by cases ht⟩
  | ok t =>
    have h1 := callHooks_pres (env := env) hc n (.tx t) hbn s hn hs
    simp only
    cases hk : callHooks env call n (.tx t) s with
    | mk r s1 =>
      rw [hk] at h1
      cases r with
      | error e => exact ⟨h1.1, h1.2, fun t ht => by cases ht⟩
      | ok _ =>
        simp only
        cases hf : toFrames t with
        | error e => exact ⟨h1.1, h1.2, fun t ht => by cases ht⟩
        | ok tf =>
          obtain ⟨t', frames⟩ := tf
          have h2 := forEach_send hu n c hbn frames (fun f hff => ⟨p, canfd, t, t', frames, hd, hm, hf, hff⟩) s1
            (h1.2.mem ha) h1.1
          simp only
          cases hk2 : PyM.forEach frames (sendFrame env n) s1 with
          | mk r s2 =>
            rw [hk2] at h2
            cases r with
            | error e => exact ⟨h2.1, h1.2.trans h2.2, fun t ht => by cases ht⟩
            | ok _ =>
              refine ⟨h2.1, h1.2.trans h2.2, fun u hu => ?_⟩
              simp only [pure_run] at hu
              injection hu with hu
              subst hu
              have e1 := toFrames_header hf
              have e2 := mkTransfer_header hm
              rw [e1.1, e1.2, e2.1, e2.2, hd]
              exact ⟨rfl, rfl⟩

theorem acceptTid_ok {k : TxKind} {d : Nat} {p : Option Nat} {key : TidKey} {s s' : Node} {n id tid : Nat}
    (h : acceptTid k d p key s = (.ok (n, id, tid), s')) :
    n = s.nextNum ∧ s'.nextNum = s.nextNum + 1 ∧ s.nodeId = some id ∧ id ≠ 0 ∧ tid = (s.tids.get? key).getD 0 ∧
      .accepted n { kind := k, dtid := d, tid, prio := p, source := id } ∈ s'.trace := by
  unfold acceptTid at h
  split at h
  · cases h
  · cases h
  · rename_i id' hne hid
    cases h
    refine ⟨rfl, rfl, hid, ?_, rfl, by simp⟩
    rintro rfl; exact hne rfl

theorem acceptResponse_ok {a d t : Nat} {p : Option Nat} {s s' : Node} {n id : Nat}
    (h : acceptResponse a d t p s = (.ok (n, id), s')) :
    n = s.nextNum ∧ s'.nextNum = s.nextNum + 1 ∧ s.nodeId = some id ∧ id ≠ 0 ∧
      .accepted n { kind := .response a, dtid := d, tid := t, prio := p, source := id } ∈ s'.trace := by
  unfold acceptResponse at h
  split at h
  · cases h
  · cases h
  · rename_i id' hne hid
    cases h
    refine ⟨rfl, rfl, hid, ?_, by simp⟩
    rintro rfl; exact hne rfl

theorem request_pres (hu : UserClosed env b I) (hc : CallOk b I call) (p : Payload) (dest : Nat) (prio : Option Nat)
    (timeout : Option Int) (canfd : Option Bool) : Pres b I (request env call p dest prio timeout canfd) := by
  intro s hb hs
  simp only [request, bind_run, get_run]
  have h1 := hu.acceptReq dest p.dt.dtid prio s hs
  have hx := acceptTid_ext (.request dest) p.dt.dtid prio (.svc p.dt.dtid dest) s
  cases hcc : acceptTid (.request dest) p.dt.dtid prio (.svc p.dt.dtid dest) s with
  | mk r s1 =>
    rw [hcc] at h1 hx
    cases r with
    | error e => exact ⟨h1, hx⟩
    | ok a =>
      obtain ⟨n, id, tid⟩ := a
      obtain ⟨hn, hn1, -, -, -, hacc⟩ := acceptTid_ok hcc
      have h2 := sendTransfer_pres hu hc n
        { kind := .request dest, dtid := p.dt.dtid, tid, prio, source := id } p (canfd.getD s.sendCanfd) (by omega) rfl s1
        (by omega) hacc h1
      simp only [headerOf] at h2
      simp only
      cases hst : sendTransfer env call n p
          { prio := effPrio prio, source := id, dest := some dest, service := true, request := true } tid
          (canfd.getD s.sendCanfd) s1 with
      | mk r s2 =>
        rw [hst] at h2
        cases r with
        | error e => exact ⟨h2.1, hx.trans h2.2.1⟩
        | ok t =>
          obtain ⟨ht1, ht2⟩ := h2.2.2 t rfl
          simp only [lift_run]
          cases he : encodeId t.header with
          | error e => exact ⟨h2.1, hx.trans h2.2.1⟩
          | ok mid =>
            simp only
            rw [ht1] at he
            rw [ht1, ht2]
            refine ⟨?_, (hx.trans h2.2.1).trans (registerRequest_ext ..)⟩
            exact hu.registerRequest n { kind := .request dest, dtid := p.dt.dtid, tid, prio, source := id } mid dest
              (effTimeout timeout) s2 (by omega) (h2.2.1.mem hacc) rfl he h2.1

theorem respond_pres (hu : UserClosed env b I) (hc : CallOk b I call) (p : Payload) (dest tid : Nat) (prio : Option Nat)
    (canfd : Option Bool) : Pres b I (respond env call p dest tid prio canfd) := by
  intro s hb hs
  simp only [respond, bind_run, get_run]
  have h1 := hu.acceptResponse dest p.dt.dtid tid prio s hs
  have hx := acceptResponse_ext dest p.dt.dtid tid prio s
  cases hcc : acceptResponse dest p.dt.dtid tid prio s with
  | mk r s1 =>
    rw [hcc] at h1 hx
    cases r with
    | error e => exact ⟨h1, hx⟩
    | ok a =>
      obtain ⟨n, id⟩ := a
      obtain ⟨hn, hn1, -, -, hacc⟩ := acceptResponse_ok hcc
      have h2 := sendTransfer_pres hu hc n
        { kind := .response dest, dtid := p.dt.dtid, tid, prio, source := id } p (canfd.getD s.sendCanfd) (by omega) rfl
        s1 (by omega) hacc h1
      simp only [headerOf] at h2
      simp only
      cases hst : sendTransfer env call n p
          { prio := prio.getD 31, source := id, dest := some dest, service := true, request := false } tid
          (canfd.getD s.sendCanfd) s1 with
      | mk r s2 =>
        rw [hst] at h2
        cases r with
        | error e => exact ⟨h2.1, hx.trans h2.2.1⟩
        | ok t => exact ⟨h2.1, hx.trans h2.2.1⟩

theorem broadcast_pres (hu : UserClosed env b I) (hc : CallOk b I call) (p : Payload) (prio : Option Nat)
    (canfd : Option Bool) : Pres b I (broadcast env call p prio canfd) := by
  intro s hb hs
  simp only [broadcast, bind_run, get_run]
  have h1 := hu.acceptMsg p.dt.dtid prio s hs
  have hx := acceptTid_ext .broadcast p.dt.dtid prio (.msg p.dt.dtid) s
  cases hcc : acceptTid .broadcast p.dt.dtid prio (.msg p.dt.dtid) s with
  | mk r s1 =>
    rw [hcc] at h1 hx
    cases r with
    | error e => exact ⟨h1, hx⟩
    | ok a =>
      obtain ⟨n, id, tid⟩ := a
      obtain ⟨hn, hn1, -, -, -, hacc⟩ := acceptTid_ok hcc
      have h2 := sendTransfer_pres hu hc n
        { kind := .broadcast, dtid := p.dt.dtid, tid, prio, source := id } p (canfd.getD s.sendCanfd) (by omega) rfl s1
        (by omega) hacc h1
      simp only [headerOf] at h2
      simp only
      cases hst : sendTransfer env call n p { prio := effPrio prio, source := id } tid (canfd.getD s.sendCanfd) s1 with
      | mk r s2 =>
        rw [hst] at h2
        cases r with
        | error e => exact ⟨h2.1, hx.trans h2.2.1⟩
        | ok t => exact ⟨h2.1, hx.trans h2.2.1⟩

theorem prim_pres {α : Type} {m : PyM Node α} (h : ∀ s, I s → I (m s).2) (hx : ∀ s, Ext s (m s).2) : Pres b I m :=
  fun s _ hs => ⟨h s hs, hx s⟩

theorem exec_pres (hu : UserClosed env b I) (hc : CallOk b I call) (c : Cmd) : Pres b I (exec env call c) := by
  cases c with
  | tick d => exact prim_pres (hu.tick d) (tick_ext d)
  | defer t => exact (prim_pres (hu.defer t) (defer_ext t)).bind fun _ => Pres.pure _
  | periodic p => exact (prim_pres (hu.periodic p) (periodic_ext p)).bind fun _ => Pres.pure _
  | cancel i => exact prim_pres (hu.cancel i) (cancel_ext i)
  | request p dest prio timeout canfd => exact request_pres hu hc p dest prio timeout canfd
  | respond p dest tid prio canfd => exact respond_pres hu hc p dest tid prio canfd
  | broadcast p prio canfd => exact broadcast_pres hu hc p prio canfd
  | addHandler t sn => exact (prim_pres (hu.addHandler t sn) (addHandler_ext t sn false)).bind fun _ => Pres.pure _
  | removeHandler u => exact prim_pres (hu.removeHandler u) (removeHandler_ext u)
  | removeHandlers t => exact prim_pres (hu.removeHandlers t) (removeHandlers_ext t)
  | addHook => exact (prim_pres hu.addHook addHook_ext).bind fun _ => Pres.pure _
  | removeHook h => exact prim_pres (hu.removeHook h) (removeHook_ext h)
  | setNodeId v => exact prim_pres (hu.setNodeId v) (setNodeId_ext v)
  | setCanfd v => exact prim_pres (hu.setCanfd v) (setCanfd_ext v)
  | raise e => exact Pres.raise e

theorem runActs_pres (hu : UserClosed env b I) (hc : CallOk b I call) (acts : List (Cmd × Bool)) :
    Pres b I (runActs env call acts) := by
  apply Pres.forEach
  rintro ⟨c, g⟩ -
  cases g
  · exact exec_pres hu hc c
  · exact Pres.tryCatch (exec_pres hu hc c) fun _ => Pres.pure _

/-- A callback keeps `I` if `I` holds once its invocation is recorded; `J` is what holds after it raised. -/
theorem runScript_pres (hu : UserClosed env b I) (hc : CallOk b I call) (J : Node → Prop) (c : Call) (s : Node)
    (hb : b ≤ s.nextNum) (hr : ∀ s', Ext s s' → I s' → J (log (.raised c) s').2) (hs : I (log (.called c) s).2) :
    (I (runScript env call c s).2 ∧ (runScript env call c s).1 = .ok (env.script s c).result ∨
      J (runScript env call c s).2 ∧ ∃ e, (runScript env call c s).1 = .error e) ∧
    Ext s (runScript env call c s).2 := by
  have h1 := runActs_pres hu hc (env.script s c).acts (log (.called c) s).2 (Nat.le_trans hb (log_ext _ s).2) hs
  have hx := log_ext (.called c) s
  simp only [runScript, bind_run, get_run, PyM.tryCatch]
  have hl : log (.called c) s = (.ok (), (log (.called c) s).2) := rfl
  rw [hl]
  simp only
  cases hcc : runActs env call (env.script s c).acts (log (.called c) s).2 with
  | mk r s1 =>
    rw [hcc] at h1
    cases r with
    | ok a => exact ⟨Or.inl ⟨h1.1, rfl⟩, hx.trans h1.2⟩
    | error e =>
      refine ⟨Or.inr ⟨hr s1 (hx.trans h1.2) h1.1, e, rfl⟩, (hx.trans h1.2).trans (log_ext _ _)⟩

theorem invoke_pres (hu : UserClosed env b I) : ∀ fuel, CallOk b I (invoke env fuel) := by
  intro fuel
  induction fuel with
  | zero => intro hk n arg s _ _ hs; exact ⟨hs, Ext.refl s⟩
  | succ fuel ih =>
    intro hk n arg s hbn hn hs
    have h := runScript_pres hu ih I (.hook hk n arg) s (by omega)
      (fun s' hx hs' => hu.logHookRaised hk n arg s' hbn (Nat.lt_of_lt_of_le hn hx.2) hs')
      (hu.logHook hk n arg s hbn hn hs)
    refine ⟨?_, h.2⟩
    rcases h.1 with h | h
    · exact h.1
    · exact h.1

theorem hookCall_ok (hu : UserClosed env b I) : CallOk b I (hookCall env) := invoke_pres hu _

/-! ## Polling, reception and histories -/

/-- The callback invocation that an event leads to. -/
def callOf : Action → List Ev
  | .once i | .every i _ => [.called (.timer i)]
  | .status _ => []
  | .timeout r _ => [.called (.response r none)]

/-- `I none` is kept by every step of polling. -/
structure PollClosed (env : Env) (b : Nat) (I : Option (Nat × Nat) → Node → Prop) : Prop where
  user : ∀ K, UserClosed env b (I K)
  fire : ∀ s e s', I none s → takeDue s = some (e, s') → I none { s' with trace := s'.trace ++ callOf e.action }
  raisedTimer : ∀ i s, I none s → I none (log (.raised (.timer i)) s).2
  raisedTimeout : ∀ r s, I none s → I none (log (.raised (.response r none)) s).2

/-- `I none` is kept by every step of polling and of the delivery of transfers. While the callback of the outstanding request
with key `k` runs, `I (some k)` holds instead. -/
structure ActClosed (env : Env) (b : Nat) (I : Option (Nat × Nat) → Node → Prop) : Prop extends PollClosed env b I where
  handler : ∀ uid tr s, I none s → I none (log (.called (.handler uid tr)) s).2
  handlerRaised : ∀ uid tr s, I none s → I none (log (.raised (.handler uid tr)) s).2
  deliver : ∀ tr key q s, tr.header.service = true → tr.header.request = false → tr.header.dest = s.nodeId →
    findRequest tr s.outstanding = some (key, q) → I none s →
    I (some key) (log (.called (.response q.req (some tr))) (dropTimeout q.seq s).2).2
  deliverRaised : ∀ r tr key s, I (some key) s → I none (log (.raised (.response r (some tr))) s).2
  del : ∀ key s, I (some key) s → I none (delOutstanding key s).2

/-- `I none` is kept by every step of polling and reception. -/
structure RecvClosed (env : Env) (b : Nat) (I : Option (Nat × Nat) → Node → Prop) : Prop extends ActClosed env b I where
  tm : ∀ s tm, I none s → I none { s with tm }
  rx : ∀ tr s, (∃ frames, fromFrames env.db frames = .ok tr) → I none s → I none (acceptRx tr s).2

/-- `I none` is kept by every step of a history. -/
structure TopClosed (env : Env) (I : Option (Nat × Nat) → Node → Prop) : Prop extends RecvClosed env 0 I where
  read : ∀ f s, I none s → I none (log (.read f) s).2

section top
variable {I : Option (Nat × Nat) → Node → Prop}

theorem Pres.result_ext {α : Type} {b : Nat} {P : Node → Prop} {m : PyM Node α} (h : Pres b P m) (s : Node)
    (hb : b ≤ s.nextNum) (hs : P s) : P (m s).2 := (h s hb hs).1

theorem PollClosed.call_ok (ht : PollClosed env b I) : CallOk b (I none) (hookCall env) := hookCall_ok (ht.user none)

theorem callHandler_pres (ht : ActClosed env b I) (e : HEntry) (tr : InTransfer) :
    Pres b (I none) (callHandler env e tr) := by
  unfold callHandler
  apply Pres.bind
  · split
    · exact Pres.bind (prim_pres (ht.handler e.uid tr) (log_ext _)) fun _ => Pres.get.bind fun _ => Pres.pure _
    · intro s hb hs
      have h := runScript_pres (ht.user none) ht.call_ok (I none) (.handler e.uid tr) s hb
        (fun s' _ hs' => ht.handlerRaised e.uid tr s' hs') (ht.handler e.uid tr s hs)
      refine ⟨?_, h.2⟩
      rcases h.1 with h | h
      · exact h.1
      · exact h.1
  · intro result
    split
    · split
      · exact Pres.pure _
      · cases result with
        | none => exact Pres.raise _
        | some p => exact respond_pres (ht.user none) ht.call_ok _ _ _ _ _
    · cases result with
      | none => exact Pres.pure _
      | some p => exact Pres.raise _

theorem handlersLoop_pres (ht : ActClosed env b I) (tr : InTransfer) (gen : Nat) :
    ∀ fuel i, Pres b (I none) (handlersLoop env tr gen fuel i) := by
  intro fuel
  induction fuel with
  | zero => intro i; exact Pres.raise _
  | succ fuel ih =>
    intro i
    apply Pres.get.bind
    intro s
    split
    · exact Pres.pure _
    · rename_i e _
      apply Pres.bind
      · split
        · apply Pres.tryCatch (callHandler_pres ht e tr)
          intro err; split
          · exact Pres.pure _
          · exact Pres.raise _
        · exact Pres.pure _
      · intro _; exact ih (i + 1)

theorem callHandlers_pres (ht : ActClosed env b I) (tr : InTransfer) : Pres b (I none) (callHandlers env tr) :=
  Pres.get.bind fun _ => handlersLoop_pres ht tr _ _ _

theorem delOutstanding_ext (k : Nat × Nat) (s : Node) : Ext s (delOutstanding k s).2 := by
  unfold delOutstanding; split <;> exact Ext.refl s

theorem dispatch_pres (ht : ActClosed env b I) (tr : InTransfer) : Pres b (I none) (dispatch env tr) := by
  intro s hb hs
  simp only [dispatch, bind_run, get_run]
  split
  · rename_i hcond
    simp only [Bool.and_eq_true, Bool.not_eq_true', decide_eq_true_eq] at hcond
    cases hf : findRequest tr s.outstanding with
    | none => exact ⟨hs, Ext.refl s⟩
    | some kq =>
      obtain ⟨key, q⟩ := kq
      have h0 := ht.deliver tr key q s hcond.1.1 hcond.1.2 hcond.2 hf hs
      have hx0 : Ext s (dropTimeout q.seq s).2 := Ext.refl s
      simp only [bind_run]
      have hd : dropTimeout q.seq s = (.ok (), (dropTimeout q.seq s).2) := rfl
      rw [hd]
      have h := runScript_pres (ht.user (some key)) (hookCall_ok (ht.user (some key))) (I none)
        (.response q.req (some tr)) (dropTimeout q.seq s).2 hb
        (fun s' _ hs' => ht.deliverRaised q.req tr key s' hs') h0
      simp only
      cases hr : runScript env (hookCall env) (.response q.req (some tr)) (dropTimeout q.seq s).2 with
      | mk r s1 =>
        rw [hr] at h
        rcases h.1 with ⟨h1, h2⟩ | ⟨h1, e, h2⟩
        · simp only at h2; subst h2
          exact ⟨ht.del key s1 h1, (hx0.trans h.2).trans (delOutstanding_ext key s1)⟩
        · simp only at h2; subst h2
          exact ⟨h1, hx0.trans h.2⟩
  · split
    · exact callHandlers_pres ht tr s hb hs
    · exact ⟨hs, Ext.refl s⟩

theorem recvFrame_pres (ht : RecvClosed env b I) (raw : RawFrame) : Pres b (I none) (recvFrame env raw) := by
  unfold recvFrame
  split
  · exact Pres.pure _
  · apply Pres.bind (prim_pres (fun s hs => ht.tm s _ hs) (fun s => Ext.refl s))
    intro out
    cases out with
    | none => exact Pres.pure _
    | some frames =>
      intro s hb hs
      simp only [bind_run, lift_run]
      cases hf : fromFrames env.db frames with
      | error e => exact ⟨hs, Ext.refl s⟩
      | ok tr =>
        simp only [acceptRx]
        have h1 : I none (acceptRx tr s).2 := ht.rx tr s ⟨frames, hf⟩ hs
        simp only [acceptRx] at h1
        have hx1 : Ext s { s with nextNum := s.nextNum + 1, trace := s.trace ++ [.received s.nextNum tr] } :=
          ⟨List.prefix_append .., Nat.le_succ _⟩
        have h2 := callHooks_pres (env := env) ht.toActClosed.call_ok s.nextNum (.rx tr) hb
          { s with nextNum := s.nextNum + 1, trace := s.trace ++ [.received s.nextNum tr] } (Nat.lt_succ_self _) h1
        cases hk : callHooks env (hookCall env) s.nextNum (.rx tr)
            { s with nextNum := s.nextNum + 1, trace := s.trace ++ [.received s.nextNum tr] } with
        | mk r s2 =>
          rw [hk] at h2
          cases r with
          | error e => exact ⟨h2.1, hx1.trans h2.2⟩
          | ok _ =>
            have h3 := dispatch_pres ht.toActClosed tr s2 (Nat.le_trans hb (hx1.trans h2.2).2) h2.1
            exact ⟨h3.1, (hx1.trans h2.2).trans h3.2⟩

theorem sendNodeStatus_pres (ht : PollClosed env b I) : Pres b (I none) (sendNodeStatus env) := by
  apply Pres.get.bind
  intro s
  split
  · exact Pres.pure _
  · exact Pres.pure _
  · exact broadcast_pres (ht.user none) ht.call_ok _ _ _

theorem beforeCallback_ext (e : TEvent Action) (s : Node) : Ext s (beforeCallback e s) := by
  unfold beforeCallback
  split <;> exact Ext.refl s

theorem takeDue_ext {s s' : Node} {e : TEvent Action} (h : takeDue s = some (e, s')) : Ext s s' := by
  unfold takeDue at h
  split at h
  · cases h
  · split at h
    · cases h
    · injection h with h
      injection h with h1 h2
      subst h2
      refine Ext.trans ?_ (beforeCallback_ext _ _)
      exact ⟨List.prefix_append .., Nat.le_refl _⟩

/-- Running the action of an event that was just taken from the queue. -/
theorem runAction_pres (ht : PollClosed env b I) (a : Action) (s : Node) (hb : b ≤ s.nextNum)
    (hs : I none { s with trace := s.trace ++ callOf a }) :
    I none (runAction env a s).2 ∧ Ext s (runAction env a s).2 := by
  have key : ∀ c, (callOf a = [.called c]) → (∀ s, I none s → I none (log (.raised c) s).2) →
      I none (runScript env (hookCall env) c s).2 ∧ Ext s (runScript env (hookCall env) c s).2 := by
    intro c hca hr
    rw [hca] at hs
    have h := runScript_pres (ht.user none) ht.call_ok (I none) c s hb (fun s' _ hs' => hr s' hs') hs
    refine ⟨?_, h.2⟩
    rcases h.1 with h | h
    · exact h.1
    · exact h.1
  have fin : ∀ c, I none (runScript env (hookCall env) c s).2 ∧ Ext s (runScript env (hookCall env) c s).2 →
      I none ((runScript env (hookCall env) c >>- fun _ => PyM.pure ()) s).2 ∧
        Ext s ((runScript env (hookCall env) c >>- fun _ => PyM.pure ()) s).2 := by
    intro c h
    rw [bind_run]
    cases hc : runScript env (hookCall env) c s with
    | mk r s1 =>
      rw [hc] at h
      cases r <;> exact h
  cases a with
  | once i => exact fin _ (key (.timer i) rfl (ht.raisedTimer i))
  | every i p => exact fin _ (key (.timer i) rfl (ht.raisedTimer i))
  | timeout r k => exact fin _ (key (.response r none) rfl (ht.raisedTimeout r))
  | status p =>
    simp only [callOf, List.append_nil] at hs
    exact sendNodeStatus_pres ht s hb hs

theorem poll_pres (ht : PollClosed env b I) : ∀ ds, Pres b (I none) (poll env ds) := by
  intro ds
  induction ds with
  | nil => exact Pres.pure _
  | cons d ds ih =>
    apply Pres.bind (prim_pres ((ht.user none).tick d) (tick_ext d))
    intro _ s hb hs
    simp only [bind_run, get_run]
    cases hq : s.sched.queue with
    | nil => exact ⟨hs, Ext.refl s⟩
    | cons e q =>
      simp only
      cases htd : takeDue s with
      | none => exact ⟨hs, Ext.refl s⟩
      | some es =>
        obtain ⟨e', s'⟩ := es
        have hx := takeDue_ext htd
        have h1 := runAction_pres ht e'.action s' (Nat.le_trans hb hx.2) (ht.fire s e' s' hs htd)
        simp only [bind_run, put_run]
        cases hr : runAction env e'.action s' with
        | mk r s2 =>
          rw [hr] at h1
          cases r with
          | error e => exact ⟨h1.1, hx.trans h1.2⟩
          | ok _ =>
            have h2 := ih s2 (Nat.le_trans hb (hx.trans h1.2).2) h1.1
            exact ⟨h2.1, (hx.trans h1.2).trans h2.2⟩

theorem drain_pres (ht : TopClosed env I) : ∀ fs n, Pres 0 (I none) (drain env fs n) := by
  intro fs
  induction fs with
  | nil => exact fun n => (prim_pres (ht.read none) (log_ext _)).bind fun _ => Pres.pure _
  | cons f fs ih =>
    intro n
    cases f with
    | none => exact (prim_pres (ht.read none) (log_ext _)).bind fun _ => Pres.pure _
    | some f =>
      exact (prim_pres (ht.read (some f)) (log_ext _)).bind fun _ => (recvFrame_pres ht.toRecvClosed f).bind fun _ => ih _

theorem spin0_pres (ht : TopClosed env I) (fs : List (Option RawFrame)) (ds : List Nat) :
    Pres 0 (I none) (spin0 env fs ds) :=
  (drain_pres ht fs 0).bind fun _ => (poll_pres ht.toPollClosed ds).bind fun _ => Pres.pure _

theorem executeOnce_pres (ht : TopClosed env I) (r : Round) : Pres 0 (I none) (executeOnce env r) := by
  apply (poll_pres ht.toPollClosed r.clock).bind
  intro _
  apply Pres.bind (prim_pres ((ht.user none).tick r.elapsed) (tick_ext r.elapsed))
  intro _
  apply Pres.bind (prim_pres (ht.read r.frame) (log_ext _))
  intro _
  cases r.frame with
  | none => exact Pres.pure _
  | some f => exact (recvFrame_pres ht.toRecvClosed f).bind fun _ => Pres.pure _

theorem spinLoop_pres (ht : TopClosed env I) (dl : Option Int) : ∀ rs, Pres 0 (I none) (spinLoop env dl rs) := by
  intro rs
  induction rs with
  | nil => exact Pres.pure _
  | cons r rs ih =>
    apply Pres.get.bind
    intro s
    split
    · exact (executeOnce_pres ht r).bind fun _ => ih
    · exact Pres.pure _

theorem spinTimeout_pres (ht : TopClosed env I) (t : Option Int) (r : Round) (rs : List Round) :
    Pres 0 (I none) (spinTimeout env t r rs) :=
  Pres.get.bind fun _ => (executeOnce_pres ht r).bind fun _ => (spinLoop_pres ht _ rs).bind fun _ => Pres.pure _

theorem step_pres (ht : TopClosed env I) (op : Op) (s : Node) (hs : I none s) :
    I none (step env op s) ∧ Ext s (step env op s) := by
  cases op with
  | api c => exact exec_pres (ht.user none) ht.toActClosed.call_ok c s (Nat.zero_le _) hs
  | poll ds => exact poll_pres ht.toPollClosed ds s (Nat.zero_le _) hs
  | frame f => exact recvFrame_pres ht.toRecvClosed f s (Nat.zero_le _) hs
  | spin0 fs ds => exact spin0_pres ht fs ds s (Nat.zero_le _) hs
  | spin t r rs => exact spinTimeout_pres ht t r rs s (Nat.zero_le _) hs

/-- An invariant holds after every history. -/
theorem run_pres (ht : TopClosed env I) (ops : List Op) (s : Node) (hs : I none s) :
    I none (run env ops s) ∧ Ext s (run env ops s) := by
  induction ops generalizing s with
  | nil => exact ⟨hs, Ext.refl s⟩
  | cons op ops ih =>
    have h1 := step_pres ht op s hs
    have h2 := ih (step env op s) h1.1
    exact ⟨h2.1, h1.2.trans h2.2⟩

end top
end Dronecan.Node
