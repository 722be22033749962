import Verif.Spec.Rpc
import Verif.Proofs.Requests
import Verif.Proofs.Transfer
import Verif.Props.Network

/-! The outstanding requests are those that the node still waits for, as long as requests do not clash. -/

namespace Dronecan.Rpc
open Node Timers Requests

/-! ## Lists and dictionaries -/

theorem split_unique {α : Type} {p : α → Bool} : ∀ {a a' b b' : List α} {x x' : α}, a ++ x :: b = a' ++ x' :: b' → p x = true → p x' = true →
    (a ++ x :: b).countP p ≤ 1 → x = x' ∧ b = b' := by
  intro a
  induction a with
  | nil =>
    intro a' b b' x x' h hx hx' hc
    cases a' with
    | nil => injection h with h1 h2; exact ⟨h1, h2⟩
    | cons y a' =>
      injection h with h1 h2
      change b = a' ++ x' :: b' at h2
      rw [List.nil_append, h2, List.countP_cons, List.countP_append, List.countP_cons, hx, hx'] at hc
      simp only [if_true] at hc
      omega
  | cons y a ih =>
    intro a' b b' x x' h hx hx' hc
    cases a' with
    | nil =>
      injection h with h1 h2
      subst h1
      rw [List.cons_append, List.countP_cons, List.countP_append, List.countP_cons, hx, hx'] at hc
      simp only [if_true] at hc
      omega
    | cons y' a' =>
      injection h with h1 h2
      refine ih h2 hx hx' ?_
      rw [List.cons_append, List.countP_cons] at hc
      omega

theorem mem_set_self {κ ν : Type} [DecidableEq κ] (d : Dict κ ν) (k : κ) (v : ν) : (k, v) ∈ d.set k v := by
  induction d with
  | nil => exact List.mem_cons_self
  | cons p d ih =>
    obtain ⟨a, b⟩ := p
    simp only [Dict.set]
    split
    · rename_i h; subst h; exact List.mem_cons_self
    · exact List.mem_cons_of_mem _ ih

theorem mem_set_ne {κ ν : Type} [DecidableEq κ] {d : Dict κ ν} {k : κ} {v : ν} {x : κ × ν} (h : x ∈ d) (hk : x.1 ≠ k) : x ∈ d.set k v := by
  induction d with
  | nil => cases h
  | cons p d ih =>
    obtain ⟨a, b⟩ := p
    simp only [Dict.set]
    split
    · rename_i hak
      rcases List.mem_cons.1 h with rfl | h
      · exact absurd hak hk
      · exact List.mem_cons_of_mem _ h
    · rcases List.mem_cons.1 h with rfl | h
      · exact List.mem_cons_self
      · exact List.mem_cons_of_mem _ (ih h)

theorem mem_del_ne {κ ν : Type} [DecidableEq κ] {d : Dict κ ν} {k : κ} {x : κ × ν} (h : x ∈ d) (hk : x.1 ≠ k) : x ∈ d.del k := by
  induction d with
  | nil => cases h
  | cons p d ih =>
    obtain ⟨a, b⟩ := p
    simp only [Dict.del]
    split
    · rename_i hak
      rcases List.mem_cons.1 h with rfl | h
      · exact absurd hak hk
      · exact h
    · rcases List.mem_cons.1 h with rfl | h
      · exact List.mem_cons_self
      · exact List.mem_cons_of_mem _ (ih h)

theorem dict_key_unique {κ ν : Type} [DecidableEq κ] {d : Dict κ ν} (h : d.Ok) {k : κ} {x y : ν} (hx : (k, x) ∈ d) (hy : (k, y) ∈ d) : x = y := by
  have h1 := (Dict.mem_iff_get? h k x).1 hx
  have h2 := (Dict.mem_iff_get? h k y).1 hy
  rw [h1] at h2
  exact Option.some.inj h2

/-! ## Histories -/

theorem NoClash.left {a b : List Ev} (h : NoClash (a ++ b)) : NoClash a := fun pre x post he =>
  h pre x (post ++ b) (by rw [he]; simp)

theorem Sent.mono {a b : List Ev} {r : Nat} {h : Header} {tid : Nat} (hs : Sent a r h tid) : Sent (a ++ b) r h tid := by
  obtain ⟨n, d, hm⟩ := hs
  exact ⟨n, d, List.mem_append_left _ hm⟩

theorem Finished.calls_pos {t : List Ev} {r : Nat} (h : Finished t r) : 0 < calls t r := by
  obtain ⟨a, x, b, rfl, -⟩ := h
  simp only [calls, List.countP_append, List.countP_cons, isRespCall, beq_self_eq_true, if_true]
  omega

theorem calls_append (a b : List Ev) (r : Nat) : calls (a ++ b) r = calls a r + calls b r := List.countP_append

/-- Two requests that a reply could not tell apart are never both waiting. -/
theorem NoClash.distinct {t : List Ev} (hc : NoClash t) {r r' : Nat} {h h' : Header} {tid tid' : Nat} (h1 : Sent t r h tid)
    (h2 : Sent t r' h' tid') (hs : Same h h' tid tid') (u1 : calls t r = 0) (u2 : calls t r' = 0) : r = r' := by
  obtain ⟨n, d, m1⟩ := h1
  obtain ⟨n', d', m2⟩ := h2
  have key : ∀ {r r' : Nat} {h h' : Header} {tid tid' n d n' d'} {a b : List Ev}, t = a ++ .requested r n h tid d :: b →
      .requested r' n' h' tid' d' ∈ a → Same h h' tid tid' → calls t r' = 0 → False := by
    intro r r' h h' tid tid' n d n' d' a b he hm hs hu
    have hf := hc a _ b he r n h tid d rfl r' h' tid' ⟨n', d', hm⟩ hs
    have := hf.calls_pos
    rw [he, calls_append] at hu
    omega
  obtain ⟨a, b, he⟩ := List.append_of_mem m1
  rw [he] at m2
  rcases List.mem_append.1 m2 with m2 | m2
  · exact (key he m2 hs u2).elim
  · rcases List.mem_cons.1 m2 with m2 | m2
    · injection m2 with m2 _
      exact m2.symm
    · obtain ⟨c, e, he'⟩ := List.append_of_mem m2
      exact (key (r := r') (n := n') (d := d') (n' := n) (d' := d) (a := a ++ .requested r n h tid d :: c) (b := e) (by rw [he, he']; simp) (by simp) ⟨hs.1.symm, hs.2.1.symm, hs.2.2.symm⟩ u1).elim

/-! ## Keys -/

/-- The dictionary key of a request sent by node `v`. -/
structure Keyed (v : Nat) (k : Nat × Nat) (h : Header) (tid : Nat) : Prop where
  id : encodeId h = .ok k.1
  tid : tid = k.2
  service : h.service = true
  request : h.request = true
  source : h.source = v

theorem encoded {h : Header} {mid v : Nat} (hv : v ≤ 127) (hs : h.service = true) (hsrc : h.source = v) (he : encodeId h = .ok mid) :
    h.dtid = mid / 2 ^ 16 % 256 ∧ h.dest = some (mid / 2 ^ 8 % 128) := by
  obtain ⟨prio, source, dest, service, request, disc, dtid⟩ := h
  simp only at hs hsrc
  subst hs
  subst hsrc
  have hd : dtid < 256 := by
    simp only [encodeId, if_true] at he
    split at he
    · cases he
    · omega
  cases dest with
  | none => simp only [encodeId, if_true] at he; split at he <;> cases he
  | some dest =>
    have hdest : 1 ≤ dest ∧ dest ≤ 0x7F := by
      simp only [encodeId, if_true] at he
      split at he
      · cases he
      · split at he
        · cases he
        · omega
    have hdisc : encodeId { prio, source, dest := some dest, service := true, request, discriminator := disc, dtid } =
      encodeId { prio, source, dest := some dest, service := true, request, dtid } := rfl
    rw [hdisc, encode_service prio dtid source dest request hd (by omega) hdest.1 (by omega)] at he
    injection he with he
    have := bool_toNat_lt request
    simp only [Option.some.injEq]
    omega

theorem Keyed.same {v : Nat} (hv : v ≤ 127) {k : Nat × Nat} {h h' : Header} {tid tid' : Nat} (a : Keyed v k h tid) (b : Keyed v k h' tid') :
    Same h h' tid tid' := by
  obtain ⟨a1, a2⟩ := encoded hv a.service a.source a.id
  obtain ⟨b1, b2⟩ := encoded hv b.service b.source b.id
  exact ⟨a2.trans b2.symm, a1.trans b1.symm, a.tid.trans b.tid.symm⟩

theorem Keyed.unique {v : Nat} {k k' : Nat × Nat} {h : Header} {tid : Nat} (a : Keyed v k h tid) (b : Keyed v k' h tid) : k = k' := by
  have := a.id.symm.trans b.id
  injection this with h1
  exact Prod.ext h1 (a.tid.symm.trans b.tid)

/-! ## The invariant -/

/-- The outstanding requests are those that the node waits for (`K`: the key of the one whose callback is running). -/
structure Live (v : Nat) (K : Option (Nat × Nat)) (s : Node) : Prop where
  back : ∀ kq ∈ s.outstanding, Sent s.trace kq.2.req kq.2.header kq.2.tid ∧ Keyed v kq.1 kq.2.header kq.2.tid ∧
    (some kq.1 = K ∨ calls s.trace kq.2.req = 0)
  keep : ∀ r h tid, Sent s.trace r h tid → calls s.trace r = 0 → ∃ kq ∈ s.outstanding, kq.2.req = r ∧ kq.2.header = h ∧ kq.2.tid = tid
  timer : ∀ e ∈ s.sched.queue, ∀ r k, e.action = .timeout r k → ∃ h tid, Sent s.trace r h tid ∧ Keyed v k h tid
  uniq : ∀ r h tid h' tid', Sent s.trace r h tid → Sent s.trace r h' tid' → h = h' ∧ tid = tid'
  running : ∀ k, K = some k → ∃ q tr a b, (k, q) ∈ s.outstanding ∧ s.trace = a ++ .called (.response q.req (some tr)) :: b ∧ b.any loopEv = false

/-- The invariant of histories of node `v`. -/
structure PI (v : Nat) (K : Option (Nat × Nat)) (s : Node) : Prop where
  inv : Inv K s
  me : s.nodeId = some v
  src : ∀ n c, .accepted n c ∈ s.trace → c.source = v
  live : s.trace.any isRespRaise = false → NoClash s.trace → Live v K s

/-- Entries of the history that say nothing about requests. -/
def plain : Ev → Bool
  | .called (.response ..) => false
  | .requested .. => false
  | _ => true

theorem sent_plain {t evs : List Ev} (hp : ∀ x ∈ evs, plain x = true) {r : Nat} {h : Header} {tid : Nat} (hs : Sent (t ++ evs) r h tid) :
    Sent t r h tid := by
  obtain ⟨n, d, hm⟩ := hs
  rcases List.mem_append.1 hm with hm | hm
  · exact ⟨n, d, hm⟩
  · cases hp _ hm

theorem calls_plain {t evs : List Ev} (hp : ∀ x ∈ evs, plain x = true) (r : Nat) : calls (t ++ evs) r = calls t r := by
  rw [calls_append]
  have : calls evs r = 0 := by
    unfold calls
    rw [List.countP_eq_zero]
    intro x hx
    have := hp x hx
    cases x with
    | called c => cases c <;> simp [plain, isRespCall] at *
    | _ => simp [isRespCall]
  omega

variable {v : Nat} {K : Option (Nat × Nat)}

theorem PI.frame {s s' : Node} (h : PI v K s) (hi : Inv K s') (hn : s'.nodeId = s.nodeId) (ho : s'.outstanding = s.outstanding) (evs : List Ev)
    (ht : s'.trace = s.trace ++ evs) (hp : ∀ x ∈ evs, plain x = true) (ha : ∀ n c, .accepted n c ∈ evs → c.source = v)
    (hl : K = none ∨ evs.any loopEv = false)
    (hq : ∀ e ∈ s'.sched.queue, ∀ r k, e.action = .timeout r k → e ∈ s.sched.queue) : PI v K s' where
  inv := hi
  me := hn.trans h.me
  src n c hm := by
    rw [ht] at hm
    rcases List.mem_append.1 hm with hm | hm
    · exact h.src n c hm
    · exact ha n c hm
  live hr hc := by
    rw [ht] at hr hc
    rw [List.any_append, Bool.or_eq_false_iff] at hr
    have L := h.live hr.1 hc.left
    constructor
    · rw [ho, ht]
      intro kq hk
      obtain ⟨a, b, c⟩ := L.back kq hk
      rw [calls_plain hp]
      exact ⟨a.mono, b, c⟩
    · rw [ho, ht]
      intro r hd tid hs hu
      rw [calls_plain hp] at hu
      exact L.keep r hd tid (sent_plain hp hs) hu
    · intro e he r k hk
      obtain ⟨hd, tid, a, b⟩ := L.timer e (hq e he r k hk) r k hk
      exact ⟨hd, tid, by rw [ht]; exact a.mono, b⟩
    · rw [ht]
      intro r hd tid hd' tid' a b
      exact L.uniq r hd tid hd' tid' (sent_plain hp a) (sent_plain hp b)
    · intro k hk
      obtain ⟨q, tr, a, b, h1, h2, h3⟩ := L.running k hk
      refine ⟨q, tr, a, b ++ evs, by rw [ho]; exact h1, by rw [ht, h2]; simp, ?_⟩
      rw [List.any_append, h3]
      rcases hl with hl | hl
      · rw [hl] at hk; cases hk
      · exact hl

/-- As `PI.frame`, when only one entry is logged. -/
theorem PI.frame1 {s s' : Node} (h : PI v K s) (hi : Inv K s') (hn : s'.nodeId = s.nodeId) (ho : s'.outstanding = s.outstanding) (x : Ev)
    (ht : s'.trace = s.trace ++ [x]) (hp : plain x = true) (ha : ∀ n c, x ≠ .accepted n c) (hl : K = none ∨ loopEv x = false)
    (hq : ∀ e ∈ s'.sched.queue, ∀ r k, e.action = .timeout r k → e ∈ s.sched.queue) : PI v K s' :=
  h.frame hi hn ho [x] ht (by simpa using hp) (fun n c hm => absurd (List.mem_singleton.1 hm).symm (ha n c))
    (by simpa using hl) hq

theorem PI.frame0 {s s' : Node} (h : PI v K s) (hi : Inv K s') (hn : s'.nodeId = s.nodeId) (ho : s'.outstanding = s.outstanding)
    (ht : s'.trace = s.trace) (hq : s'.sched = s.sched) : PI v K s' :=
  h.frame hi hn ho [] (by simpa using ht) (by simp) (by simp) (.inr rfl) (fun e he _ _ _ => by rw [hq] at he; exact he)

theorem enter_timeout {q : Sched Action} {t : Int} {p : Nat} {a : Action} (ha : ∀ r k, a ≠ .timeout r k) :
    ∀ e ∈ (q.enterabs t p a).2.queue, ∀ r k, e.action = .timeout r k → e ∈ q.queue := by
  intro e he r k hk
  rcases mem_enterabs.1 he with rfl | he
  · exact absurd hk (ha r k)
  · exact he

theorem PI.register (hv : v ≤ 127) {s : Node} (h : PI v K s) (n : Nat) (c : TxCall) (mid dest : Nat) (to : Int) (ha : .accepted n c ∈ s.trace)
    (hk : c.kind = .request dest) (he : encodeId { headerOf c with dtid := c.dtid } = .ok mid)
    (hi : Inv K (registerRequest n { headerOf c with dtid := c.dtid } c.tid (mid, c.tid) to s).2) :
    PI v K (registerRequest n { headerOf c with dtid := c.dtid } c.tid (mid, c.tid) to s).2 := by
  refine ⟨hi, h.me, ?_, ?_⟩
  · intro n' c' hm
    rcases List.mem_append.1 hm with hm | hm
    · exact h.src n' c' hm
    · cases List.mem_singleton.1 hm
  intro hr hc
  have hkey : Keyed v (mid, c.tid) { headerOf c with dtid := c.dtid } c.tid :=
    ⟨he, rfl, by simp [headerOf, hk], by simp [headerOf, hk], by simp [headerOf, hk, h.src n c ha]⟩
  revert hkey hr hc hi
  generalize ({ headerOf c with dtid := c.dtid } : Header) = hd
  intro hi hr hc hkey
  simp only [registerRequest, Sched.enterabs] at hr hc ⊢
  rw [List.any_append, Bool.or_eq_false_iff] at hr
  have L := h.live hr.1 hc.left
  have R := h.inv.2 hr.1
  have hfresh : calls s.trace s.nextReq = 0 := by
    have := R.load s.nextReq
    rw [if_neg (Nat.lt_irrefl _)] at this
    unfold calls
    omega
  have hnew : ∀ kq ∈ s.outstanding, kq.1 ≠ (mid, c.tid) := by
    intro kq hkq hkk
    obtain ⟨h1, h2, h3⟩ := L.back kq hkq
    rw [hkk] at h2
    have hfin : Finished s.trace kq.2.req := hc s.trace _ [] rfl _ _ _ _ _ rfl _ _ _ h1 (hkey.same hv h2)
    rcases h3 with h3 | h3
    · obtain ⟨q, tr, a, b, g1, g2, g3⟩ := L.running kq.1 h3.symm
      have : q = kq.2 := dict_key_unique R.okd g1 hkq
      subst this
      obtain ⟨a', x, b', f1, f2⟩ := hfin
      have hcount : s.trace.countP (isRespCall kq.2.req) ≤ 1 := by
        have := R.load kq.2.req
        split at this <;> omega
      rw [g2] at f1 hcount
      obtain ⟨e1, e2⟩ := split_unique (p := isRespCall kq.2.req) f1 (by simp [isRespCall]) (by simp [isRespCall]) hcount
      injection e1 with e1
      injection e1 with _ e1
      subst e1
      subst e2
      rcases f2 with f2 | f2
      · cases f2
      · rw [g3] at f2; cases f2
    · have := hfin.calls_pos
      omega
  have hcalls : ∀ r x, calls (s.trace ++ [.requested x n hd c.tid (s.now + to)]) r = calls s.trace r := by
    intro r x
    rw [calls_append]
    simp [calls, isRespCall]
  constructor
  · intro kq hkq
    rw [hcalls]
    rcases mem_set_key hkq with rfl | hkq
    · exact ⟨⟨n, s.now + to, by simp⟩, hkey, .inr hfresh⟩
    · obtain ⟨h1, h2, h3⟩ := L.back kq hkq
      exact ⟨h1.mono, h2, h3⟩
  · intro r h' tid hs hu
    rw [hcalls] at hu
    obtain ⟨n', d', hm⟩ := hs
    rcases List.mem_append.1 hm with hm | hm
    · obtain ⟨kq, g1, g2⟩ := L.keep r h' tid ⟨n', d', hm⟩ hu
      exact ⟨kq, mem_set_ne g1 (hnew kq g1), g2⟩
    · have := List.mem_singleton.1 hm
      simp only [Ev.requested.injEq] at this
      obtain ⟨rfl, rfl, rfl, rfl, rfl⟩ := this
      exact ⟨_, mem_set_self _ _ _, rfl, rfl, rfl⟩
  · intro e he' r k hka
    rcases mem_insertEvent.1 he' with rfl | he'
    · simp only [Action.timeout.injEq] at hka
      obtain ⟨rfl, rfl⟩ := hka
      exact ⟨hd, c.tid, ⟨n, s.now + to, by simp⟩, hkey⟩
    · obtain ⟨h', tid, a, b⟩ := L.timer e he' r k hka
      exact ⟨h', tid, a.mono, b⟩
  · intro r h1 t1 h2 t2 a b
    have old : ∀ h' tid, Sent (s.trace ++ [.requested s.nextReq n hd c.tid (s.now + to)]) r h' tid →
        Sent s.trace r h' tid ∨ (r = s.nextReq ∧ h' = hd ∧ tid = c.tid) := by
      rintro h' tid ⟨n', d', hm⟩
      rcases List.mem_append.1 hm with hm | hm
      · exact .inl ⟨n', d', hm⟩
      · have := List.mem_singleton.1 hm
        simp only [Ev.requested.injEq] at this
        exact .inr ⟨this.1, this.2.2.1, this.2.2.2.1⟩
    have lt : ∀ h' tid, Sent s.trace r h' tid → r < s.nextReq := by
      rintro h' tid ⟨n', d', hm⟩
      exact R.reqs _ _ _ _ _ hm
    rcases old _ _ a with a | a <;> rcases old _ _ b with b | b
    · exact L.uniq r h1 t1 h2 t2 a b
    · have := lt _ _ a; omega
    · have := lt _ _ b; omega
    · exact ⟨a.2.1.trans b.2.1.symm, a.2.2.trans b.2.2.symm⟩
  · intro k hk'
    obtain ⟨q, tr, a, b, g1, g2, g3⟩ := L.running k hk'
    refine ⟨q, tr, a, b ++ [.requested s.nextReq n hd c.tid (s.now + to)], mem_set_ne g1 (hnew (k, q) g1), by rw [g2]; simp, ?_⟩
    rw [List.any_append, g3]
    rfl

theorem PI.user (hv0 : v ≠ 0) (hv : v ≤ 127) (env : Env) (K : Option (Nat × Nat)) : UserClosed env 0 (PI v K) where
  tick d s h := h.frame0 ((Inv.user env K).tick d s h.inv) rfl rfl rfl rfl
  defer t s h := h.frame1 ((Inv.user env K).defer t s h.inv) rfl rfl _ rfl rfl (by simp) (.inr rfl) (enter_timeout (by simp))
  periodic p s h := h.frame1 ((Inv.user env K).periodic p s h.inv) rfl rfl _ rfl rfl (by simp) (.inr rfl) (enter_timeout (by simp))
  cancel i s h := by
    have hi := (Inv.user env K).cancel i s h.inv
    revert hi
    unfold Node.cancel
    split
    · split
      · rename_i q hc
        intro hi
        refine h.frame1 hi rfl rfl _ rfl rfl (by simp) (.inr rfl) ?_
        intro e he _ _ _
        obtain ⟨-, hq⟩ := cancel_some hc
        simp only [hq] at he
        exact List.mem_of_mem_eraseP he
      · exact fun hi => h.frame1 hi rfl rfl _ rfl rfl (by simp) (.inr rfl) (fun e he _ _ _ => he)
    · exact fun _ => h
  acceptReq dest dtid prio s h := by
    have hi := (Inv.user env K).acceptReq dest dtid prio s h.inv
    revert hi
    unfold acceptTid
    split
    · exact fun _ => h
    · exact fun _ => h
    · rename_i id _ hid
      intro hi
      refine h.frame hi rfl rfl [_] rfl (by simp [plain]) ?_ (.inr rfl) (fun e he _ _ _ => he)
      intro n c hm
      have := List.mem_singleton.1 hm
      injection this with _ this
      rw [this]
      exact Option.some.inj (hid.symm.trans h.me)
  acceptMsg dtid prio s h := by
    have hi := (Inv.user env K).acceptMsg dtid prio s h.inv
    revert hi
    unfold acceptTid
    split
    · exact fun _ => h
    · exact fun _ => h
    · rename_i id _ hid
      intro hi
      refine h.frame hi rfl rfl [_] rfl (by simp [plain]) ?_ (.inr rfl) (fun e he _ _ _ => he)
      intro n c hm
      have := List.mem_singleton.1 hm
      injection this with _ this
      rw [this]
      exact Option.some.inj (hid.symm.trans h.me)
  acceptResponse dest dtid tid prio s h := by
    have hi := (Inv.user env K).acceptResponse dest dtid tid prio s h.inv
    revert hi
    unfold acceptResponse
    split
    · exact fun _ => h
    · exact fun _ => h
    · rename_i id _ hid
      intro hi
      refine h.frame hi rfl rfl [_] rfl (by simp [plain]) ?_ (.inr rfl) (fun e he _ _ _ => he)
      intro n c hm
      have := List.mem_singleton.1 hm
      injection this with _ this
      rw [this]
      exact Option.some.inj (hid.symm.trans h.me)
  sendFrame n f c s hb ha hf h := by
    have hi := (Inv.user env K).sendFrame n f c s hb ha hf h.inv
    revert hi
    unfold sendFrame
    split
    · exact fun _ => h
    · exact fun hi => h.frame1 hi rfl rfl _ rfl rfl (by simp) (.inr rfl) (fun e he _ _ _ => he)
  registerRequest n c mid dest to s hb ha hk he h :=
    h.register hv n c mid dest to ha hk he ((Inv.user env K).registerRequest n c mid dest to s hb ha hk he h.inv)
  addHandler t sn s h := h.frame0 ((Inv.user env K).addHandler t sn s h.inv) rfl rfl rfl rfl
  removeHandler u s h := by
    have hi := (Inv.user env K).removeHandler u s h.inv
    revert hi
    unfold removeHandler
    split
    · exact fun hi => h.frame0 hi rfl rfl rfl rfl
    · exact fun _ => h
  removeHandlers t s h := h.frame0 ((Inv.user env K).removeHandlers t s h.inv) rfl rfl rfl rfl
  addHook s h := h.frame0 ((Inv.user env K).addHook s h.inv) rfl rfl rfl rfl
  removeHook hk s h := by
    have hi := (Inv.user env K).removeHook hk s h.inv
    revert hi
    unfold removeHook
    split
    · exact fun hi => h.frame0 hi rfl rfl rfl rfl
    · exact fun _ => h
  setNodeId w s h := by
    have : s.isAnonymous = false := by
      unfold isAnonymous
      rw [h.me]
      simp [hv0]
    unfold setNodeId
    rw [this]
    exact h
  setCanfd b s h := h.frame0 ((Inv.user env K).setCanfd b s h.inv) rfl rfl rfl rfl
  logHook hk n arg s hb hn h :=
    h.frame1 ((Inv.user env K).logHook hk n arg s hb hn h.inv) rfl rfl _ rfl rfl (by simp) (.inr rfl) (fun e he _ _ _ => he)
  logHookRaised hk n arg s hb hn h :=
    h.frame1 ((Inv.user env K).logHookRaised hk n arg s hb hn h.inv) rfl rfl _ rfl rfl (by simp) (.inr rfl) (fun e he _ _ _ => he)

theorem calls_call (t : List Ev) (r r' : Nat) (x : Option InTransfer) :
    calls (t ++ [.called (.response r x)]) r' = calls t r' + if r = r' then 1 else 0 := by
  rw [calls_append]
  by_cases h : r = r' <;> simp [calls, isRespCall, h]

theorem PI.fireTimeout (hv : v ≤ 127) {s : Node} (h : PI v none s) {e : TEvent Action} {q : List (TEvent Action)}
    (hq : s.sched.queue = e :: q) {r : Nat} {key : Nat × Nat} (ha : e.action = .timeout r key) {s' : Node} (hi : Inv none s')
    (hs' : s' = { s with
      sched := { s.sched with queue := q }
      outstanding := s.outstanding.del key
      trace := (s.trace ++ [.fired e s.now s.sched.queue]) ++ [.called (.response r none)] }) : PI v none s' := by
  refine ⟨hi, by rw [hs']; exact h.me, ?_, ?_⟩
  · intro n c hm
    rw [hs'] at hm
    rcases List.mem_append.1 hm with hm | hm
    · rcases List.mem_append.1 hm with hm | hm
      · exact h.src n c hm
      · cases List.mem_singleton.1 hm
    · cases List.mem_singleton.1 hm
  intro hr hc
  rw [hs'] at hr hc ⊢
  simp only at hr hc ⊢
  have hc0 := hc.left.left
  rw [List.any_append, List.any_append, Bool.or_eq_false_iff, Bool.or_eq_false_iff] at hr
  have L := h.live hr.1.1 hc0
  have R := h.inv.2 hr.1.1
  obtain ⟨hd, tid, hsent, hkey⟩ := L.timer e (by rw [hq]; exact List.mem_cons_self) r key ha
  have hun : calls s.trace r = 0 := by
    have := R.load r
    rw [hq, List.countP_cons, isTimeout_of ha] at this
    simp only [beq_self_eq_true, if_true] at this
    unfold calls
    split at this <;> omega
  have hcalls : ∀ r', calls (s.trace ++ [.fired e s.now s.sched.queue] ++ [.called (.response r none)]) r' = calls s.trace r' + if r = r' then 1 else 0 := by
    intro r'
    rw [calls_call, calls_plain (by simp [plain])]
  have hsback : ∀ {r' h tid}, Sent (s.trace ++ [.fired e s.now s.sched.queue] ++ [.called (.response r none)]) r' h tid → Sent s.trace r' h tid := by
    rintro r' h' tid' ⟨n, d, hm⟩
    rcases List.mem_append.1 hm with hm | hm
    · rcases List.mem_append.1 hm with hm | hm
      · exact ⟨n, d, hm⟩
      · cases List.mem_singleton.1 hm
    · cases List.mem_singleton.1 hm
  constructor
  · intro kq hk
    have hne := del_key_ne R.okd hk
    obtain ⟨a, b, c⟩ := L.back kq (dict_mem_del hk)
    refine ⟨a.mono.mono, b, .inr ?_⟩
    rw [hcalls]
    rcases c with c | c
    · cases c
    · rw [c, if_neg]
      intro hreq
      rw [← hreq] at a
      obtain ⟨e1, e2⟩ := L.uniq _ _ _ _ _ hsent a
      rw [← e1, ← e2] at b
      exact hne (b.unique hkey)
  · intro r' h' tid' hs hu
    rw [hcalls] at hu
    have hne : r ≠ r' := by
      intro hrr
      rw [if_pos hrr] at hu
      omega
    have hu' : calls s.trace r' = 0 := by omega
    obtain ⟨kq, g1, g2, g3, g4⟩ := L.keep r' h' tid' (hsback hs) hu'
    refine ⟨kq, mem_del_ne g1 ?_, g2, g3, g4⟩
    intro hkk
    obtain ⟨a, b, -⟩ := L.back kq g1
    rw [hkk] at b
    rw [g2] at a
    exact hne (hc0.distinct hsent a (hkey.same hv b) hun hu')
  · intro x hx r' k hk
    obtain ⟨h', tid', a, b⟩ := L.timer x (by rw [hq]; exact List.mem_cons_of_mem _ hx) r' k hk
    exact ⟨h', tid', a.mono.mono, b⟩
  · intro r' h1 t1 h2 t2 a b
    exact L.uniq _ _ _ _ _ (hsback a) (hsback b)
  · intro k hk; cases hk

theorem PI.deliver {s : Node} (h : PI v none s) (tr : InTransfer) (key : Nat × Nat) (q : OutReq) (hf : findRequest tr s.outstanding = some (key, q))
    (hi : Inv (some key) (log (.called (.response q.req (some tr))) (dropTimeout q.seq s).2).2) :
    PI v (some key) (log (.called (.response q.req (some tr))) (dropTimeout q.seq s).2).2 := by
  have hmem := findRequest_mem hf
  refine ⟨hi, h.me, ?_, ?_⟩
  · intro n c hm
    rcases List.mem_append.1 hm with hm | hm
    · exact h.src n c hm
    · cases List.mem_singleton.1 hm
  simp only [log, dropTimeout, PyM.modify_run]
  intro hr hc
  rw [List.any_append, Bool.or_eq_false_iff] at hr
  have L := h.live hr.1 hc.left
  have hback : ∀ {r h' tid'}, Sent (s.trace ++ [.called (.response q.req (some tr))]) r h' tid' → Sent s.trace r h' tid' := by
    rintro r h' tid' ⟨n, d, hm⟩
    rcases List.mem_append.1 hm with hm | hm
    · exact ⟨n, d, hm⟩
    · cases List.mem_singleton.1 hm
  constructor
  · intro kq hk
    obtain ⟨a, b, c⟩ := L.back kq hk
    refine ⟨a.mono, b, ?_⟩
    rw [calls_call]
    by_cases hq : q.req = kq.2.req
    · left
      obtain ⟨a', b', -⟩ := L.back (key, q) hmem
      rw [← hq] at a
      obtain ⟨e1, e2⟩ := L.uniq _ _ _ _ _ a a'
      rw [e1, e2] at b
      rw [b.unique b']
    · right
      rw [if_neg hq]
      rcases c with c | c
      · cases c
      · exact c
  · intro r h' tid' hs hu
    rw [calls_call] at hu
    exact L.keep r h' tid' (hback hs) (by omega)
  · intro e he r k hk
    have he' : e ∈ s.sched.queue := by
      cases hc : s.sched.cancel q.seq with
      | none => rw [hc] at he; exact he
      | some q' =>
        obtain ⟨-, hq'⟩ := cancel_some hc
        rw [hc] at he
        simp only [Option.getD_some, hq'] at he
        exact List.mem_of_mem_eraseP he
    obtain ⟨h', tid', a, b⟩ := L.timer e he' r k hk
    exact ⟨h', tid', a.mono, b⟩
  · intro r h1 t1 h2 t2 a b
    exact L.uniq _ _ _ _ _ (hback a) (hback b)
  · intro k hk
    injection hk with hk
    subst hk
    exact ⟨q, tr, s.trace, [], hmem, rfl, rfl⟩

theorem PI.del {s : Node} {key : Nat × Nat} (h : PI v (some key) s) (hi : Inv none (delOutstanding key s).2) : PI v none (delOutstanding key s).2 := by
  revert hi
  unfold delOutstanding
  split
  · intro hi
    refine ⟨hi, h.me, h.src, ?_⟩
    intro hr hc
    have L := h.live hr hc
    have R := h.inv.2 hr
    obtain ⟨q, tr, a, b, g1, g2, g3⟩ := L.running key rfl
    have hq : 0 < calls s.trace q.req := by
      rw [g2]
      simp only [calls, List.countP_append, List.countP_cons, isRespCall, beq_self_eq_true, if_true]
      omega
    constructor
    · intro kq hk
      obtain ⟨h1, h2, h3⟩ := L.back kq (dict_mem_del hk)
      refine ⟨h1, h2, .inr ?_⟩
      rcases h3 with h3 | h3
      · exact absurd (Option.some.inj h3) (del_key_ne R.okd hk)
      · exact h3
    · intro r h' tid' hs hu
      obtain ⟨kq, k1, k2, k3, k4⟩ := L.keep r h' tid' hs hu
      refine ⟨kq, mem_del_ne k1 ?_, k2, k3, k4⟩
      intro hkk
      obtain ⟨k, q'⟩ := kq
      simp only at hkk k2
      subst hkk
      have := dict_key_unique R.okd g1 k1
      subst this
      rw [k2, hu] at hq
      exact absurd hq (Nat.lt_irrefl _)
    · exact L.timer
    · exact L.uniq
    · intro k hk; cases hk
  · rename_i hcon
    intro hi
    refine ⟨hi, h.me, h.src, ?_⟩
    intro hr hc
    have L := h.live hr hc
    have R := h.inv.2 hr
    obtain ⟨q, tr, a, b, g1, g2, g3⟩ := L.running key rfl
    exfalso
    apply hcon
    rw [Dict.contains, (Dict.mem_iff_get? R.okd key q).1 g1]
    rfl

theorem PI.top (hv0 : v ≠ 0) (hv : v ≤ 127) (env : Env) : TopClosed env (PI v) where
  user := PI.user hv0 hv env
  fire s e s' h ht := by
    have hi := (Inv.top env).fire s e s' h.inv ht
    obtain ⟨q, hq, -, rfl⟩ := takeDue_some ht
    revert hi
    cases ha : e.action with
    | once i =>
      simp only [beforeCallback, ha, callOf]
      intro hi
      refine h.frame hi rfl rfl [.fired e s.now s.sched.queue, .called (.timer i)] (by simp) (by simp [plain]) (by simp) (.inl rfl) ?_
      intro x hx _ _ _
      rw [hq]
      exact List.mem_cons_of_mem _ hx
    | every i p =>
      simp only [beforeCallback, ha, callOf]
      intro hi
      refine h.frame hi rfl rfl [.fired e s.now s.sched.queue, .called (.timer i)] (by simp) (by simp [plain]) (by simp) (.inl rfl) ?_
      intro x hx r k hk
      have := enter_timeout (by simp) x hx r k hk
      rw [hq]
      exact List.mem_cons_of_mem _ this
    | status p =>
      simp only [beforeCallback, ha, callOf]
      intro hi
      refine h.frame hi rfl rfl [.fired e s.now s.sched.queue] (by simp) (by simp [plain]) (by simp) (.inl rfl) ?_
      intro x hx r k hk
      have := enter_timeout (by simp) x hx r k hk
      rw [hq]
      exact List.mem_cons_of_mem _ this
    | timeout r key =>
      simp only [beforeCallback, ha, callOf]
      intro hi
      exact h.fireTimeout hv hq ha hi rfl
  raisedTimer i s h := h.frame1 ((Inv.top env).raisedTimer i s h.inv) rfl rfl _ rfl rfl (by simp) (.inl rfl) (fun e he _ _ _ => he)
  raisedTimeout r s h := h.frame1 ((Inv.top env).raisedTimeout r s h.inv) rfl rfl _ rfl rfl (by simp) (.inl rfl) (fun e he _ _ _ => he)
  tm s tm h := h.frame0 ((Inv.top env).tm s tm h.inv) rfl rfl rfl rfl
  rx tr s hf h := h.frame1 ((Inv.top env).rx tr s hf h.inv) rfl rfl _ rfl rfl (by simp) (.inl rfl) (fun e he _ _ _ => he)
  read f s h := h.frame1 ((Inv.top env).read f s h.inv) rfl rfl _ rfl rfl (by simp) (.inl rfl) (fun e he _ _ _ => he)
  handler u tr s h := h.frame1 ((Inv.top env).handler u tr s h.inv) rfl rfl _ rfl rfl (by simp) (.inl rfl) (fun e he _ _ _ => he)
  handlerRaised u tr s h := h.frame1 ((Inv.top env).handlerRaised u tr s h.inv) rfl rfl _ rfl rfl (by simp) (.inl rfl) (fun e he _ _ _ => he)
  deliver tr key q s h1 h2 h3 hf h := h.deliver tr key q hf ((Inv.top env).deliver tr key q s h1 h2 h3 hf h.inv)
  deliverRaised r tr key s h := by
    refine ⟨(Inv.top env).deliverRaised r tr key s h.inv, h.me, ?_, ?_⟩
    · intro n c hm
      rcases List.mem_append.1 hm with hm | hm
      · exact h.src n c hm
      · cases List.mem_singleton.1 hm
    · intro hr
      simp [log, PyM.modify_run, isRespRaise] at hr
  del key s h := h.del ((Inv.top env).del key s h.inv)

theorem PI.init (v : Nat) (now : Int) (iv : Option Int) (ce fd : Bool) (it : Nat × Bool) : PI v none (Node.init (some v) now iv ce fd it) where
  inv := Inv.init ..
  me := rfl
  src _ _ h := (List.not_mem_nil h).elim
  live _ _ := by
    refine ⟨fun _ hk => (List.not_mem_nil hk).elim, ?_, ?_, ?_, ?_⟩
    · rintro r h tid ⟨n, d, hm⟩; exact (List.not_mem_nil hm).elim
    · intro e he r k hk
      exact (List.not_mem_nil (enter_timeout (q := {}) (by simp) e he r k hk)).elim
    · rintro r h tid h' tid' ⟨n, d, hm⟩; exact (List.not_mem_nil hm).elim
    · intro k hk; cases hk

end Dronecan.Rpc
