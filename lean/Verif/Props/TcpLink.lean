import Verif.Model.TcpLink
import Verif.Props.Serial

/-!
# C139: the TCP tool
-/

namespace Dronecan
namespace TcpLink
open Serial

/-! ## Specification -/

/-- All bytes that the peer of the connection sent, as far as they were received. -/
def arrived : List Round → List Byte
  | [] => []
  | r :: rs => r.recv.getD [] ++ arrived rs

/-- The bytes that went to the device. -/
def toDevice (l : Link) : List Byte := l.port.sent.flatMap (·.buffer)

/-- The bytes that came from the device. -/
def fromDevice (l : Link) : List Byte := received l.port.targetNode l.port.nodeId l.port.trace

/-- One sequence made of two, each in order. -/
inductive Shuffle : List Byte → List Byte → List Byte → Prop where
  | nil : Shuffle [] [] []
  | left (a b c x : List Byte) : Shuffle a b c → Shuffle (a ++ x) b (c ++ x)
  | right (a b c x : List Byte) : Shuffle a b c → Shuffle a (b ++ x) (c ++ x)

/-- The state at the beginning. -/
def Fresh (l : Link) : Prop := l.port.sent = [] ∧ l.port.trace = [] ∧ l.port.buf = [] ∧ l.got = [] ∧ l.fed = [] ∧ l.log = [] ∧ l.running = true

/-- C139 in full: whatever the timing, while the tool runs the device gets what the peer sends, and the peer gets what the device sends, up to
what is still to be read. -/
def C139_statement : Prop := ∀ (l : Link) (rs : List Round), Fresh l → (run l rs).running = true →
  toDevice (run l rs) = arrived rs ∧ (run l rs).fed ++ (run l rs).port.buf = fromDevice (run l rs)

/-! ## The port -/

/-- Reading sends no bytes. -/
theorem read_sent (n : Int) (p : Port) : (read n p).2.sent.flatMap (·.buffer) = p.sent.flatMap (·.buffer) := by
  unfold Serial.read
  simp only [PyM.bind_run]
  have hs := (spin_sent p).1
  cases h1 : spin p with
  | mk r1 p1 =>
    rw [h1] at hs
    simp only at hs
    cases r1 with
    | error e => simp only [hs]
    | ok u =>
      simp only [PyM.get_run]
      have hw : (wall p1).2.sent = p1.sent := by
        unfold wall
        split <;> rfl
      cases h2 : wall p1 with
      | mk r2 p2 =>
        rw [h2] at hw
        simp only at hw
        cases r2 with
        | error e => simp only [hw, hs]
        | ok t =>
          by_cases hlt : t - p2.lastSend > 500
          · simp only [hlt, if_true, PyM.bind_run]
            have hb := (sendBytes_sent [] p2).2
            cases h3 : sendBytes [] p2 with
            | mk r3 p3 =>
              rw [h3] at hb
              simp only at hb
              cases r3 with
              | error e => simp only at hb ⊢; rw [hb, hw, hs]
              | ok m =>
                simp only at hb
                simp only [PyM.pure]
                split <;> simp [PyM.bind_run, PyM.modify_run, PyM.pure, hb.2, hw, hs]
          · simp only [hlt, if_false, PyM.pure]
            split <;> simp [PyM.bind_run, PyM.modify_run, hw, hs]

theorem write_sent (b : List Byte) (p : Port) : match (write b p).1 with
    | .ok _ => (write b p).2.sent.flatMap (·.buffer) = p.sent.flatMap (·.buffer) ++ b
    | .error _ => ∃ c, c <+: b ∧ (write b p).2.sent.flatMap (·.buffer) = p.sent.flatMap (·.buffer) ++ c := by
  obtain ⟨msgs, h1, -, h2⟩ := C46_write b p
  cases h : (write b p).1 with
  | ok n =>
    rw [h] at h2
    simp only at h2 ⊢
    rw [h1, List.flatMap_append, h2.2]
  | error e =>
    rw [h] at h2
    exact ⟨_, h2, by rw [h1, List.flatMap_append]⟩

/-! ## The loop -/

/-- While the tool runs, and whatever happens. -/
structure Inv (peer me : Nat) (l : Link) : Prop where
  good : l.port.targetNode = peer ∧ l.port.nodeId = me ∧ returned l.port.trace ++ l.port.buf = received peer me l.port.trace
  dev : toDevice l <+: l.got
  devUp : l.running = true → toDevice l = l.got
  fed : l.fed.Sublist (returned l.port.trace)
  log : l.running = true → Shuffle l.got (returned l.port.trace) l.log

theorem write_good (b : List Byte) (p q : Port) (r : Except Err Nat) (h : write b p = (r, q)) (peer me : Nat)
    (hp : p.targetNode = peer ∧ p.nodeId = me ∧ returned p.trace ++ p.buf = received peer me p.trace) :
    (q.targetNode = peer ∧ q.nodeId = me ∧ returned q.trace ++ q.buf = received peer me q.trace) ∧ returned q.trace = returned p.trace := by
  have h1 := keeps_writeLoop b.length b 0 peer me _ p ⟨hp.1, hp.2.1, hp.2.2, rfl⟩
  have h2 := (silent_writeLoop b.length b 0 p).2.1
  rw [show writeLoop b.length b 0 p = (r, q) from h] at h1 h2
  exact ⟨⟨h1.1, h1.2.1, h1.2.2.1⟩, h2⟩

theorem read_good (n : Int) (p q : Port) (r : Except Err (List Byte)) (h : Serial.read n p = (r, q)) (peer me : Nat)
    (hp : p.targetNode = peer ∧ p.nodeId = me ∧ returned p.trace ++ p.buf = received peer me p.trace) :
    (q.targetNode = peer ∧ q.nodeId = me ∧ returned q.trace ++ q.buf = received peer me q.trace) ∧
      returned q.trace = returned p.trace ++ (match r with | .ok b => b | .error _ => []) := by
  have h1 := keeps_read n peer me _ p ⟨hp.1, hp.2.1, hp.2.2, rfl⟩
  have h2 := (C46_read n p).2
  rw [h] at h1 h2
  refine ⟨⟨h1.1, h1.2.1, h1.2.2.1⟩, ?_⟩
  cases r with
  | ok b => exact h2.1
  | error e => simpa using h2

theorem inv_fromSocket (peer me : Nat) (r : Round) (l : Link) (hr : l.running = true) (h : Inv peer me l) :
    Inv peer me (fromSocket r l) ∧ ((fromSocket r l).running = true → (fromSocket r l).got = l.got ++ r.recv.getD []) ∧
      (fromSocket r l).fed = l.fed ∧ returned (fromSocket r l).port.trace = returned l.port.trace := by
  unfold fromSocket
  cases hrecv : r.recv with
  | none => exact ⟨h, fun _ => by simp, rfl, rfl⟩
  | some b =>
    simp only [Option.getD_some]
    by_cases hb : b = []
    · subst hb
      simp only [ne_eq, not_true_eq_false, if_false]
      exact ⟨h, fun _ => by simp, by simp, by simp⟩
    · rw [if_pos hb]
      have hw := write_sent b l.port
      cases hwb : write b l.port with
      | mk res q =>
        rw [hwb] at hw
        obtain ⟨g1, g2⟩ := write_good b l.port q res hwb peer me h.good
        have hd := h.devUp hr
        unfold toDevice at hd
        cases res with
        | ok n =>
          simp only at hw ⊢
          exact ⟨⟨g1, by simp only [toDevice]; rw [hw, hd]; exact List.prefix_refl _, fun _ => by simp only [toDevice]; rw [hw, hd],
            by simp only; rw [g2]; exact h.fed, fun _ => by simp only; rw [g2]; exact .left _ _ _ b (h.log hr)⟩, by simp, by simp, g2⟩
        | error e =>
          simp only at hw ⊢
          obtain ⟨c, hc, hw⟩ := hw
          exact ⟨⟨g1, by simp only [toDevice, Link.stop]; rw [hw, hd]; exact (List.prefix_append_right_inj _).2 hc, (fun h => nomatch h),
            by simp only [Link.stop]; rw [g2]; exact h.fed, (fun h => nomatch h)⟩, (fun h => nomatch h), rfl, g2⟩

theorem inv_fromPort (peer me : Nat) (r : Round) (l : Link) (hr : l.running = true) (h : Inv peer me l) :
    Inv peer me (fromPort r l) ∧ (fromPort r l).got = l.got ∧
      ((fromPort r l).running = true → (∀ n, r.send = some n → 1024 ≤ n) → l.fed = returned l.port.trace →
        (fromPort r l).fed = returned (fromPort r l).port.trace) := by
  unfold fromPort
  have hs := read_sent 1024 l.port
  have hlen := (C46_read 1024 l.port).2
  cases hrd : Serial.read 1024 l.port with
  | mk res q =>
    rw [hrd] at hs hlen
    obtain ⟨g1, g2⟩ := read_good 1024 l.port q res hrd peer me h.good
    have hd := h.devUp hr
    unfold toDevice at hd
    simp only at hs
    cases res with
    | error e =>
      simp only [List.append_nil] at g2
      exact ⟨⟨g1, by simp only [toDevice, Link.stop]; rw [hs, hd]; exact List.prefix_refl _, (fun h => nomatch h),
        by simp only [Link.stop]; rw [g2]; exact h.fed, (fun h => nomatch h)⟩, rfl, (fun h => nomatch h)⟩
    | ok b =>
      simp only at g2 hlen ⊢
      by_cases hb : b = []
      · subst hb
        rw [List.append_nil] at g2
        simp only [ne_eq, not_true_eq_false, if_false]
        exact ⟨⟨g1, by simp only [toDevice]; rw [hs, hd]; exact List.prefix_refl _, fun _ => by simp only [toDevice]; rw [hs, hd],
          by simp only; rw [g2]; exact h.fed, fun _ => by simp only; rw [g2]; exact h.log hr⟩, by simp, fun _ _ hf => by rw [g2]; exact hf⟩
      · rw [if_pos hb]
        cases hsend : r.send with
        | none =>
          simp only
          exact ⟨⟨g1, by simp only [toDevice, Link.stop]; rw [hs, hd]; exact List.prefix_refl _, (fun h => nomatch h),
            by simp only [Link.stop]; rw [g2]; exact h.fed.trans (List.sublist_append_left _ _), (fun h => nomatch h)⟩, rfl, (fun h => nomatch h)⟩
        | some n =>
          simp only
          refine ⟨⟨g1, by simp only [toDevice]; rw [hs, hd]; exact List.prefix_refl _, fun _ => by simp only [toDevice]; rw [hs, hd], ?_,
            fun _ => by simp only; rw [g2]; exact .right _ _ _ b (h.log hr)⟩, by simp, fun _ hn hf => ?_⟩
          · simp only
            rw [g2]
            exact List.Sublist.append h.fed (List.take_sublist n b)
          · show _ = _
            rw [g2, hf]
            obtain ⟨-, pend, -, hl, -⟩ := hlen
            have h1 := hl (by omega)
            have h2 := hn n rfl
            rw [List.take_of_length_le]
            have : (1024 : Int).toNat = 1024 := rfl
            omega

/-- Every `send` that does not raise takes all it is given. -/
def Accepting (rs : List Round) : Prop := ∀ r ∈ rs, ∀ n, r.send = some n → 1024 ≤ n

theorem run_down (l : Link) (hr : l.running = false) (rs : List Round) : run l rs = l := by
  induction rs with
  | nil => rfl
  | cons r rs ih =>
    show run (loop l r) rs = l
    have : loop l r = l := by simp [loop, hr]
    rw [this, ih]

theorem inv_run (peer me : Nat) (rs : List Round) (l : Link) (h : Inv peer me l) :
    Inv peer me (run l rs) ∧ ((run l rs).running = true → (run l rs).got = l.got ++ arrived rs) ∧
      ((run l rs).running = true → Accepting rs → l.fed = returned l.port.trace → (run l rs).fed = returned (run l rs).port.trace) := by
  induction rs generalizing l with
  | nil => exact ⟨h, fun _ => by simp [run, arrived], fun _ _ hf => hf⟩
  | cons r rs ih =>
    cases hr : l.running with
    | false =>
      rw [run_down l hr]
      exact ⟨h, fun h => absurd (hr.symm.trans h) (by decide), fun h => absurd (hr.symm.trans h) (by decide)⟩
    | true =>
      show Inv peer me (run (loop l r) rs) ∧ _
      have e : run l (r :: rs) = run (loop l r) rs := rfl
      rw [e]
      obtain ⟨i1, i2, i3, i4⟩ := inv_fromSocket peer me r l hr h
      have key : Inv peer me (loop l r) ∧ ((loop l r).running = true → (loop l r).got = l.got ++ r.recv.getD []) ∧
          ((loop l r).running = true → (∀ n, r.send = some n → 1024 ≤ n) → l.fed = returned l.port.trace →
            (loop l r).fed = returned (loop l r).port.trace) := by
        simp only [loop, hr, if_true]
        cases hr2 : (fromSocket r l).running with
        | false =>
          simp only [Bool.false_eq_true, if_false]
          exact ⟨i1, fun h => absurd (hr2.symm.trans h) (by decide), fun h => absurd (hr2.symm.trans h) (by decide)⟩
        | true =>
          simp only [if_true]
          obtain ⟨j1, j2, j3⟩ := inv_fromPort peer me r _ hr2 i1
          exact ⟨j1, fun _ => j2.trans (i2 hr2), fun hu hn hf => j3 hu hn (by rw [i3, i4]; exact hf)⟩
      obtain ⟨k1, k2, k3⟩ := key
      obtain ⟨m1, m2, m3⟩ := ih (loop l r) k1
      refine ⟨m1, fun hu => ?_, fun hu ha hf => ?_⟩
      · have hu1 : (loop l r).running = true := by
          cases hx : (loop l r).running with
          | true => rfl
          | false => rw [run_down _ hx] at hu; exact absurd (hx.symm.trans hu) (by decide)
        rw [m2 hu, k2 hu1, arrived, List.append_assoc]
      · have hu1 : (loop l r).running = true := by
          cases hx : (loop l r).running with
          | true => rfl
          | false => rw [run_down _ hx] at hu; exact absurd (hx.symm.trans hu) (by decide)
        exact m3 hu (fun r' hr' => ha r' (List.mem_cons_of_mem _ hr')) (k3 hu1 (ha r (List.mem_cons_self ..)) hf)

theorem inv_fresh (l : Link) (h : Fresh l) : Inv l.port.targetNode l.port.nodeId l := by
  obtain ⟨h1, h2, h3, h4, h5, h6, h7⟩ := h
  exact ⟨⟨rfl, rfl, by rw [h2, h3]; rfl⟩, by rw [toDevice, h1]; exact List.nil_prefix, fun _ => by rw [toDevice, h1, h4]; rfl,
    by rw [h5]; exact List.nil_sublist _, fun _ => by rw [h4, h2, h6]; exact .nil⟩

/-! ## Theorems -/

/-- While the tool runs: the device gets what the peer sends, whatever `recv` raises and however little it returns. -/
theorem C139_to_device (l : Link) (rs : List Round) (hf : Fresh l) (hr : (run l rs).running = true) : toDevice (run l rs) = arrived rs := by
  obtain ⟨h1, h2, -⟩ := inv_run _ _ rs l (inv_fresh l hf)
  rw [h1.devUp hr, h2 hr, hf.2.2.2.1, List.nil_append]

theorem fromDevice_eq (l : Link) (rs : List Round) (hf : Fresh l) :
    returned (run l rs).port.trace ++ (run l rs).port.buf = fromDevice (run l rs) := by
  obtain ⟨h1, -, -⟩ := inv_run _ _ rs l (inv_fresh l hf)
  rw [fromDevice, h1.good.1, h1.good.2.1, h1.good.2.2]

/-- C139 if the socket always has room for what it is given. (Missing: `send` takes only a part, `C139_counterexample`.) -/
theorem C139_partial (l : Link) (rs : List Round) (hf : Fresh l) (hr : (run l rs).running = true) (ha : Accepting rs) :
    toDevice (run l rs) = arrived rs ∧ (run l rs).fed ++ (run l rs).port.buf = fromDevice (run l rs) := by
  refine ⟨C139_to_device l rs hf hr, ?_⟩
  obtain ⟨h1, -, h3⟩ := inv_run _ _ rs l (inv_fresh l hf)
  rw [h3 hr ha (by rw [hf.2.2.2.2.1, hf.2.1]; rfl)]
  exact fromDevice_eq l rs hf

/-- Whatever happens, also when the tool has ended: the device has got a beginning of what was received from the peer; the peer got bytes of the
device, in order and none twice, but perhaps not all. -/
theorem C139_safe (l : Link) (rs : List Round) (hf : Fresh l) :
    toDevice (run l rs) <+: (run l rs).got ∧ (run l rs).fed.Sublist (fromDevice (run l rs)) := by
  obtain ⟨h1, -, -⟩ := inv_run _ _ rs l (inv_fresh l hf)
  refine ⟨h1.dev, h1.fed.trans ?_⟩
  rw [← fromDevice_eq l rs hf]
  exact List.sublist_append_left _ _

/-- While the tool runs, the log has all bytes in both directions, those that the socket did not take too. -/
theorem C139_log (l : Link) (rs : List Round) (hf : Fresh l) (hr : (run l rs).running = true) :
    ∃ read, read ++ (run l rs).port.buf = fromDevice (run l rs) ∧ Shuffle (arrived rs) read (run l rs).log := by
  obtain ⟨h1, h2, -⟩ := inv_run _ _ rs l (inv_fresh l hf)
  refine ⟨_, fromDevice_eq l rs hf, ?_⟩
  have := h1.log hr
  rwa [h2 hr, hf.2.2.2.1, List.nil_append] at this

/-- It does not end when the peer closes the connection: as long as the device is silent, nothing is done about it. -/
theorem C139_closed (l : Link) (r : Round) (q : Port) (hr : l.running = true) (hc : r.recv = some []) (hq : Serial.read 1024 l.port = (.ok [], q)) :
    loop l r = { l with port := q } := by
  simp [loop, hr, fromSocket, hc, fromPort, hq]

/-! ## The statement is false -/

/-- A port that receives three bytes. -/
def sample : Link := { port := { targetNode := 5, dev := 0, nodeId := 1, spins := [⟨[⟨5, 1, [1, 2, 3]⟩], none⟩], txs := [none] } }

/-- The socket takes only one of the three bytes; the others are lost. -/
theorem C139_counterexample : ¬ C139_statement := by
  intro h
  have := (h sample [⟨none, some 1⟩] ⟨rfl, rfl, rfl, rfl, rfl, rfl, rfl⟩ (by decide +kernel)).2
  revert this
  decide +kernel

/-! ## Examples -/

example : (run sample [⟨some [7, 8], some 2000⟩, ⟨none, some 1024⟩]).fed = [1, 2, 3] ∧
    toDevice (run sample [⟨some [7, 8], some 2000⟩, ⟨none, some 1024⟩]) = [7, 8] ∧
    (run sample [⟨some [7, 8], some 2000⟩, ⟨none, some 1024⟩]).log = [7, 8, 1, 2, 3] ∧
    (run sample [⟨some [7, 8], some 2000⟩, ⟨none, some 1024⟩]).running = true := by decide +kernel

/-- `send` raises: the program ends. -/
example : (run sample [⟨none, none⟩]).running = false := by decide +kernel

end TcpLink
end Dronecan
