import Verif.Props.Serial

/-!
# The tunnelled serial port: configuration of what is sent, and keeping the connection alive (C70)
-/

namespace Dronecan
namespace Serial
open PyM

/-! ## Specification -/

/-- The messages broadcast. -/
def sentIn (log : List TxEv) : List Out := log.filterMap fun
  | .sent m => some m
  | .time _ => none

/-- The reading of the clock that followed the last broadcast; `last` and `waiting` for what was before. -/
def lastSentAt : Int → Bool → List TxEv → Int
  | last, _, [] => last
  | last, _, .sent _ :: log => lastSentAt last true log
  | last, waiting, .time t :: log => lastSentAt (if waiting then t else last) false log

/-- The baud rate after the calls. -/
def rateAfter (rate : Nat) (ops : List Op) : Nat := ops.foldl (fun rate op =>
  match op with
  | .setBaudrate b => b
  | _ => rate) rate

/-! ## Proofs -/

/-- Whether a broadcast waits for a reading of the clock. -/
def waits : Bool → List TxEv → Bool
  | w, [] => w
  | _, .sent _ :: log => waits true log
  | _, .time _ :: log => waits false log

theorem lastSentAt_append (a b : List TxEv) : ∀ last w,
    lastSentAt last w (a ++ b) = lastSentAt (lastSentAt last w a) (waits w a) b := by
  induction a with
  | nil => intro last w; rfl
  | cons e a ih => intro last w; cases e <;> exact ih _ _

theorem waits_append (a b : List TxEv) : ∀ w, waits w (a ++ b) = waits (waits w a) b := by
  induction a with
  | nil => intro w; rfl
  | cons e a ih => intro w; cases e <;> exact ih _

/-- The time of the last broadcast is noted, and `sent` is what was broadcast. -/
def Noted (s : Port) : Prop := s.lastSend = lastSentAt 0 false s.log ∧ waits false s.log = false ∧ sentIn s.log = s.sent

theorem spin_log (s : Port) : (spin s).2.log = s.log ∧ (spin s).2.lastSend = s.lastSend ∧ (spin s).2.clock = s.clock := by
  have hf : ∀ (ms : List Msg) (s : Port), (ms.foldl (fun s m => handle m s) s).log = s.log ∧
      (ms.foldl (fun s m => handle m s) s).lastSend = s.lastSend ∧ (ms.foldl (fun s m => handle m s) s).clock = s.clock := by
    intro ms
    induction ms with
    | nil => intro s; exact ⟨rfl, rfl, rfl⟩
    | cons m ms ih =>
      intro s
      have h1 : (handle m s).log = s.log ∧ (handle m s).lastSend = s.lastSend ∧ (handle m s).clock = s.clock := by
        simp only [handle]
        split
        · exact ⟨rfl, rfl, rfl⟩
        · split <;> exact ⟨rfl, rfl, rfl⟩
      have h2 := ih (handle m s)
      rw [h1.1, h1.2.1, h1.2.2] at h2
      exact h2
  unfold spin
  split
  · exact ⟨rfl, rfl, rfl⟩
  · rename_i x rest hx
    have := hf x.rx { s with spins := rest }
    dsimp only
    split <;> exact this

theorem spin_noted {s : Port} (h : Noted s) : Noted (spin s).2 := by
  obtain ⟨h1, h2, -⟩ := spin_log s
  unfold Noted
  rw [h1, h2, (spin_sent s).1]
  exact h

theorem wall_run (s : Port) : ∃ t, wall s = (.ok t, { s with
    clock := s.clock.tail
    log := s.log ++ [.time t] }) := by
  unfold wall
  split
  · rename_i hc; rw [hc]; refine ⟨0, ?_⟩; rw [List.tail_nil, ← hc]
  · rename_i t rest hc; rw [hc]; exact ⟨t, rfl⟩

theorem sendLoop_log (m : Out) (txs : List Tx) : ∀ s : Port, (sendLoop m txs s).2.lastSend = s.lastSend ∧
    match (sendLoop m txs s).1 with
    | .ok _ => (sendLoop m txs s).2.log = s.log ++ [.sent m]
    | .error _ => (sendLoop m txs s).2.log = s.log := by
  induction txs with
  | nil => intro s; exact ⟨rfl, rfl⟩
  | cons tx rest ih =>
    intro s
    simp only [sendLoop, bind_run, modify_run, PyM.tryCatch, attempt]
    obtain ⟨hl, hs, -⟩ := spin_log { s with txs := rest }
    cases hsp : spin { s with txs := rest } with
    | mk r s1 =>
      rw [hsp] at hl hs
      simp only at hl hs
      have hretry : ∀ e : Err, ((if e = .driverError then sendLoop m rest else raise e) s1).2.lastSend = s.lastSend ∧
          match ((if e = .driverError then sendLoop m rest else raise e) s1).1 with
          | .ok _ => ((if e = .driverError then sendLoop m rest else raise e) s1).2.log = s.log ++ [.sent m]
          | .error _ => ((if e = .driverError then sendLoop m rest else raise e) s1).2.log = s.log := by
        intro e
        split
        · have := ih s1
          rw [hl, hs] at this
          exact this
        · exact ⟨hs, hl⟩
      cases r with
      | error e => exact hretry e
      | ok u =>
        cases tx with
        | none => exact ⟨hs, congrArg (· ++ [TxEv.sent m]) hl⟩
        | some e => exact hretry e

/-- What one `send_bytes` does: it raises and nothing changes, or it broadcasts one message, reads the clock and notes it. -/
theorem sendBytes_log (b : List Byte) (s : Port) :
    match (sendBytes b s).1 with
    | .ok n => ∃ t, n = min b.length 120 ∧ (sendBytes b s).2.lastSend = t ∧
        (sendBytes b s).2.log = s.log ++ [.sent ⟨s.targetNode, s.dev, s.lock, s.baudrate, b.take n⟩, .time t]
    | .error _ => (sendBytes b s).2.lastSend = s.lastSend ∧ (sendBytes b s).2.log = s.log := by
  simp only [sendBytes, bind_run, get_run]
  generalize hm : (⟨s.targetNode, s.dev, s.lock, s.baudrate, b.take (if b.length > 120 then 120 else b.length)⟩ : Out) = m
  have h := sendLoop_log m s.txs s
  cases hsl : sendLoop m s.txs s with
  | mk r s1 =>
    rw [hsl] at h
    cases r with
    | error e => exact h
    | ok u =>
      obtain ⟨t, hw⟩ := wall_run s1
      simp only at h
      simp only [hw, modify_run, pure_run]
      refine ⟨t, ?_, rfl, ?_⟩
      · split <;> omega
      · rw [h.2, ← hm]; simp

theorem sendBytes_noted (b : List Byte) {s : Port} (h : Noted s) : Noted (sendBytes b s).2 := by
  have h1 := sendBytes_log b s
  have h2 := (sendBytes_sent b s).2
  obtain ⟨a, b', c⟩ := h
  generalize sendBytes b s = out at h1 h2
  obtain ⟨r, s1⟩ := out
  cases r with
  | error e => exact ⟨by rw [h1.1, h1.2]; exact a, by rw [h1.2]; exact b', by rw [h1.2, h2]; exact c⟩
  | ok n =>
    obtain ⟨t, -, e1, e2⟩ := h1
    refine ⟨?_, ?_, ?_⟩
    · rw [e1, e2, lastSentAt_append]; rfl
    · rw [e2, waits_append]; rfl
    · rw [e2, h2.2, ← c]; simp [sentIn]

theorem writeLoop_noted (fuel : Nat) : ∀ b total s, Noted s → Noted (writeLoop fuel b total s).2 ∧
    cfg (writeLoop fuel b total s).2 = cfg s := by
  induction fuel with
  | zero => intro b total s h; exact ⟨h, rfl⟩
  | succ fuel ih =>
    intro b total s h
    unfold writeLoop
    split
    · simp only [bind_run]
      have h1 := sendBytes_noted b h
      have h2 := (sendBytes_sent b s).1
      generalize sendBytes b s = out at h1 h2
      obtain ⟨r, s1⟩ := out
      cases r with
      | error e => exact ⟨h1, h2⟩
      | ok n =>
        simp only at h1 h2 ⊢
        split
        · exact ⟨h1, h2⟩
        · obtain ⟨a, b⟩ := ih (List.drop n _) (total + n) s1 h1
          exact ⟨a, b.trans h2⟩
    · exact ⟨h, rfl⟩

/-- What a `read` does to the log: the clock is read, and if it is more than half a second later than the noted time, an
empty message is broadcast. -/
theorem read_log (n : Int) (s : Port) (h : Noted s) : Noted (read n s).2 ∧ cfg (read n s).2 = cfg s ∧
    match (read n s).1 with
    | .ok _ => ∃ t rest, (read n s).2.log = s.log ++ .time t :: rest ∧
        (read n s).2.sent = s.sent ++ if t - s.lastSend > 500 then [⟨s.targetNode, s.dev, s.lock, s.baudrate, []⟩] else []
    | .error _ => (read n s).2.sent = s.sent := by
  rw [read_prep]
  suffices hp : Noted (prep s).2 ∧ cfg (prep s).2 = cfg s ∧ match (prep s).1 with
      | .ok _ => ∃ t rest, (prep s).2.log = s.log ++ .time t :: rest ∧
        (prep s).2.sent = s.sent ++ if t - s.lastSend > 500 then [⟨s.targetNode, s.dev, s.lock, s.baudrate, []⟩] else []
      | .error _ => (prep s).2.sent = s.sent by
    simp only [bind_run]
    generalize prep s = out at hp
    obtain ⟨r, s1⟩ := out
    cases r with
    | error e => exact hp
    | ok u =>
      simp only [get_run]
      split
      · exact hp
      · exact hp
  unfold prep
  simp only [bind_run]
  have h1 := spin_noted h
  obtain ⟨l1, l2, -⟩ := spin_log s
  obtain ⟨c0, c1, c2, c3, c4⟩ := spin_sent s
  generalize spin s = out at h1 l1 l2 c0 c1 c2 c3 c4
  obtain ⟨r, s1⟩ := out
  simp only at h1 l1 l2 c0 c1 c2 c3 c4
  have hcfg : cfg s1 = cfg s := by simp only [cfg, c1, c2, c3, c4]
  cases r with
  | error e => exact ⟨h1, hcfg, c0⟩
  | ok u =>
    obtain ⟨t, hw⟩ := wall_run s1
    simp only [hw, get_run]
    have h2 : Noted { s1 with
        clock := s1.clock.tail
        log := s1.log ++ [.time t] } := by
      obtain ⟨a, b, c⟩ := h1
      refine ⟨?_, ?_, ?_⟩
      · simp only [lastSentAt_append, b]; exact a
      · simp only [waits_append]; rfl
      · simp only [← c, sentIn, List.filterMap_append]; simp
    split
    · rename_i hlate
      simp only [bind_run]
      have h3 := sendBytes_noted [] h2
      have h4 := sendBytes_sent [] { s1 with
        clock := s1.clock.tail
        log := s1.log ++ [.time t] }
      have h5 := sendBytes_log [] { s1 with
        clock := s1.clock.tail
        log := s1.log ++ [.time t] }
      generalize sendBytes [] { s1 with
        clock := s1.clock.tail
        log := s1.log ++ [.time t] } = out at h3 h4 h5
      obtain ⟨r, s2⟩ := out
      have hc2 : cfg s2 = cfg s := h4.1.trans hcfg
      cases r with
      | error e => exact ⟨h3, hc2, h4.2.trans c0⟩
      | ok k =>
        obtain ⟨t', -, -, e2⟩ := h5
        refine ⟨h3, hc2, t, [.sent ⟨s1.targetNode, s1.dev, s1.lock, s1.baudrate, List.take k []⟩, .time t'], ?_, ?_⟩
        · show s2.log = _
          rw [e2, l1]; simp
        · show s2.sent = _
          rw [← l2, if_pos hlate, h4.2.2, ← c0, c1, c2, c3, c4, List.take_nil]
    · rename_i hlate
      refine ⟨h2, hcfg, t, [], ?_, ?_⟩
      · show s1.log ++ [.time t] = _
        rw [l1]
      · show s1.sent = _
        rw [← l2, if_neg hlate, c0, List.append_nil]

theorem step_noted (s : Port) (op : Op) (h : Noted s) : Noted (step s op) ∧
    ((step s op).targetNode, (step s op).dev, (step s op).lock, (step s op).baudrate) =
      (s.targetNode, s.dev, s.lock, rateAfter s.baudrate [op]) := by
  have hspin : Noted (spin s).2 ∧ cfg (spin s).2 = cfg s := by
    obtain ⟨c0, c1, c2, c3, c4⟩ := spin_sent s
    exact ⟨spin_noted h, by simp only [cfg, c1, c2, c3, c4]⟩
  cases op with
  | write b => exact writeLoop_noted _ b 0 s h
  | read n => exact ⟨(read_log n s h).1, (read_log n s h).2.1⟩
  | flushInput => exact ⟨h, rfl⟩
  | setBaudrate b =>
    simp only [step, setBaudrate, bind_run, get_run]
    split
    · rename_i hb
      exact ⟨h, by rw [pure_run]; simp only [rateAfter, List.foldl_cons, List.foldl_nil, hb]⟩
    · exact ⟨h, rfl⟩
  | flush => exact hspin
  | spin => exact hspin

theorem run_noted (ops : List Op) : ∀ s : Port, Noted s → Noted (run s ops) ∧
    ((run s ops).targetNode, (run s ops).dev, (run s ops).lock, (run s ops).baudrate) =
      (s.targetNode, s.dev, s.lock, rateAfter s.baudrate ops) := by
  induction ops with
  | nil => intro s h; exact ⟨h, rfl⟩
  | cons op ops ih =>
    intro s h
    obtain ⟨h1, h2⟩ := step_noted s op h
    obtain ⟨h3, h4⟩ := ih (step s op) h1
    simp only [Prod.mk.injEq] at h2
    rw [h2.1, h2.2.1, h2.2.2.1, h2.2.2.2] at h4
    exact ⟨h3, h4⟩

/-! ## Theorems -/

/-- A port as the constructor makes it, with whatever inputs. -/
def Fresh (s : Port) : Prop := s.lastSend = 0 ∧ s.log = [] ∧ s.sent = []

theorem fresh_noted {s : Port} (h : Fresh s) : Noted s := by
  obtain ⟨h1, h2, h3⟩ := h
  exact ⟨by rw [h1, h2]; rfl, by rw [h2]; rfl, by rw [h2, h3]; rfl⟩

/-- In every history: whatever a call broadcasts is for the peer and the device configured, with the lock flag
configured and with the baud rate that was set last. Only `write` and `read` broadcast anything, and `read` at most one
message, which is empty. -/
theorem C70_config (s : Port) (hf : Fresh s) (ops : List Op) (op : Op) :
    ∃ msgs, (run s (ops ++ [op])).sent = (run s ops).sent ++ msgs ∧
      (∀ m ∈ msgs, m.target = s.targetNode ∧ m.serialId = s.dev ∧ m.lock = s.lock ∧
        m.baudrate = rateAfter s.baudrate ops) ∧
      match op with
      | .write _ => True
      | .read _ => msgs.length ≤ 1 ∧ ∀ m ∈ msgs, m.buffer = []
      | _ => msgs = [] := by
  obtain ⟨h1, h2⟩ := run_noted ops s (fresh_noted hf)
  simp only [Prod.mk.injEq] at h2
  obtain ⟨e1, e2, e3, e4⟩ := h2
  have hrun : run s (ops ++ [op]) = step (run s ops) op := by simp [run]
  rw [hrun]
  generalize run s ops = s1 at h1 e1 e2 e3 e4
  cases op with
  | write b =>
    obtain ⟨msgs, a, b, -⟩ := C46_write b s1
    refine ⟨msgs, a, fun m hm => ?_, trivial⟩
    obtain ⟨-, -, b1, b2, b3, b4⟩ := b m hm
    exact ⟨b1.trans e1, b2.trans e2, b3.trans e3, b4.trans e4⟩
  | read n =>
    obtain ⟨-, -, h⟩ := read_log n s1 h1
    simp only [step]
    generalize read n s1 = out at h
    obtain ⟨r, s2⟩ := out
    cases r with
    | error e => exact ⟨[], by rw [List.append_nil]; exact h, by simp, by simp, by simp⟩
    | ok b =>
      obtain ⟨t, rest, -, h⟩ := h
      refine ⟨_, h, ?_, ?_⟩
      · intro m hm
        split at hm
        · rw [List.mem_singleton] at hm
          subst hm
          exact ⟨e1, e2, e3, e4⟩
        · cases hm
      · split <;> simp
  | flushInput => exact ⟨[], (List.append_nil _).symm, by simp, rfl⟩
  | setBaudrate b =>
    refine ⟨[], ?_, by simp, rfl⟩
    rw [List.append_nil]
    simp only [step, setBaudrate, bind_run, get_run]
    split <;> rfl
  | flush => exact ⟨[], by rw [List.append_nil]; exact (spin_sent s1).1, by simp, rfl⟩
  | spin => exact ⟨[], by rw [List.append_nil]; exact (spin_sent s1).1, by simp, rfl⟩

/-- In every history: a `read` that returns has read the clock, and has broadcast a message if and only if that is more
than half a second after the reading that followed the last broadcast (of whatever call); the message is empty. -/
theorem C70_keepalive (s : Port) (hf : Fresh s) (ops : List Op) (n : Int) (b : List Byte)
    (h : (read n (run s ops)).1 = .ok b) :
    ∃ t rest, (run s (ops ++ [.read n])).log = (run s ops).log ++ .time t :: rest ∧
      sentIn rest = if t - lastSentAt 0 false (run s ops).log > 500 then
        [⟨s.targetNode, s.dev, s.lock, rateAfter s.baudrate ops, []⟩] else [] := by
  obtain ⟨h1, h2⟩ := run_noted ops s (fresh_noted hf)
  have hrun : run s (ops ++ [.read n]) = (read n (run s ops)).2 := by simp [run, step]
  rw [hrun]
  simp only [Prod.mk.injEq] at h2
  obtain ⟨e1, e2, e3, e4⟩ := h2
  generalize run s ops = s1 at h h1 e1 e2 e3 e4
  obtain ⟨h3, -, h4⟩ := read_log n s1 h1
  generalize read n s1 = out at h h3 h4
  obtain ⟨r, s2⟩ := out
  simp only at h
  subst h
  obtain ⟨t, rest, h5, h6⟩ := h4
  refine ⟨t, rest, h5, ?_⟩
  have h7 := h3.2.2
  simp only at h5 h6 h7
  rw [h6, h5, ← h1.2.2] at h7
  have h8 : sentIn (s1.log ++ .time t :: rest) = sentIn s1.log ++ sentIn rest := by simp [sentIn]
  rw [h8, List.append_cancel_left_eq] at h7
  rw [h7, h1.1, e1, e2, e3, e4]

/-- A port whose clock stands at 1000, 1000, 1200, 1600, 1600. -/
def exampleAlive : Port :=
  { targetNode := 5, dev := 0, nodeId := 1, txs := [none, none, none], clock := [1000, 1000, 1200, 1600, 1600] }

example : Fresh exampleAlive := ⟨rfl, rfl, rfl⟩

example : (run exampleAlive [.setBaudrate 9600, .read 1, .read 1, .read 1]).log =
    [.time 1000, .sent ⟨5, 0, false, 9600, []⟩, .time 1000, .time 1200, .time 1600, .sent ⟨5, 0, false, 9600, []⟩,
      .time 1600] ∧
    (read 1 (run exampleAlive [.setBaudrate 9600, .read 1, .read 1])).1 = .ok [] := by decide +kernel

end Serial
end Dronecan
