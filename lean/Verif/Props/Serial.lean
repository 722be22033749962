import Verif.Model.Serial

/-!
# The tunnelled serial port (C46)
-/

namespace Dronecan
namespace Serial
open PyM

/-! ## Specification -/

/-- The bytes that the node `peer` sent to the node `self` since the input was last flushed. -/
def received (peer self : Nat) : List Ev → List Byte
  | [] => []
  | evs => evs.foldl (fun acc ev => match ev with
    | .rx m => if m.src = peer ∧ m.target = self then acc ++ m.buffer else acc
    | .ret _ => acc
    | .flush => []) []

/-- The bytes that the reads returned since the input was last flushed. -/
def returned : List Ev → List Byte
  | [] => []
  | evs => evs.foldl (fun acc ev => match ev with
    | .rx _ => acc
    | .ret b => acc ++ b
    | .flush => []) []

/-- The messages delivered. -/
def delivered : List Ev → List Msg
  | [] => []
  | .rx m :: evs => m :: delivered evs
  | _ :: evs => delivered evs

/-- The number of times the input was flushed. -/
def flushes : List Ev → Nat
  | [] => 0
  | .flush :: evs => flushes evs + 1
  | _ :: evs => flushes evs

/-! ## Lemmas -/

theorem received_snoc (p n : Nat) (evs : List Ev) (ev : Ev) : received p n (evs ++ [ev]) = match ev with
    | .rx m => if m.src = p ∧ m.target = n then received p n evs ++ m.buffer else received p n evs
    | .ret _ => received p n evs
    | .flush => [] := by
  have h : ∀ evs, received p n evs = evs.foldl (fun acc ev => match ev with
    | .rx m => if m.src = p ∧ m.target = n then acc ++ m.buffer else acc
    | .ret _ => acc
    | .flush => []) [] := by intro evs; cases evs <;> rfl
  rw [h, h, List.foldl_append]
  rfl

theorem returned_snoc (evs : List Ev) (ev : Ev) : returned (evs ++ [ev]) = match ev with
    | .rx _ => returned evs
    | .ret b => returned evs ++ b
    | .flush => [] := by
  have h : ∀ evs, returned evs = evs.foldl (fun acc ev => match ev with
    | .rx _ => acc
    | .ret b => acc ++ b
    | .flush => []) [] := by intro evs; cases evs <;> rfl
  rw [h, h, List.foldl_append]
  rfl

theorem delivered_append (a b : List Ev) : delivered (a ++ b) = delivered a ++ delivered b := by
  induction a with
  | nil => rfl
  | cons e a ih => cases e <;> simp [delivered, ih]

theorem flushes_append (a b : List Ev) : flushes (a ++ b) = flushes a + flushes b := by
  induction a with
  | nil => simp [flushes]
  | cons e a ih => cases e <;> simp [flushes, ih] <;> omega

/-- The invariant: nothing is lost, and the messages delivered are those of the script `all`. -/
def Good (peer self : Nat) (all : List Msg) (s : Port) : Prop :=
  s.targetNode = peer ∧ s.nodeId = self ∧ returned s.trace ++ s.buf = received peer self s.trace ∧
    delivered s.trace ++ s.spins.flatMap (·.rx) = all

/-- A computation keeps the invariant. -/
def Keeps {α : Type} (m : PyM Port α) : Prop := ∀ p n all s, Good p n all s → Good p n all (m s).2

theorem keeps_bind {α β : Type} {m : PyM Port α} {f : α → PyM Port β} (hm : Keeps m) (hf : ∀ a, Keeps (f a)) :
    Keeps (m >>- f) := by
  intro p n all s h
  have h1 := hm p n all s h
  simp only [bind_run]
  cases hc : m s with
  | mk r s1 =>
    rw [hc] at h1
    cases r with
    | ok a => exact hf a p n all s1 h1
    | error e => exact h1

theorem keeps_tryCatch {α : Type} {m : PyM Port α} {f : Err → PyM Port α} (hm : Keeps m) (hf : ∀ a, Keeps (f a)) :
    Keeps (PyM.tryCatch m f) := by
  intro p n all s h
  have h1 := hm p n all s h
  simp only [PyM.tryCatch]
  cases hc : m s with
  | mk r s1 =>
    rw [hc] at h1
    cases r with
    | ok a => exact h1
    | error e => exact hf e p n all s1 h1

theorem keeps_pure {α : Type} (a : α) : Keeps (PyM.pure a) := fun _ _ _ _ h => h
theorem keeps_raise {α : Type} (e : Err) : Keeps (raise e : PyM Port α) := fun _ _ _ _ h => h
theorem keeps_get : Keeps get := fun _ _ _ _ h => h
theorem keeps_modify {f : Port → Port} (h : ∀ p n all s, Good p n all s → Good p n all (f s)) : Keeps (modify f) := h

theorem handle_good (p n : Nat) (all : List Msg) (m : Msg) (s : Port) (rest : List Msg)
    (h : s.targetNode = p ∧ s.nodeId = n ∧ returned s.trace ++ s.buf = received p n s.trace ∧
      delivered s.trace ++ (m :: rest) ++ s.spins.flatMap (·.rx) = all) :
    (handle m s).targetNode = p ∧ (handle m s).nodeId = n ∧
      returned (handle m s).trace ++ (handle m s).buf = received p n (handle m s).trace ∧
      delivered (handle m s).trace ++ rest ++ (handle m s).spins.flatMap (·.rx) = all ∧
      (handle m s).spins = s.spins := by
  obtain ⟨h1, h2, h3, h4⟩ := h
  have htr : (handle m s).trace = s.trace ++ [.rx m] ∧ (handle m s).targetNode = s.targetNode ∧
      (handle m s).nodeId = s.nodeId ∧ (handle m s).spins = s.spins ∧
      (handle m s).buf = if m.src = s.targetNode ∧ m.target = s.nodeId then s.buf ++ m.buffer else s.buf := by
    simp only [handle]
    split
    · rename_i hs; exact ⟨rfl, rfl, rfl, rfl, by rw [if_neg (fun h => hs h.1)]⟩
    · rename_i hs
      split
      · rename_i ht; exact ⟨rfl, rfl, rfl, rfl, by rw [if_neg (fun h => ht h.2)]⟩
      · rename_i ht; exact ⟨rfl, rfl, rfl, rfl, by rw [if_pos ⟨by simpa using hs, by simpa using ht⟩]⟩
  obtain ⟨e1, e2, e3, e4, e5⟩ := htr
  refine ⟨e2.trans h1, e3.trans h2, ?_, ?_, e4⟩
  · rw [e1, e5, returned_snoc, received_snoc, h1, h2]
    dsimp only
    split
    · rw [← List.append_assoc, h3]
    · exact h3
  · rw [e1, e4, delivered_append, ← h4]
    simp [delivered]

theorem handle_fold_good (p n : Nat) (all : List Msg) (ms : List Msg) : ∀ s : Port,
    (s.targetNode = p ∧ s.nodeId = n ∧ returned s.trace ++ s.buf = received p n s.trace ∧
      delivered s.trace ++ ms ++ s.spins.flatMap (·.rx) = all) → Good p n all (ms.foldl (fun s m => handle m s) s) := by
  induction ms with
  | nil => intro s h; simpa [Good] using h
  | cons m ms ih =>
    intro s h
    obtain ⟨h1, h2, h3, h4, -⟩ := handle_good p n all m s ms h
    exact ih _ ⟨h1, h2, h3, h4⟩

theorem keeps_spin : Keeps spin := by
  intro p n all s h
  unfold spin
  split
  · exact h
  · rename_i x rest hx
    obtain ⟨h1, h2, h3, h4⟩ := h
    have := handle_fold_good p n all x.rx { s with spins := rest } ⟨h1, h2, h3, by
      rw [hx] at h4
      simpa using h4⟩
    split <;> exact this

theorem keeps_wall : Keeps wall := by
  intro p n all s h
  unfold wall
  split <;> exact h

theorem keeps_attempt (m : Out) (tx : Tx) : Keeps (attempt m tx) := by
  refine keeps_bind keeps_spin fun _ => ?_
  cases tx with
  | none => exact keeps_modify fun p n all s h => h
  | some e => exact keeps_raise e

theorem keeps_sendLoop (m : Out) (txs : List Tx) : Keeps (sendLoop m txs) := by
  induction txs with
  | nil => exact keeps_raise _
  | cons tx rest ih =>
    refine keeps_bind (keeps_modify fun p n all s h => h) fun _ => keeps_tryCatch (keeps_attempt m tx) fun e => ?_
    split
    · exact ih
    · exact keeps_raise _

theorem keeps_sendBytes (b : List Byte) : Keeps (sendBytes b) := by
  simp only [sendBytes]
  exact keeps_bind keeps_get fun _ => keeps_bind (keeps_sendLoop _ _) fun _ => keeps_bind keeps_wall fun _ =>
    keeps_bind (keeps_modify fun p n all s h => h) fun _ => keeps_pure _

theorem keeps_writeLoop (fuel : Nat) : ∀ b total, Keeps (writeLoop fuel b total) := by
  induction fuel with
  | zero => intro b total; exact keeps_pure _
  | succ fuel ih =>
    intro b total
    unfold writeLoop
    split
    · refine keeps_bind (keeps_sendBytes b) fun n => ?_
      split
      · exact keeps_pure _
      · exact ih _ _
    · exact keeps_pure _

theorem keeps_flushInput : Keeps flushInput := by
  refine keeps_modify fun p n all s h => ?_
  obtain ⟨h1, h2, h3, h4⟩ := h
  refine ⟨h1, h2, ?_, ?_⟩
  · simp only [returned_snoc, received_snoc, List.append_nil]
  · simp only [delivered_append, ← h4, delivered, List.append_nil]

theorem keeps_read (n : Int) : Keeps (read n) := by
  refine keeps_bind keeps_spin fun _ => keeps_bind keeps_wall fun t => keeps_bind keeps_get fun s => keeps_bind ?_ fun _ =>
    keeps_bind keeps_get fun s' => ?_
  · split
    · exact keeps_bind (keeps_sendBytes _) fun _ => keeps_pure _
    · exact keeps_pure _
  · split
    · refine keeps_bind (keeps_modify fun p n' all s h => ?_) fun _ => keeps_pure _
      obtain ⟨h1, h2, h3, h4⟩ := h
      refine ⟨h1, h2, ?_, ?_⟩
      · simp only [returned_snoc, received_snoc, List.append_assoc, List.take_append_drop, h3]
      · simp only [delivered_append, ← h4, delivered, List.append_nil]
    · exact keeps_pure _

theorem good_step (p n : Nat) (all : List Msg) (s : Port) (op : Op) (h : Good p n all s) : Good p n all (step s op) := by
  cases op with
  | write b => exact keeps_writeLoop _ _ _ p n all s h
  | read k => exact keeps_read k p n all s h
  | flushInput => exact keeps_flushInput p n all s h
  | setBaudrate b =>
    refine keeps_bind keeps_get (fun s => ?_) p n all s h
    split
    · exact keeps_pure _
    · exact keeps_bind (keeps_modify fun p n all s h => h) fun _ => keeps_flushInput
  | flush => exact keeps_spin p n all s h
  | spin => exact keeps_spin p n all s h

theorem good_run (p n : Nat) (all : List Msg) (ops : List Op) : ∀ s, Good p n all s → Good p n all (run s ops) := by
  induction ops with
  | nil => intro s h; exact h
  | cons op ops ih => intro s h; exact ih _ (good_step p n all s op h)

/-! ## C46: reading -/

/-- In every history, whatever the node delivers and however calls end: what the reads returned since the last flush,
followed by what is pending, is what the peer sent to this node, in order; and all messages that the node delivered were
seen. -/
theorem C46_fifo (s : Port) (ht : s.trace = []) (hb : s.buf = []) (ops : List Op) :
    returned (run s ops).trace ++ (run s ops).buf = received s.targetNode s.nodeId (run s ops).trace ∧
      delivered (run s ops).trace ++ (run s ops).spins.flatMap (·.rx) = s.spins.flatMap (·.rx) := by
  have := good_run s.targetNode s.nodeId (s.spins.flatMap (·.rx)) ops s
    ⟨rfl, rfl, by rw [ht, hb]; rfl, by rw [ht]; rfl⟩
  exact ⟨this.2.2.1, this.2.2.2⟩

/-- A computation does not flush and returns nothing to the application. -/
def Silent {α : Type} (m : PyM Port α) : Prop := ∀ s, flushes (m s).2.trace = flushes s.trace ∧
  (returned (m s).2.trace = returned s.trace) ∧ ∃ more, (m s).2.buf = s.buf ++ more

theorem silent_bind {α β : Type} {m : PyM Port α} {f : α → PyM Port β} (hm : Silent m) (hf : ∀ a, Silent (f a)) :
    Silent (m >>- f) := by
  intro s
  have h1 := hm s
  simp only [bind_run]
  cases hc : m s with
  | mk r s1 =>
    rw [hc] at h1
    cases r with
    | ok a =>
      obtain ⟨a1, a2, more, a3⟩ := hf a s1
      obtain ⟨b1, b2, more', b3⟩ := h1
      exact ⟨a1.trans b1, a2.trans b2, more' ++ more, by rw [a3, b3, List.append_assoc]⟩
    | error e => exact h1

theorem silent_tryCatch {α : Type} {m : PyM Port α} {f : Err → PyM Port α} (hm : Silent m) (hf : ∀ a, Silent (f a)) :
    Silent (PyM.tryCatch m f) := by
  intro s
  have h1 := hm s
  simp only [PyM.tryCatch]
  cases hc : m s with
  | mk r s1 =>
    rw [hc] at h1
    cases r with
    | ok a => exact h1
    | error e =>
      obtain ⟨a1, a2, more, a3⟩ := hf e s1
      obtain ⟨b1, b2, more', b3⟩ := h1
      exact ⟨a1.trans b1, a2.trans b2, more' ++ more, by rw [a3, b3, List.append_assoc]⟩

theorem silent_pure {α : Type} (a : α) : Silent (PyM.pure a) := fun _ => ⟨rfl, rfl, [], (List.append_nil _).symm⟩
theorem silent_raise {α : Type} (e : Err) : Silent (raise e : PyM Port α) :=
  fun _ => ⟨rfl, rfl, [], (List.append_nil _).symm⟩
theorem silent_get : Silent get := fun _ => ⟨rfl, rfl, [], (List.append_nil _).symm⟩
theorem silent_modify {f : Port → Port} (h : ∀ s, (f s).trace = s.trace ∧ (f s).buf = s.buf) : Silent (modify f) :=
  fun s => ⟨by rw [modify_run, (h s).1], by rw [modify_run, (h s).1], [], by rw [modify_run, (h s).2, List.append_nil]⟩

theorem silent_handle_fold (ms : List Msg) : ∀ s : Port,
    flushes (ms.foldl (fun s m => handle m s) s).trace = flushes s.trace ∧
    returned (ms.foldl (fun s m => handle m s) s).trace = returned s.trace ∧
    ∃ more, (ms.foldl (fun s m => handle m s) s).buf = s.buf ++ more := by
  induction ms with
  | nil => intro s; exact ⟨rfl, rfl, [], (List.append_nil _).symm⟩
  | cons m ms ih =>
    intro s
    obtain ⟨a1, a2, more, a3⟩ := ih (handle m s)
    have htr : (handle m s).trace = s.trace ++ [.rx m] := by simp only [handle]; split <;> (try split) <;> rfl
    have hb : ∃ x, (handle m s).buf = s.buf ++ x := by
      simp only [handle]
      split
      · exact ⟨[], (List.append_nil _).symm⟩
      · split
        · exact ⟨[], (List.append_nil _).symm⟩
        · exact ⟨_, rfl⟩
    obtain ⟨x, hx⟩ := hb
    rw [htr, flushes_append] at a1
    rw [htr, returned_snoc] at a2
    exact ⟨a1, a2, x ++ more, by rw [List.foldl_cons, a3, hx, List.append_assoc]⟩

theorem silent_spin : Silent spin := by
  intro s
  unfold spin
  split
  · exact ⟨rfl, rfl, [], (List.append_nil _).symm⟩
  · rename_i x rest hx
    have := silent_handle_fold x.rx { s with spins := rest }
    split <;> exact this

theorem silent_wall : Silent wall := by
  intro s
  unfold wall
  split <;> exact ⟨rfl, rfl, [], (List.append_nil _).symm⟩

theorem silent_sendLoop (m : Out) (txs : List Tx) : Silent (sendLoop m txs) := by
  induction txs with
  | nil => exact silent_raise _
  | cons tx rest ih =>
    refine silent_bind (silent_modify fun s => ⟨rfl, rfl⟩) fun _ => silent_tryCatch ?_ fun e => ?_
    · refine silent_bind silent_spin fun _ => ?_
      cases tx with
      | none => exact silent_modify fun s => ⟨rfl, rfl⟩
      | some e => exact silent_raise e
    · split
      · exact ih
      · exact silent_raise _

theorem silent_sendBytes (b : List Byte) : Silent (sendBytes b) := by
  simp only [sendBytes]
  exact silent_bind silent_get fun _ => silent_bind (silent_sendLoop _ _) fun _ => silent_bind silent_wall fun _ =>
    silent_bind (silent_modify fun s => ⟨rfl, rfl⟩) fun _ => silent_pure _

theorem silent_writeLoop (fuel : Nat) : ∀ b total, Silent (writeLoop fuel b total) := by
  induction fuel with
  | zero => intro b total; exact silent_pure _
  | succ fuel ih =>
    intro b total
    unfold writeLoop
    split
    · refine silent_bind (silent_sendBytes b) fun n => ?_
      split
      · exact silent_pure _
      · exact ih _ _
    · exact silent_pure _

/-- What `read` does before it looks at the buffer. -/
def prep : PyM Port Unit := spin >>- fun _ => wall >>- fun t => get >>- fun s =>
  (if t - s.lastSend > 500 then sendBytes [] >>- fun _ => PyM.pure () else PyM.pure ())

theorem read_prep (n : Int) (s : Port) : read n s = (prep >>- fun _ =>
      get >>- fun s =>
      if s.buf.length > 0 then
        modify (fun s' => { s' with
          buf := s'.buf.drop (cutAt (if n > s.buf.length then s.buf.length else n) s.buf.length)
          trace := s'.trace ++
            [.ret (s'.buf.take (cutAt (if n > s.buf.length then s.buf.length else n) s.buf.length))] }) >>- fun _ =>
        PyM.pure (s.buf.take (cutAt (if n > s.buf.length then s.buf.length else n) s.buf.length))
      else PyM.pure []) s := by
  simp only [read, prep, bind_run]
  cases spin s with
  | mk r s1 =>
    cases r with
    | error e => rfl
    | ok u =>
      simp only
      cases wall s1 with
      | mk r s2 => cases r <;> rfl

/-- The bytes a read returns are what `returned` counts; it returns as many of the pending bytes as asked for, so some if
there are any; asked for `-k` bytes, all but the last `k`. A read that raises returns nothing. Nothing is flushed. -/
theorem C46_read (n : Int) (s : Port) :
    flushes (read n s).2.trace = flushes s.trace ∧
    match (read n s).1 with
    | .ok b => returned (read n s).2.trace = returned s.trace ++ b ∧
        ∃ pending, b ++ (read n s).2.buf = s.buf ++ pending ∧ (0 ≤ n → b.length = min n.toNat (s.buf ++ pending).length) ∧
          (n < 0 → b.length = (s.buf ++ pending).length - n.natAbs)
    | .error _ => returned (read n s).2.trace = returned s.trace := by
  have h1 : Silent prep := by
    refine silent_bind silent_spin fun _ => silent_bind silent_wall fun t => silent_bind silent_get fun s => ?_
    split
    · exact silent_bind (silent_sendBytes _) fun _ => silent_pure _
    · exact silent_pure _
  have h2 := h1 s
  rw [read_prep]
  simp only [bind_run]
  generalize prep s = out at h2 ⊢
  obtain ⟨r, s1⟩ := out
  obtain ⟨a1, a2, more, a3⟩ := h2
  cases r with
  | error e => exact ⟨a1, a2⟩
  | ok u =>
    simp only [get_run]
    split
    · rename_i hpos
      simp only [bind_run, modify_run, pure_run, flushes_append, returned_snoc, flushes, Nat.add_zero]
      refine ⟨a1, by rw [a2], more, by rw [List.take_append_drop, a3], fun hn => ?_, fun hn => ?_⟩ <;>
        (rw [← a3, List.length_take, cutAt]
         dsimp only
         split <;> (try split) <;> omega)
    · rename_i hpos
      have hnil : s1.buf = [] := List.length_eq_zero_iff.1 (by omega)
      simp only [pure_run]
      refine ⟨a1, by rw [a2, List.append_nil], more, by rw [← a3]; rfl, fun hn => ?_, fun hn => ?_⟩ <;>
        (rw [← a3, hnil]
         simp)

/-- Only `flushInput` and a change of the baud rate discard input. -/
theorem C46_flush (s : Port) (op : Op) (h : flushes (step s op).trace ≠ flushes s.trace) :
    (op = .flushInput ∨ ∃ b, op = .setBaudrate b ∧ b ≠ s.baudrate) ∧ (step s op).buf = [] := by
  cases op with
  | write b => exact absurd (silent_writeLoop _ _ _ s).1 h
  | read k => exact absurd (C46_read k s).1 h
  | flushInput => exact ⟨.inl rfl, rfl⟩
  | setBaudrate b =>
    simp only [step, setBaudrate, bind_run, get_run] at h ⊢
    split at h
    · exact absurd rfl h
    · rename_i hb
      rw [if_neg hb]
      exact ⟨.inr ⟨b, rfl, fun h => hb h.symm⟩, rfl⟩
  | flush => exact absurd (silent_spin s).1 h
  | spin => exact absurd (silent_spin s).1 h

/-! ## C46: writing -/

/-- Configuration and transmissions: what is untouched by receiving. -/
theorem spin_sent (s : Port) : (spin s).2.sent = s.sent ∧ (spin s).2.targetNode = s.targetNode ∧
    (spin s).2.dev = s.dev ∧ (spin s).2.lock = s.lock ∧ (spin s).2.baudrate = s.baudrate := by
  have hf : ∀ (ms : List Msg) (s : Port), (ms.foldl (fun s m => handle m s) s).sent = s.sent ∧
      (ms.foldl (fun s m => handle m s) s).targetNode = s.targetNode ∧
      (ms.foldl (fun s m => handle m s) s).dev = s.dev ∧ (ms.foldl (fun s m => handle m s) s).lock = s.lock ∧
      (ms.foldl (fun s m => handle m s) s).baudrate = s.baudrate := by
    intro ms
    induction ms with
    | nil => intro s; exact ⟨rfl, rfl, rfl, rfl, rfl⟩
    | cons m ms ih =>
      intro s
      have h1 : (handle m s).sent = s.sent ∧ (handle m s).targetNode = s.targetNode ∧ (handle m s).dev = s.dev ∧
          (handle m s).lock = s.lock ∧ (handle m s).baudrate = s.baudrate := by
        simp only [handle]
        split
        · exact ⟨rfl, rfl, rfl, rfl, rfl⟩
        · split <;> exact ⟨rfl, rfl, rfl, rfl, rfl⟩
      have h2 := ih (handle m s)
      rw [h1.1, h1.2.1, h1.2.2.1, h1.2.2.2.1, h1.2.2.2.2] at h2
      exact h2
  unfold spin
  split
  · exact ⟨rfl, rfl, rfl, rfl, rfl⟩
  · rename_i x rest hx
    have := hf x.rx { s with spins := rest }
    dsimp only
    split <;> exact this

/-- The configuration of the port. -/
def cfg (s : Port) : Nat × Int × Bool × Nat := (s.targetNode, s.dev, s.lock, s.baudrate)

theorem sendLoop_sent (m : Out) (txs : List Tx) : ∀ s : Port, cfg (sendLoop m txs s).2 = cfg s ∧
    match (sendLoop m txs s).1 with
    | .ok _ => (sendLoop m txs s).2.sent = s.sent ++ [m]
    | .error _ => (sendLoop m txs s).2.sent = s.sent := by
  induction txs with
  | nil => intro s; exact ⟨rfl, rfl⟩
  | cons tx rest ih =>
    intro s
    simp only [sendLoop, bind_run, modify_run, PyM.tryCatch, attempt]
    have hs := spin_sent { s with txs := rest }
    have hc : cfg (spin { s with txs := rest }).2 = cfg s := by
      simp only [cfg, hs.2.1, hs.2.2.1, hs.2.2.2.1, hs.2.2.2.2]
    have hsn : (spin { s with txs := rest }).2.sent = s.sent := hs.1
    cases hsp : spin { s with txs := rest } with
    | mk r s1 =>
      rw [hsp] at hc hsn
      have hretry : ∀ e : Err, cfg ((if e = .driverError then sendLoop m rest else raise e) s1).2 = cfg s ∧
          match ((if e = .driverError then sendLoop m rest else raise e) s1).1 with
          | .ok _ => ((if e = .driverError then sendLoop m rest else raise e) s1).2.sent = s.sent ++ [m]
          | .error _ => ((if e = .driverError then sendLoop m rest else raise e) s1).2.sent = s.sent := by
        intro e
        split
        · have := ih s1
          simp only at hc hsn
          rw [hc, hsn] at this
          exact this
        · exact ⟨hc, hsn⟩
      cases r with
      | error e => exact hretry e
      | ok u =>
        cases tx with
        | none => exact ⟨hc, congrArg (· ++ [m]) hsn⟩
        | some e => exact hretry e

theorem sendBytes_sent (b : List Byte) (s : Port) : cfg (sendBytes b s).2 = cfg s ∧
    match (sendBytes b s).1 with
    | .ok n => n = min b.length 120 ∧
        (sendBytes b s).2.sent = s.sent ++ [⟨s.targetNode, s.dev, s.lock, s.baudrate, b.take n⟩]
    | .error _ => (sendBytes b s).2.sent = s.sent := by
  simp only [sendBytes, bind_run, get_run]
  generalize hm : (⟨s.targetNode, s.dev, s.lock, s.baudrate, b.take (if b.length > 120 then 120 else b.length)⟩ : Out) = m
  have h := sendLoop_sent m s.txs s
  cases hsl : sendLoop m s.txs s with
  | mk r s1 =>
    rw [hsl] at h
    cases r with
    | error e => exact h
    | ok u =>
      have hw : ∃ t, wall s1 = (.ok t, { s1 with
          clock := s1.clock.tail
          log := s1.log ++ [.time t] }) := by
        unfold wall
        split
        · rename_i hc; rw [hc]; refine ⟨0, ?_⟩; rw [List.tail_nil, ← hc]
        · rename_i t rest hc; rw [hc]; exact ⟨t, rfl⟩
      obtain ⟨t, hw⟩ := hw
      simp only [hw, modify_run, pure_run]
      simp only at h
      refine ⟨h.1, ?_, ?_⟩
      · split <;> omega
      · rw [h.2, ← hm]

/-- Writing sends, whatever is received meanwhile and however often the queue is full, messages for the configured peer
whose buffers make up the bytes written, each with 1 to 120 bytes; it returns their number. If it raises, the buffers sent
make up the beginning of the bytes. -/
theorem C46_write (b : List Byte) (s : Port) : ∃ msgs : List Out, (write b s).2.sent = s.sent ++ msgs ∧
    (∀ m ∈ msgs, 0 < m.buffer.length ∧ m.buffer.length ≤ 120 ∧ m.target = s.targetNode ∧ m.serialId = s.dev ∧
      m.lock = s.lock ∧ m.baudrate = s.baudrate) ∧
    match (write b s).1 with
    | .ok n => n = b.length ∧ msgs.flatMap (·.buffer) = b
    | .error _ => msgs.flatMap (·.buffer) <+: b := by
  suffices ∀ fuel b total s, b.length ≤ fuel → ∃ msgs : List Out, (writeLoop fuel b total s).2.sent = s.sent ++ msgs ∧
      (∀ m ∈ msgs, 0 < m.buffer.length ∧ m.buffer.length ≤ 120 ∧ m.target = s.targetNode ∧ m.serialId = s.dev ∧
        m.lock = s.lock ∧ m.baudrate = s.baudrate) ∧
      match (writeLoop fuel b total s).1 with
      | .ok n => n = total + b.length ∧ msgs.flatMap (·.buffer) = b
      | .error _ => msgs.flatMap (·.buffer) <+: b by
    have h := this b.length b 0 s (Nat.le_refl _)
    rw [Nat.zero_add] at h
    exact h
  intro fuel
  induction fuel with
  | zero =>
    intro b total s hl
    have hb : b = [] := List.length_eq_zero_iff.1 (by omega)
    subst hb
    exact ⟨[], (List.append_nil _).symm, by simp, rfl, rfl⟩
  | succ fuel ih =>
    intro b total s hl
    simp only [writeLoop]
    split
    · rename_i hpos
      simp only [bind_run]
      have h := sendBytes_sent b s
      cases hsb : sendBytes b s with
      | mk r s1 =>
        rw [hsb] at h
        cases r with
        | error e => exact ⟨[], by rw [List.append_nil]; exact h.2, by simp, List.nil_prefix⟩
        | ok n =>
          obtain ⟨hc, hn, hs⟩ := h
          simp only at hc hn hs ⊢
          rw [if_neg (by omega)]
          obtain ⟨msgs, h1, h2, h3⟩ := ih (b.drop n) (total + n) s1 (by rw [List.length_drop]; omega)
          simp only [cfg, Prod.mk.injEq] at hc
          rw [hc.1, hc.2.1, hc.2.2.1, hc.2.2.2] at h2
          refine ⟨⟨s.targetNode, s.dev, s.lock, s.baudrate, b.take n⟩ :: msgs, ?_, ?_, ?_⟩
          · rw [h1, hs]; simp
          · intro m hm
            rcases List.mem_cons.1 hm with rfl | hm
            · refine ⟨?_, ?_, rfl, rfl, rfl, rfl⟩ <;> simp only [List.length_take] <;> omega
            · exact h2 m hm
          · revert h3
            split
            · rintro ⟨h3, h4⟩
              refine ⟨?_, ?_⟩
              · rw [h3, List.length_drop]; omega
              · rw [List.flatMap_cons, h4]; exact List.take_append_drop _ _
            · rintro ⟨t, ht⟩
              exact ⟨t, by rw [List.flatMap_cons, List.append_assoc, ht]; exact List.take_append_drop _ _⟩
    · rename_i hpos
      have hb : b = [] := List.length_eq_zero_iff.1 (by omega)
      subst hb
      exact ⟨[], (List.append_nil _).symm, by simp, rfl, rfl⟩

example : (write (List.replicate 250 7) { targetNode := 5, dev := 0, nodeId := 1,
                                          txs := [none, some .driverError, none, none] }).1 = .ok 250 := by
  decide +kernel

/-- A script: two messages, one of them from another node, then two more, one of them for another node. -/
def exampleSpins : List Spin :=
  [⟨[⟨5, 1, [1, 2, 3]⟩, ⟨6, 1, [9]⟩], none⟩, ⟨[⟨5, 2, [8]⟩, ⟨5, 1, [4]⟩], some .transferError⟩]

example : (run { targetNode := 5, dev := 0, nodeId := 1, spins := exampleSpins } [.read 2, .read 5]).trace =
    [.rx ⟨5, 1, [1, 2, 3]⟩, .rx ⟨6, 1, [9]⟩, .ret [1, 2], .rx ⟨5, 2, [8]⟩, .rx ⟨5, 1, [4]⟩, .ret [3, 4]] := by
  decide +kernel

end Serial
end Dronecan
