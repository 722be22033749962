import Verif.Model.SerialWire
import Verif.Props.SerialAlive
import Verif.Props.FileWire

/-!
# The serial tunnel over the bus (C128)
-/

namespace Dronecan
namespace SerialWire
open TextField PyM Serial

/-! ## Specification -/

/-- The message says: these bytes are for this device of this node, with these settings. -/
def Tells (d : Shape) (m : Out) (v : Val) : Prop := ∃ a b p t s o r items,
  v = .comp a [.comp b [.prim p], .prim t, .prim s, .prim o, .prim r, .arr items] ∧ getInt ⟨.unsigned, 8, d.trunc 0⟩ p = some 2 ∧
    getInt ⟨.unsigned, 7, d.trunc 1⟩ t = some (m.target : Int) ∧ getInt ⟨.signed, 5, d.trunc 2⟩ s = some m.serialId ∧
    getInt ⟨.unsigned, 4, d.trunc 3⟩ o = some (if m.lock then (d.lockPort : Int) else 0) ∧
    getInt ⟨.unsigned, 24, d.trunc 4⟩ r = some (m.baudrate : Int) ∧
    toBytes ⟨.unsigned, 8, d.trunc 5⟩ items = .ok (m.buffer.map (·.toNat))

/-- The message can be told: its numbers are those of the definition. -/
structure Proper (m : Out) : Prop where
  target : m.target < 128
  serialId : -16 ≤ m.serialId ∧ m.serialId < 16
  baudrate : m.baudrate < 2 ^ 24
  buffer : m.buffer.length ≤ 120

/-- The settings of a port are those of the definition, whatever the calls. -/
structure Settings (p : Port) (ops : List Op) : Prop where
  target : p.targetNode < 128
  dev : -16 ≤ p.dev ∧ p.dev < 16
  baudrate : p.baudrate < 2 ^ 24
  baudrates : ∀ b, .setBaudrate b ∈ ops → b < 2 ^ 24

/-- The transfers tell the messages, and come from the node. -/
inductive Told (d : Shape) (src : Nat) : List Out → List InTransfer → Prop
  | nil : Told d src [] []
  | cons (m : Out) (tr : InTransfer) (ms : List Out) (trs : List InTransfer) : tr.header.source = src → Tells d m tr.payload →
      Told d src ms trs → Told d src (m :: ms) (tr :: trs)

/-- The bytes that an application wrote. -/
def written (ops : List Op) : List Byte := ops.flatMap fun
  | .write b => b
  | _ => []

/-- Every write of the history returns. -/
def Returns (p : Port) (ops : List Op) : Prop := ∀ pre b post, ops = pre ++ .write b :: post → ∃ n, (write b (run p pre)).1 = .ok n

/-- Ports for two devices of one node: a message for the one does not change what the other one receives. -/
def C128_statement : Prop := ∀ (d : Shape) (p : Port) (m : Out) (tr : InTransfer), Proper m → Tells d m tr.payload → 0 ≤ m.serialId → 0 ≤ p.dev →
  m.serialId ≠ p.dev → (onTargetted d tr p).2.buf = p.buf

/-! ## Lemmas -/

theorem wf_ty (d : Shape) : WfTy d.ty = true := by simp [Shape.ty, WfTy, WfTys]

theorem setSigned5 (t : Bool) (x : Int) (h : -16 ≤ x ∧ x < 16) :
    ∃ b, setInt ⟨.signed, 5, t⟩ x = .ok b ∧ b.length = 5 ∧ getInt ⟨.signed, 5, t⟩ b = some x := by
  have key : ∀ k : Fin 32, ∃ b, setInt ⟨.signed, 5, t⟩ ((k.val : Int) - 16) = .ok b ∧ b.length = 5 ∧
      getInt ⟨.signed, 5, t⟩ b = some ((k.val : Int) - 16) := by
    intro k
    refine ⟨(setInt ⟨.signed, 5, t⟩ ((k.val : Int) - 16)).toOption.getD [], ?_⟩
    revert k
    cases t <;> decide +kernel
  have := key ⟨(x + 16).toNat, by omega⟩
  have e : (((x + 16).toNat : Nat) : Int) - 16 = x := by omega
  simpa only [e] using this

/-- The message that is made tells what it is to tell. -/
theorem message_eq (d : Shape) (hd : d.lockPort < 16) (m : Out) (hm : Proper m) :
    ∃ v, message d m = .ok v ∧ hasTy d.ty v = true ∧ canon d.ty v = v ∧ Tells d m v := by
  obtain ⟨p, p1, p2, p3⟩ := FileWire.setUnsigned 8 (by decide) (by decide) (d.trunc 0) 2 (by decide)
  obtain ⟨t, t1, t2, t3⟩ := FileWire.setUnsigned 7 (by decide) (by decide) (d.trunc 1) m.target hm.target
  obtain ⟨s, s1, s2, s3⟩ := setSigned5 (d.trunc 2) m.serialId hm.serialId
  obtain ⟨o, o1, o2, o3⟩ := FileWire.setUnsigned 4 (by decide) (by decide) (d.trunc 3) (if m.lock then d.lockPort else 0)
    (by split <;> omega)
  obtain ⟨r, r1, r2, r3⟩ := FileWire.setUnsigned 24 (by decide) (by decide) (d.trunc 4) m.baudrate hm.baudrate
  have ho : ((if m.lock then d.lockPort else 0 : Nat) : Int) = if m.lock then (d.lockPort : Int) else 0 := by split <;> rfl
  rw [ho] at o1 o3
  have hset : arrSetAttr (valElem (.prim ⟨.unsigned, 8, d.trunc 5⟩)) 120 (m.buffer.map fun b => Elt.int (b.toNat : Int)) [] =
      (.ok (), (m.buffer.map (·.toNat)).map (item ⟨.unsigned, 8, d.trunc 5⟩)) := by
    simp only [arrSetAttr, arrClear_run]
    rw [arrExtend_all (valElem (.prim ⟨.unsigned, 8, d.trunc 5⟩)) 120
      (fun v => match v with | .int x => item ⟨.unsigned, 8, d.trunc 5⟩ x.toNat | .obj v => v) _
      (by
        intro v hv
        obtain ⟨b, -, rfl⟩ := List.mem_map.1 hv
        exact item_eq _ ⟨rfl, .inl rfl⟩ b.toNat) [] (Nat.zero_le _)]
    simp [hm.buffer, List.take_of_length_le]
  have p1' : setInt ⟨.unsigned, 8, d.trunc 0⟩ 2 = .ok p := p1
  have hitems : ∀ x ∈ (m.buffer.map (·.toNat)).map (item ⟨.unsigned, 8, d.trunc 5⟩), hasTy (.prim ⟨.unsigned, 8, d.trunc 5⟩) x = true := by
    intro x hx
    obtain ⟨n, hn, rfl⟩ := List.mem_map.1 hx
    obtain ⟨b, -, rfl⟩ := List.mem_map.1 hn
    have : ∀ t, ∀ b : Fin 256, hasTy (.prim ⟨.unsigned, 8, t⟩) (item ⟨.unsigned, 8, t⟩ b.val) = true := by
      intro t; cases t <;> decide +kernel
    exact this _ ⟨b.toNat, b.isLt⟩
  refine ⟨.comp none [.comp none [.prim p], .prim t, .prim s, .prim o, .prim r, .arr ((m.buffer.map (·.toNat)).map (item ⟨.unsigned, 8, d.trunc 5⟩))],
    ?_, ?_, ?_, none, none, p, t, s, o, r, _, rfl, p3, t3, s3, o3, r3, FileWire.toBytes_data _ _⟩
  · simp [message, FileWire.build, access, execOp, touch, assignField, newVal, newVals, Shape.ty, p1', t1, s1, o1, r1, hset, bind, Except.bind,
      pure, Except.pure]
  · simp only [Shape.ty, hasTy, hasTys, p2, t2, s2, o2, r2, Bool.and_true, Bool.true_and, decide_true, Bool.and_eq_true, List.all_eq_true]
    simp
    exact fun b hb => hitems _ (List.mem_map.2 ⟨b.toNat, List.mem_map.2 ⟨b, hb, rfl⟩, rfl⟩)
  · simp only [Shape.ty, canon, canonFields]
    rw [List.take_of_length_le (by simpa using hm.buffer), List.map_id']
    rfl

theorem heard_eq (d : Shape) (m : Out) (tr : InTransfer) (h : Tells d m tr.payload) : heard d tr = .ok ⟨tr.header.source, m.target, m.buffer⟩ := by
  obtain ⟨a, b, p, t, s, o, r, items, hv, -, h1, -, -, -, h2⟩ := h
  have hu : (m.buffer.map (·.toNat)).map (BitVec.ofNat 8) = m.buffer := by
    rw [List.map_map]
    conv => rhs; rw [← List.map_id m.buffer]
    exact List.map_congr_left fun b _ => by simp
  simp only [heard, hv, h1, h2, hu, Int.toNat_natCast]

theorem rateAfter_lt (rate : Nat) (hr : rate < 2 ^ 24) (ops : List Op) (h : ∀ b, .setBaudrate b ∈ ops → b < 2 ^ 24) :
    rateAfter rate ops < 2 ^ 24 := by
  unfold rateAfter
  induction ops generalizing rate with
  | nil => exact hr
  | cons op ops ih =>
    rw [List.foldl_cons]
    refine ih _ ?_ (fun b hb => h b (List.mem_cons_of_mem _ hb))
    cases op with
    | setBaudrate b => exact h b List.mem_cons_self
    | _ => exact hr

/-! ## Theorems -/

/-- Whatever the calls: the messages that a port broadcasts can be told, and if the writes return their buffers make up the bytes written. -/
theorem C128_messages (p : Port) (hf : Fresh p) (ops : List Op) (hs : Settings p ops) :
    (∀ m ∈ (run p ops).sent, Proper m ∧ m.target = p.targetNode ∧ m.serialId = p.dev) ∧
      (Returns p ops → (run p ops).sent.flatMap (·.buffer) = written ops) := by
  have key : ∀ n, n ≤ ops.length → (∀ m ∈ (run p (ops.take n)).sent, Proper m ∧ m.target = p.targetNode ∧ m.serialId = p.dev) ∧
      (Returns p ops → (run p (ops.take n)).sent.flatMap (·.buffer) = written (ops.take n)) := by
    intro n
    induction n with
    | zero =>
      intro _
      obtain ⟨-, -, h3⟩ := hf
      simp [run, h3, written]
    | succ n ih =>
      intro hn
      obtain ⟨i1, i2⟩ := ih (by omega)
      have hop : ops[n]? = some ops[n] := List.getElem?_eq_getElem (by omega)
      have htake : ops.take (n + 1) = ops.take n ++ [ops[n]] := by rw [List.take_add_one, hop]; rfl
      have hsplit : ops = ops.take n ++ ops[n] :: ops.drop (n + 1) := by
        rw [List.getElem_cons_drop, List.take_append_drop]
      have hmem : ∀ b, .setBaudrate b ∈ ops.take n → b < 2 ^ 24 := fun b hb => hs.baudrates b (List.mem_of_mem_take hb)
      have hrate := rateAfter_lt p.baudrate hs.baudrate (ops.take n) hmem
      generalize ops[n] = op at htake hsplit
      obtain ⟨msgs, c1, c2, c3⟩ := C70_config p hf (ops.take n) op
      rw [htake, c1]
      have hw : written (ops.take n ++ [op]) = written (ops.take n) ++ written [op] := by simp [written]
      have hlen : ∀ m ∈ msgs, m.buffer.length ≤ 120 := by
        intro m hm
        cases op with
        | write b =>
          obtain ⟨msgs', d1, d2, -⟩ := C46_write b (run p (ops.take n))
          have e : (run p (ops.take n ++ [.write b])).sent = (write b (run p (ops.take n))).2.sent := by simp [run, step]
          rw [e, d1] at c1
          have := List.append_cancel_left c1
          subst this
          exact (d2 m hm).2.1
        | read k => rw [c3.2 m hm]; simp
        | flushInput | setBaudrate b | flush | spin => rw [c3] at hm; cases hm
      constructor
      · intro m hm
        rcases List.mem_append.1 hm with hm | hm
        · exact i1 m hm
        · obtain ⟨e1, e2, e3, e4⟩ := c2 m hm
          exact ⟨⟨e1 ▸ hs.target, e2 ▸ hs.dev, e4 ▸ hrate, hlen m hm⟩, e1, e2⟩
      · intro hr
        rw [List.flatMap_append, i2 hr, hw]
        congr 1
        cases op with
        | write b =>
          obtain ⟨msgs', d1, d2, d3⟩ := C46_write b (run p (ops.take n))
          have e : (run p (ops.take n ++ [.write b])).sent = (write b (run p (ops.take n))).2.sent := by simp [run, step]
          rw [e, d1] at c1
          have := List.append_cancel_left c1
          subst this
          obtain ⟨k, hk⟩ := hr _ _ _ hsplit
          rw [hk] at d3
          rw [d3.2]
          simp [written]
        | read k =>
          simp only [written, List.flatMap_cons, List.flatMap_nil, List.append_nil]
          rw [List.flatMap_eq_nil_iff]
          exact c3.2
        | flushInput | setBaudrate b | flush | spin => rw [c3]; rfl
  have := key ops.length (Nat.le_refl _)
  rwa [List.take_length] at this

section Bus
open Node EndToEnd Dispatch Requests Rpc Timers

/-- A message that the node broadcasts (and this returns): frames were handed to the driver that tell every node the message. -/
theorem C128_told (d : Shape) (hd : d.lockPort < 16) (dt : DataType) (hmsg : dt.msg = d.ty) (hid : dt.dtid < 65536) (env : Env) (m : Out)
    (hm : Proper m) : ∃ v, message d m = .ok v ∧ ∀ (s s' : Node) (w : Nat), w + 1 < 128 → s.nodeId = some (w + 1) →
      Node.broadcast env (hookCall env) ⟨dt, v⟩ none none s = (.ok (), s') →
      ∃ mid frames tid, s'.trace = s.trace ++ mid ++ frames.map (.frame s.nextNum) ∧ Tells d m v ∧
        OnAir dt false s.sendCanfd frames (fun ts => arrived { prio := 20, dtid := dt.dtid, source := w + 1 } tid ts v s.sendCanfd) := by
  obtain ⟨v, h1, h2, h3, h4⟩ := message_eq d hd m hm
  refine ⟨v, h1, ?_⟩
  intro s s' w hw hn hok
  have hpl : dt.payloadTy false false = d.ty := hmsg
  obtain ⟨mid, frames, g1, g2⟩ := C115_broadcast (env := env) ⟨dt, v⟩ none none s s' w hn hw (by decide) hid
    (by simp only [hpl]; exact wf_ty d) (by simp only [hpl]; exact h2) hok
  simp only [hpl, h3] at g2
  exact ⟨mid, frames, _, g1, h4, g2⟩

end Bus

/-- A message that arrives: its bytes are appended to the input of the port if it comes from the target of the port and is for the node of the port. -/
theorem C128_heard (d : Shape) (p : Port) (m : Out) (tr : InTransfer) (h : Tells d m tr.payload) :
    ∃ p', onTargetted d tr p = (.ok (), p') ∧ p'.trace = p.trace ++ [.rx ⟨tr.header.source, m.target, m.buffer⟩] ∧
      p'.buf = if tr.header.source = p.targetNode ∧ m.target = p.nodeId then p.buf ++ m.buffer else p.buf := by
  refine ⟨handle ⟨tr.header.source, m.target, m.buffer⟩ p, by simp only [onTargetted, heard_eq d m tr h], ?_⟩
  simp only [handle]
  refine ⟨by split; · rfl
             · split <;> rfl, ?_⟩
  by_cases h1 : tr.header.source = p.targetNode
  · by_cases h2 : m.target = p.nodeId
    · simp [h1, h2]
    · simp [h1, h2]
  · simp [h1]

/-- It is false: a port takes the bytes for any device of its node. -/
theorem C128_counterexample : ¬ C128_statement := by
  intro h
  obtain ⟨v, -, -, -, hv⟩ := message_eq {} (by decide) ⟨10, 1, false, 57600, [65]⟩ ⟨by decide, by decide, by decide, by decide⟩
  have h1 := h {} { targetNode := 20, dev := 2, nodeId := 10 } ⟨10, 1, false, 57600, [65]⟩ ⟨{ source := 20 }, 0, none, v, false⟩
    ⟨by decide, by decide, by decide, by decide⟩ hv (by decide) (by decide) (by decide)
  obtain ⟨p', h2, -, h3⟩ := C128_heard {} { targetNode := 20, dev := 2, nodeId := 10 } ⟨10, 1, false, 57600, [65]⟩
    ⟨{ source := 20 }, 0, none, v, false⟩ hv
  rw [h2] at h1
  simp only at h1
  rw [h3] at h1
  simp at h1

theorem received_noflush (peer self : Nat) (evs : List Serial.Ev) (h : flushes evs = 0) :
    received peer self evs = ((delivered evs).filter fun m => m.src = peer ∧ m.target = self).flatMap (·.buffer) := by
  have key : ∀ (evs : List Serial.Ev) (acc : List Byte), flushes evs = 0 → evs.foldl (fun acc ev => match ev with
    | .rx m => if m.src = peer ∧ m.target = self then acc ++ m.buffer else acc
    | .ret _ => acc
    | .flush => []) acc = acc ++ ((delivered evs).filter fun m => m.src = peer ∧ m.target = self).flatMap (·.buffer) := by
    intro evs
    induction evs with
    | nil => intro acc _; simp [delivered]
    | cons ev evs ih =>
      intro acc hf
      rw [List.foldl_cons]
      cases ev with
      | rx m =>
        simp only [flushes] at hf
        rw [ih _ hf]
        by_cases hm : m.src = peer ∧ m.target = self
        · simp [delivered, hm]
        · simp [delivered, hm]
      | ret b =>
        simp only [flushes] at hf
        rw [ih _ hf]
        simp [delivered]
      | flush => simp [flushes] at hf
  have := key evs [] h
  rw [List.nil_append] at this
  rw [← this]
  cases evs <;> rfl

/-- From port to port. An application writes to a port, and the writes return. If the messages that are broadcast by the node of that port, among
them those of the port and no others for the node of the other port, are told to the other port, in order (`C128_told`): then what is read from the
other port, followed by what is still to be read, is what was written, whatever the calls and whatever other nodes send. -/
theorem C128_partial (d : Shape) (a b : Port) (ha : Fresh a) (ops opsB : List Op) (hs : Settings a ops) (hr : Returns a ops)
    (hb : b.trace = [] ∧ b.buf = []) (all : List Out) (hall : all.filter (fun m => m.target = b.nodeId) = (run a ops).sent) (trs : List InTransfer)
    (ht : Told d b.targetNode all trs) (hnf : flushes (run b opsB).trace = 0)
    (hd : ((delivered (run b opsB).trace).filter fun m => m.src = b.targetNode).map Except.ok = trs.map (heard d)) :
    returned (run b opsB).trace ++ (run b opsB).buf = written ops := by
  rw [← (C128_messages a ha ops hs).2 hr, (C46_fifo b hb.1 hb.2 opsB).1, received_noflush _ _ _ hnf, ← hall]
  have hsplit : (delivered (run b opsB).trace).filter (fun m => m.src = b.targetNode ∧ m.target = b.nodeId) =
      ((delivered (run b opsB).trace).filter fun m => m.src = b.targetNode).filter fun m => m.target = b.nodeId := by
    rw [List.filter_filter]
    exact List.filter_congr fun m _ => by simp [Bool.and_comm]
  rw [hsplit]
  generalize (delivered (run b opsB).trace).filter _ = l at hd
  clear hall hsplit
  induction ht generalizing l with
  | nil =>
    cases l with
    | nil => rfl
    | cons _ _ => cases hd
  | cons m tr ms trs h1 h2 h3 ih =>
    cases l with
    | nil => cases hd
    | cons x l =>
      simp only [List.map_cons, List.cons.injEq, heard_eq d m tr h2, Except.ok.injEq] at hd
      obtain ⟨rfl, hd⟩ := hd
      by_cases hm : m.target = b.nodeId
      · rw [List.filter_cons_of_pos (by simpa using hm), List.filter_cons_of_pos (by simpa using hm), List.flatMap_cons, List.flatMap_cons, ih l hd]
      · rw [List.filter_cons_of_neg (by simpa using hm), List.filter_cons_of_neg (by simpa using hm), ih l hd]

/-! ## The hypotheses can be met -/

def samplePort : Port := { targetNode := 20, dev := -1, lock := true, nodeId := 10, txs := [none, some .driverError, none], clock := [1, 2] }
def sampleOps : List Op := [.write [1, 2], .setBaudrate 57600, .write [3]]

example : Fresh samplePort ∧ Settings samplePort sampleOps :=
  ⟨⟨rfl, rfl, rfl⟩, by decide, by decide, by decide, by intro b hb; simp [sampleOps] at hb; omega⟩

example : (run samplePort sampleOps).sent = [⟨20, -1, true, 230400, [1, 2]⟩, ⟨20, -1, true, 57600, [3]⟩] := by decide +kernel

example : Returns samplePort sampleOps := by
  intro pre b post h
  match pre with
  | [] => simp [sampleOps] at h; rw [← h.1]; exact ⟨2, by decide +kernel⟩
  | [_] => simp [sampleOps] at h
  | [x, y] => simp [sampleOps] at h; obtain ⟨rfl, rfl, rfl, -⟩ := h; exact ⟨1, by decide +kernel⟩
  | _ :: _ :: _ :: _ => simp [sampleOps] at h

/-- The message of the first write. -/
example : Tells {} ⟨20, -1, true, 230400, [1, 2]⟩ (.comp none [.comp none [.prim (formatBin 8 2)], .prim (formatBin 7 20), .prim (formatBin 5 31),
    .prim (formatBin 4 1), .prim (formatBin 24 230400), .arr [.prim (formatBin 8 1), .prim (formatBin 8 2)]]) :=
  ⟨_, _, _, _, _, _, _, _, rfl, by decide +kernel, by decide +kernel, by decide +kernel, by decide +kernel, by decide +kernel, by decide +kernel⟩

/-- The other port, which gets the messages and one of another node. -/
def sampleOther : Port :=
  { targetNode := 10, dev := 0, nodeId := 20, spins := [⟨[⟨10, 20, [1, 2]⟩, ⟨30, 20, [9]⟩], none⟩, ⟨[⟨10, 20, [3]⟩], none⟩], txs := [none] }

example : returned (run sampleOther [.read 1, .spin]).trace ++ (run sampleOther [.read 1, .spin]).buf = written sampleOps ∧
    returned (run sampleOther [.read 1, .spin]).trace = [1] ∧ flushes (run sampleOther [.read 1, .spin]).trace = 0 ∧
    (delivered (run sampleOther [.read 1, .spin]).trace).filter (fun m => m.src = 10) = [⟨10, 20, [1, 2]⟩, ⟨10, 20, [3]⟩] := by decide +kernel

/-- The size of the message that the layout stands for: 48 bits, the length, and at most 120 bytes. -/
theorem C128_size (d : Shape) : minBitlen d.ty = 48 ∧ maxBitlen d.ty = 48 + 7 + 120 * 8 := by
  have h : bitLength 120 = 7 := by decide +kernel
  simp [Shape.ty, minBitlen, minBitlens, maxBitlen, maxBitlens, h]

end SerialWire
end Dronecan
