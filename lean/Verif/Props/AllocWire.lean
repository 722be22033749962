import Verif.Model.AllocWire
import Verif.Props.Allocator
import Verif.Props.FileWire
import Verif.Proofs.Decode2

/-!
# Dynamic node ID allocation over the bus (C126)
-/

namespace Dronecan
namespace AllocWire
open Alloc TextField

/-! ## Specification -/

/-- The message says: this node ID, this flag, these bytes. -/
def Tells (d : Shape) (m : Allocation) (v : Val) : Prop := ∃ a n f items,
  v = .comp a [.prim n, .prim f, .arr items] ∧ getInt ⟨.unsigned, 7, d.nodeTrunc⟩ n = some (m.nodeId : Int) ∧
    getInt ⟨.boolean, 1, d.flagTrunc⟩ f = some (if m.first then 1 else 0) ∧
    TextField.toBytes ⟨.unsigned, 8, d.uidTrunc⟩ items = .ok (m.uid.map (·.toNat))

/-- The frame in which an anonymous device sends a message, byte by byte: the first byte holds the node ID and the flag, then comes the part of the
unique ID, then the tail byte. -/
def deviceFrame (prio disc dtid tid : Nat) (m : Allocation) : Frame where
  id := prio * 2 ^ 24 + disc * 2 ^ 10 + dtid * 2 ^ 8
  bytes := BitVec.ofNat 8 (m.nodeId * 2 + m.first.toNat) :: m.uid ++ [BitVec.ofNat 8 (0xC0 + tid)]

/-- The three requests of a device with a unique ID that would like to have the node ID `want`. -/
def part1 (uid : List Byte) (want : Nat) : Allocation := ⟨true, want, uid.take 6⟩
def part2 (uid : List Byte) (want : Nat) : Allocation := ⟨false, want, (uid.drop 6).take 6⟩
def part3 (uid : List Byte) (want : Nat) : Allocation := ⟨false, want, uid.drop 12⟩

/-- The node IDs in the table are such. -/
def Sane (t : Table) : Prop := ∀ r ∈ t, r.nodeId < 128

/-- A device that sends its requests in time gets a node ID if one is free in the range. -/
def C126_statement : Prop := ∀ (d : Shape) (env : AEnv) (s : Server) (uid : List Byte) (want : Nat) (v1 v2 v3 : Val) (h1 h2 h3 : Header)
  (t1 t2 t3 now1 now2 now3 wall : Int) (i : Nat), uid.length = 16 → Sane s.table → env.hi < 128 → env.lo ≤ i → i ≤ env.hi → s.table.isKnown i = false →
  Tells d (part1 uid want) v1 → Tells d (part2 uid want) v2 → Tells d (part3 uid want) v3 → h1.source = 0 → h2.source = 0 → h3.source = 0 →
  now2 - t1 ≤ env.timeout → now3 - t2 ≤ env.timeout →
  ∃ j, j ≠ 0 ∧ (⟨false, j, uid⟩ : Allocation) ∈ (next d env true now3 wall ⟨h3, 0, some t3, v3, false⟩
    (next d env true now2 wall ⟨h2, 0, some t2, v2, false⟩ (next d env true now1 wall ⟨h1, 0, some t1, v1, false⟩ s))).sent.drop s.sent.length

/-! ## Lemmas -/

theorem set7 (t : Bool) : ∀ n : Fin 128, setInt ⟨.unsigned, 7, t⟩ (n.val : Int) = .ok (formatBin 7 n.val) ∧
    getInt ⟨.unsigned, 7, t⟩ (formatBin 7 n.val) = some (n.val : Int) ∧ (formatBin 7 n.val).length = 7 ∧
    leFromBeBits (formatBin 7 n.val) 7 = .ok (formatBin 7 n.val) ∧
    ∀ b : Bool, formatBin 7 n.val ++ [b] = formatBin 8 (BitVec.ofNat 8 (n.val * 2 + b.toNat)).toNat := by
  cases t <;> decide +kernel

theorem set8 (t : Bool) : ∀ b : Fin 256, item ⟨.unsigned, 8, t⟩ b.val = .prim (formatBin 8 b.val) ∧ (formatBin 8 b.val).length = 8 ∧
    leFromBeBits (formatBin 8 b.val) 8 = .ok (formatBin 8 b.val) := by
  cases t <;> decide +kernel

/-- The message object. -/
def valOf (m : Allocation) : Val :=
  .comp none [.prim (formatBin 7 m.nodeId), .prim [m.first], .arr (m.uid.map fun b => .prim (formatBin 8 b.toNat))]

theorem items_eq (t : Bool) (uid : List Byte) :
    (uid.map (·.toNat)).map (item ⟨.unsigned, 8, t⟩) = uid.map fun b => Val.prim (formatBin 8 b.toNat) := by
  rw [List.map_map]
  exact List.map_congr_left fun b _ => (set8 t ⟨b.toNat, b.isLt⟩).1

theorem valOf_tells (d : Shape) (m : Allocation) (h : m.nodeId < 128) : Tells d m (valOf m) := by
  refine ⟨none, _, _, _, rfl, (set7 d.nodeTrunc ⟨m.nodeId, h⟩).2.1, ?_, ?_⟩
  · cases m.first <;> rfl
  · rw [← items_eq d.uidTrunc]
    exact FileWire.toBytes_data d.uidTrunc m.uid

theorem message_tells (d : Shape) (m : Allocation) (v : Val) (h : Tells d m v) : message d v = .ok m := by
  obtain ⟨a, n, f, items, rfl, h1, h2, h3⟩ := h
  have hu : (m.uid.map (·.toNat)).map (BitVec.ofNat 8) = m.uid := by
    rw [List.map_map]
    conv => rhs; rw [← List.map_id m.uid]
    exact List.map_congr_left fun b _ => by simp
  simp only [message, h1, h2, h3, Option.getD_some, Int.toNat_natCast, hu]
  cases m with
  | mk first nodeId uid => cases first <;> rfl

theorem valOf_hasTy (d : Shape) (m : Allocation) (h : m.nodeId < 128) : hasTy d.ty (valOf m) = true := by
  have h7 := (set7 false ⟨m.nodeId, h⟩).2.2.1
  simp only at h7
  simp only [Shape.ty, valOf, hasTy, hasTys, Bool.and_true, Bool.and_eq_true, h7, List.all_eq_true, List.length_singleton, beq_self_eq_true,
    Bool.true_and, true_and, Bool.or_true]
  intro x hx
  obtain ⟨b, -, rfl⟩ := List.mem_map.1 hx
  have h8 := (set8 false ⟨b.toNat, b.isLt⟩).2.1
  simp only at h8
  simp only [hasTy, h8, beq_self_eq_true]

theorem valOf_canon (d : Shape) (m : Allocation) (hl : m.uid.length ≤ 16) : canon d.ty (valOf m) = valOf m := by
  simp only [Shape.ty, valOf, canon, canonFields, if_true]
  rw [List.take_of_length_le (by simpa using hl), List.map_id']

theorem wf_ty (d : Shape) : WfTy d.ty = true := by
  simp [Shape.ty, WfTy, WfTys]

theorem valOf_pack (d : Shape) (m : Allocation) (h : m.nodeId < 128) (hl : m.uid.length ≤ 16) :
    pack d.ty (valOf m) true = .ok (bitsFromBytes (BitVec.ofNat 8 (m.nodeId * 2 + m.first.toNat) :: m.uid)) := by
  have hs : ∀ uid : List Byte, packSeq (fun v _ => pack (.prim ⟨.unsigned, 8, d.uidTrunc⟩) v false) true
      (uid.map fun b => .prim (formatBin 8 b.toNat)) = .ok (bitsFromBytes uid) := by
    intro uid
    induction uid with
    | nil => rfl
    | cons b uid ih =>
      have hb := set8 d.uidTrunc ⟨b.toNat, b.isLt⟩
      have hne : formatBin 8 b.toNat ≠ [] := by intro e; have := hb.2.1; rw [e] at this; simp at this
      have hp : pack (.prim ⟨.unsigned, 8, d.uidTrunc⟩) (.prim (formatBin 8 b.toNat)) false = .ok (formatBin 8 b.toNat) := by
        simp only [pack]
        rw [if_pos hne]
        exact hb.2.2
      cases uid with
      | nil =>
        simp only [List.map_cons, List.map_nil, packSeq, hp]
        simp [bitsFromBytes]
      | cons c uid =>
        rw [List.map_cons] at ih
        rw [List.map_cons, List.map_cons, packSeq, ih, hp]
        · rfl
        · simp
  obtain ⟨-, -, h3, h4, h5⟩ := set7 d.nodeTrunc ⟨m.nodeId, h⟩
  have hne : formatBin 7 m.nodeId ≠ [] := by intro e; rw [show (⟨m.nodeId, h⟩ : Fin 128).val = m.nodeId from rfl, e] at h3; simp at h3
  have hlt : (m.uid.map fun b => Val.prim (formatBin 8 b.toNat)).take 16 = m.uid.map fun b => Val.prim (formatBin 8 b.toNat) :=
    List.take_of_length_le (by simpa using hl)
  have hb : leFromBeBits [m.first] 1 = .ok [m.first] := by cases m.first <;> decide
  have hn : minBitlen (.prim ⟨.unsigned, 8, d.uidTrunc⟩) ≥ 8 := by simp [minBitlen]
  have hpack : pack d.ty (valOf m) true = .ok (formatBin 7 m.nodeId ++ ([m.first] ++ bitsFromBytes m.uid)) := by
    simp only [Shape.ty, valOf, pack, packFields, hlt, if_pos hne, h4, hb, hs]
    simp [hn, hs, bind, Except.bind, pure, Except.pure]
  rw [hpack]
  congr 1
  rw [← List.append_assoc, h5 m.first]
  simp only [bitsFromBytes, List.flatMap_cons]

theorem response_eq (d : Shape) (m : Allocation) (h : m.nodeId < 128) (hl : m.uid.length ≤ 16) : response d m = .ok (valOf m) := by
  have hset : arrExec (valElem (.prim ⟨.unsigned, 8, d.uidTrunc⟩)) 16 (.fromBytes (m.uid.map fun b => Elt.int (b.toNat : Int))) [] =
      (.ok (), m.uid.map fun b => Val.prim (formatBin 8 b.toNat)) := by
    simp only [arrExec, arrAssignAll, PyM.bind_run, arrDelSlice_all]
    rw [arrExtend_all (valElem (.prim ⟨.unsigned, 8, d.uidTrunc⟩)) 16
      (fun v => match v with | .int x => item ⟨.unsigned, 8, d.uidTrunc⟩ x.toNat | .obj v => v) _
      (by
        intro v hv
        obtain ⟨b, -, rfl⟩ := List.mem_map.1 hv
        exact item_eq _ ⟨rfl, .inl rfl⟩ b.toNat) [] (Nat.zero_le _)]
    have := items_eq d.uidTrunc m.uid
    simp only [List.map_map] at this
    simp [hl, List.take_of_length_le]
    simpa using this
  have h1 := (set7 d.nodeTrunc ⟨m.nodeId, h⟩).1
  have hf : setInt ⟨.boolean, 1, d.flagTrunc⟩ (if m.first then 1 else 0) = .ok [m.first] := by cases m.first <;> rfl
  simp [response, FileWire.build, access, execOp, touch, assignField, newVal, newVals, Shape.ty, h1, hf, hset, bind, Except.bind, pure, Except.pure, valOf]

/-! ## What the server broadcasts -/

/-- The server without failing broadcasts. -/
def calm (env : AEnv) : AEnv := { env with raises := fun _ => none }

theorem next_eq (d : Shape) (env : AEnv) (disc : Bool) (now wall : Int) (tr : InTransfer) (s : Server) (m : Allocation) (v : Val)
    (hv : tr.payload = v) (h : Tells d m v) :
    next d env disc now wall tr s = step (calm env) s (.alloc ⟨tr.header.source, tr.ts.getD 0, m⟩ disc now wall) := by
  simp only [next, hv, message_tells d m v h, step, calm]

theorem chooseId_lt (env : AEnv) (t : Table) (uid : List Byte) (req i : Nat) (ht : Sane t) (hh : env.hi < 128)
    (h : chooseId env t uid req = some i) : i < 128 := by
  have orE : ∀ (a b : Option Nat) (k : Nat), orElse a b = some k → a = some k ∨ b = some k := by
    intro a b k hk
    match a with
    | none => exact .inr hk
    | some 0 => exact .inr hk
    | some (n + 1) => exact .inl hk
  have hknown : ∀ k, t.getNodeId env.choose uid = some k → k < 128 := by
    intro k hk
    simp only [Table.getNodeId, Option.map_eq_some_iff] at hk
    obtain ⟨r, hr, rfl⟩ := hk
    have h1 := List.mem_of_getElem? hr
    exact ht r (List.mem_filter.1 (List.mem_filter.1 h1).1).1
  have hup : ∀ a k, firstFree t (rangeUp a env.hi) = some k → k < 128 := by
    intro a k hk
    have := List.mem_of_find?_eq_some hk
    simp only [rangeUp, List.mem_map, List.mem_range] at this
    obtain ⟨x, hx, rfl⟩ := this
    omega
  have hdown : ∀ k, firstFree t (rangeDown env.hi env.lo) = some k → k < 128 := by
    intro k hk
    have := List.mem_of_find?_eq_some hk
    simp only [rangeDown, List.mem_map, List.mem_range] at this
    obtain ⟨x, hx, rfl⟩ := this
    omega
  unfold chooseId at h
  rcases orE _ _ _ h with h | h
  · rcases orE _ _ _ h with h | h
    · split at h
      · rcases orE _ _ _ h with h | h
        · exact hknown _ h
        · exact hup _ _ h
      · exact hknown _ h
    · exact hdown _ h
  · cases h

/-- The server broadcasts at most one message in answer to one, which can be sent. -/
theorem step_sends (env : AEnv) (rx : Rx) (disc : Bool) (now wall : Int) (s : Server) (hs : Sane s.table) (hh : env.hi < 128)
    (hu : rx.msg.uid.length ≤ 16) :
    Sane (step (calm env) s (.alloc rx disc now wall)).table ∧
    ((step (calm env) s (.alloc rx disc now wall)).sent = s.sent ∨
      ∃ m, (step (calm env) s (.alloc rx disc now wall)).sent = s.sent ++ [m] ∧ m.nodeId < 128 ∧ m.uid.length ≤ 16) := by
  simp only [step, onAllocation]
  by_cases h1 : rx.src ≠ 0
  · rw [if_pos h1]
    exact ⟨hs, .inl rfl⟩
  rw [if_neg h1]
  cases disc with
  | false =>
    simp only [Bool.not_false, if_true, PyM.pure, true_or, and_true]
    exact hs
  | true =>
    simp only [Bool.not_true, Bool.false_eq_true, if_false, PyM.bind_run, PyM.modify_run, PyM.get_run]
    generalize hq : (if 0 < s.query.length ∧ (calm env).timeout < now - s.queryTs then { s with query := [] } else s) = s1
    have hs1 : s1.table = s.table ∧ s1.sent = s.sent := by
      rw [← hq]; split <;> exact ⟨rfl, rfl⟩
    cases hf : rx.msg.first with
    | true =>
      simp only [if_true, PyM.bind_run, PyM.modify_run, Alloc.broadcast, calm]
      refine ⟨by rw [hs1.1]; exact hs, .inr ⟨⟨false, 0, rx.msg.uid⟩, by rw [hs1.2], by show 0 < 128; decide, hu⟩⟩
    | false =>
      simp only [Bool.false_eq_true, if_false]
      by_cases h2 : rx.msg.uid.length = 6 ∧ s1.query.length = 6
      · rw [if_pos h2]
        simp only [PyM.bind_run, PyM.modify_run, Alloc.broadcast, calm]
        refine ⟨by rw [hs1.1]; exact hs, .inr ⟨⟨false, 0, s1.query ++ rx.msg.uid⟩, by rw [hs1.2], by show 0 < 128; decide, ?_⟩⟩
        simp only [List.length_append]
        omega
      rw [if_neg h2]
      by_cases h3 : rx.msg.uid.length = 4 ∧ s1.query.length = 12
      · rw [if_pos h3]
        simp only [thirdPhase, PyM.bind_run, PyM.modify_run, PyM.get_run]
        cases hc : chooseId (calm env) s1.table (s1.query ++ rx.msg.uid) rx.msg.nodeId with
        | none =>
          simp only [PyM.pure]
          exact ⟨by rw [hs1.1]; exact hs, .inl hs1.2⟩
        | some i =>
          have hi := chooseId_lt (calm env) _ _ _ i (by rw [hs1.1]; exact hs) hh hc
          simp only [PyM.bind_run, PyM.modify_run, Alloc.broadcast, calm]
          refine ⟨?_, .inr ⟨⟨false, i, s1.query ++ rx.msg.uid⟩, by rw [hs1.2], hi, ?_⟩⟩
          · intro r hr
            simp only [Table.set, List.mem_append, List.mem_filter, List.mem_singleton, hs1.1] at hr
            rcases hr with hr | rfl
            · exact hs r hr.1
            · exact hi
          · simp only [List.length_append]
            omega
      · rw [if_neg h3]
        simp only [PyM.pure]
        exact ⟨by rw [hs1.1]; exact hs, .inl hs1.2⟩

/-! ## Theorems -/

section Bus
open Node EndToEnd Dispatch Requests Rpc Timers

/-- The transfer of which it is the frame. -/
def deviceTransfer (dt : DataType) (prio disc tid : Nat) (m : Allocation) : OutTransfer where
  header := { prio, dtid := dt.dtid, discriminator := some disc }
  tid := tid
  payload := BitVec.ofNat 8 (m.nodeId * 2 + m.first.toNat) :: m.uid
  crc := dt.baseCrc

/-- The frame of a device is understood by every node. -/
theorem C126_heard (d : Shape) (dt : DataType) (hmsg : dt.msg = d.ty) (hid : dt.dtid < 4) (prio disc tid : Nat) (hp : prio < 32) (hd : disc < 2 ^ 14)
    (ht : tid < 32) (m : Allocation) (hm : m.nodeId < 128) (hu : m.uid.length ≤ 6) :
    ∃ v, Tells d m v ∧ OnAir dt false false [deviceFrame prio disc dt.dtid tid m] (fun ts =>
      arrived { prio, dtid := dt.dtid, discriminator := some disc } tid ts v false) := by
  have hpl : dt.payloadTy false false = d.ty := hmsg
  refine ⟨valOf m, valOf_tells d m hm, ?_⟩
  have hmk : mkTransfer dt { prio, dtid := dt.dtid, discriminator := some disc } tid (valOf m) false =
      .ok (deviceTransfer dt prio disc tid m) := by
    simp only [mkTransfer, hpl, Bool.not_false, valOf_pack d m hm (by omega), bind, Except.bind, pure, Except.pure, bytesFromBits_bitsFromBytes,
      deviceTransfer]
  have hv : ValidHeader { prio, dtid := dt.dtid, discriminator := some disc } := .anonymous prio dt.dtid disc hp hid hd
  have hfr : toFrames (deviceTransfer dt prio disc tid m) = .ok (deviceTransfer dt prio disc tid m, [deviceFrame prio disc dt.dtid tid m]) := by
    have hlen : ¬ (BitVec.ofNat 8 (m.nodeId * 2 + m.first.toNat) :: m.uid).length > frameCap false := by
      simp only [List.length_cons, frameCap]; simp; omega
    have htail : tailByte true true 0x20#8 tid = BitVec.ofNat 8 (0xC0 + tid) := by
      have : ∀ t : Fin 32, tailByte true true 0x20#8 t.val = BitVec.ofNat 8 (0xC0 + t.val) := by decide +kernel
      exact this ⟨tid, ht⟩
    have hle : (BitVec.ofNat 8 (m.nodeId * 2 + m.first.toNat) :: m.uid).length ≤ frameCap false := by omega
    simp only [toFrames, deviceTransfer, padPayload, Bool.false_eq_true, false_and, if_false, if_neg hlen, (C12_header_roundtrip _ hv).1, bind, Except.bind, pure,
      Except.pure]
    congr 2
    rw [frameLoop]
    simp only [hle, decide_true, htail]
    rw [if_pos (List.drop_eq_nil_iff.2 hle), List.take_of_length_le hle]
    simp [deviceFrame, idLayout]
    omega
  have := onAir dt { prio, dtid := dt.dtid, discriminator := some disc } tid (valOf m) false _ _ _ hmk hfr hv
    (by rw [hpl]; exact wf_ty d) (by rw [hpl]; exact valOf_hasTy d m hm)
  simp only [hpl, valOf_canon d m (show m.uid.length ≤ 16 by omega)] at this
  exact this

/-- A message comes to the handler of the server, and the call returns: if the server answers, frames were handed to the driver that tell every node the
answer; otherwise nothing was sent. -/
theorem C126_answer (d : Shape) (dt : DataType) (hmsg : dt.msg = d.ty) (hid : dt.dtid < 65536) (env : AEnv) (hh : env.hi < 128) (disc : Bool)
    (now wall : Int) (srv : Server) (hs : Sane srv.table) (tr : InTransfer) (m : Allocation) (hm : Tells d m tr.payload) (hu : m.uid.length ≤ 16)
    (senv : Env) (h : HEntry) (s s' : Node) (v : Nat) (hb : h.builtin = false) (hsv : isService h.type = false)
    (hscript : senv.script s (.handler h.uid tr) = script d dt env disc now wall srv tr) (hv : s.nodeId = some (v + 1)) (hv' : v + 1 < 128)
    (hok : callHandler senv h tr s = (.ok (), s')) :
    ((next d env disc now wall tr srv).sent = srv.sent ∧ s'.trace = s.trace ++ [.called (.handler h.uid tr)]) ∨
    ∃ a w, (next d env disc now wall tr srv).sent = srv.sent ++ [a] ∧ Tells d a w ∧
      ∃ mid frames tid fd, s'.trace = s.trace ++ mid ++ frames.map (.frame s.nextNum) ∧
        OnAir dt false fd frames (fun ts => arrived { prio := 20, dtid := dt.dtid, source := v + 1 } tid ts w fd) := by
  have hpl : dt.payloadTy false false = d.ty := hmsg
  have hmessage := message_tells d m _ hm
  have hnext := next_eq d env disc now wall tr srv m _ rfl hm
  obtain ⟨-, hsend⟩ := step_sends env ⟨tr.header.source, tr.ts.getD 0, m⟩ disc now wall srv hs hh hu
  rw [← hnext] at hsend
  simp only [callHandler, hb, Bool.false_eq_true, if_false, hsv, Bool.false_and, PyM.bind_run, runScript, PyM.get, log, PyM.modify, hscript, script,
    hmessage, PyM.tryCatch, runActs] at hok
  rcases hsend with he | ⟨a, he, ha1, ha2⟩
  · left
    refine ⟨he, ?_⟩
    rw [he, List.drop_length] at hok
    simp only [List.map_nil, PyM.forEach, PyM.pure] at hok
    injection hok with _ hok
    exact hok ▸ rfl
  · right
    refine ⟨a, valOf a, he, valOf_tells d a ha1, ?_⟩
    rw [he, List.drop_left] at hok
    simp only [List.map_cons, List.map_nil, response_eq d a ha1 ha2, PyM.forEach, Bool.false_eq_true, if_false, Node.exec, PyM.bind_run, PyM.pure] at hok
    generalize hbr : Node.broadcast senv (hookCall senv) ⟨dt, valOf a⟩ none none { s with trace := s.trace ++ [.called (.handler h.uid tr)] } = r at hok
    obtain ⟨r, s1⟩ := r
    cases r with
    | error e => simp [PyM.raise] at hok
    | ok u =>
      simp only at hok
      injection hok with _ hok
      subst hok
      obtain ⟨mid, frames, h1, h2⟩ := C115_broadcast (env := senv) ⟨dt, valOf a⟩ none none
        { s with trace := s.trace ++ [.called (.handler h.uid tr)] } s1 v hv hv' (by decide) hid
        (by simp only [hpl]; exact wf_ty d) (by simp only [hpl]; exact valOf_hasTy d a ha1) hbr
      simp only [hpl, valOf_canon d a ha2] at h2
      exact ⟨.called (.handler h.uid tr) :: mid, frames, _, _, by rw [h1]; simp, h2⟩

/-- What is raised within the handler, by a message without a meaning or by a broadcast, leaves it: it catches nothing. -/
theorem C126_catches_nothing (d : Shape) (dt : DataType) (env : AEnv) (disc : Bool) (now wall : Int) (srv : Server) (tr : InTransfer) (x : Cmd × Bool)
    (h : x ∈ (script d dt env disc now wall srv tr).acts) : x.2 = false := by
  simp only [script] at h
  split at h
  · simp at h
    rw [h]
  · obtain ⟨m, -, hm⟩ := List.mem_map.1 h
    rw [← hm]
    split <;> rfl

end Bus

/-- It is false: the lowest node ID of the range is never given to a device that does not ask for it. -/
theorem C126_counterexample : ¬ C126_statement := by
  intro h
  obtain ⟨j, -, hj⟩ := h {} { lo := 1, hi := 1, timeout := 500 } {} (List.replicate 16 7) 0 (valOf (part1 (List.replicate 16 7) 0))
    (valOf (part2 (List.replicate 16 7) 0)) (valOf (part3 (List.replicate 16 7) 0)) {} {} {} 0 1 2 0 1 2 0 1 (by decide) (fun r hr => nomatch hr)
    (by decide) (by decide) (by decide) (by decide) (valOf_tells _ _ (by decide)) (valOf_tells _ _ (by decide)) (valOf_tells _ _ (by decide))
    rfl rfl rfl (by decide) (by decide)
  have e : (next {} { lo := 1, hi := 1, timeout := 500 } true 2 0 ⟨{}, 0, some 2, valOf (part3 (List.replicate 16 7) 0), false⟩
    (next {} { lo := 1, hi := 1, timeout := 500 } true 1 0 ⟨{}, 0, some 1, valOf (part2 (List.replicate 16 7) 0), false⟩
    (next {} { lo := 1, hi := 1, timeout := 500 } true 0 0 ⟨{}, 0, some 0, valOf (part1 (List.replicate 16 7) 0), false⟩ {}))).sent =
      [⟨false, 0, List.replicate 6 7⟩, ⟨false, 0, List.replicate 12 7⟩] := by decide +kernel
  rw [e] at hj
  simp only [List.length_nil, List.drop_zero, List.mem_cons, Allocation.mk.injEq, List.not_mem_nil, or_false] at hj
  rcases hj with ⟨-, -, hj⟩ | ⟨-, -, hj⟩ <;> exact absurd hj (by decide)

/-- If one is free above the lowest, or one that is not below the wanted one and below the highest, the server answers the three requests, the last one
with a node ID: one that the table does not know, or that of the device. -/
theorem C126_partial (d : Shape) (env : AEnv) (hh : env.hi < 128) (s : Server) (hs : Sane s.table) (uid : List Byte) (hu : uid.length = 16) (want : Nat)
    (tr1 tr2 tr3 : InTransfer) (h1 : Tells d (part1 uid want) tr1.payload) (h2 : Tells d (part2 uid want) tr2.payload)
    (h3 : Tells d (part3 uid want) tr3.payload) (hs1 : tr1.header.source = 0) (hs2 : tr2.header.source = 0) (hs3 : tr3.header.source = 0)
    (now1 now2 now3 wall1 wall2 wall3 : Int) (ht2 : now2 - tr1.ts.getD 0 ≤ env.timeout) (ht3 : now3 - tr2.ts.getD 0 ≤ env.timeout) (i : Nat)
    (hi : s.table.isKnown i = false) (hr : env.lo < i ∧ i ≤ env.hi ∨ 0 < want ∧ want ≤ i ∧ i < env.hi) :
    ∃ j, 1 ≤ j ∧ j < 128 ∧ (s.table.isKnown j = false ∨ ∃ r ∈ s.table, r.nodeId = j ∧ r.uid = some uid) ∧
      (next d env true now1 wall1 tr1 s).sent = s.sent ++ [⟨false, 0, uid.take 6⟩] ∧
      (next d env true now2 wall2 tr2 (next d env true now1 wall1 tr1 s)).sent =
        (next d env true now1 wall1 tr1 s).sent ++ [⟨false, 0, uid.take 12⟩] ∧
      (next d env true now3 wall3 tr3 (next d env true now2 wall2 tr2 (next d env true now1 wall1 tr1 s))).sent =
        (next d env true now2 wall2 tr2 (next d env true now1 wall1 tr1 s)).sent ++ [⟨false, j, uid⟩] := by
  have hcalm : ∀ l, (calm env).raises l = none := fun _ => rfl
  have hq : uid.take 6 ++ (uid.drop 6).take 6 = uid.take 12 := by rw [← List.take_add]
  have hq' : uid.take 12 ++ uid.drop 12 = uid := List.take_append_drop 12 uid
  have e1 : next d env true now1 wall1 tr1 s =
      { s with
        query := uid.take 6
        queryTs := tr1.ts.getD 0
        sent := s.sent ++ [⟨false, 0, uid.take 6⟩] } := by
    rw [next_eq d env true now1 wall1 tr1 s _ _ rfl h1]
    simp only [step, onAllocation, hs1, PyM.bind_run, PyM.modify_run, PyM.get_run, part1]
    simp only [ne_eq, not_true, if_false, Bool.not_true, Bool.false_eq_true, if_true, PyM.bind_run, PyM.modify_run, PyM.get_run, Alloc.broadcast, hcalm]
    by_cases hc : 0 < s.query.length ∧ (calm env).timeout < now1 - s.queryTs
    · simp only [if_pos hc]
    · simp only [if_neg hc]
  have e2 : ∀ s1 : Server, s1.query = uid.take 6 → s1.queryTs = tr1.ts.getD 0 → next d env true now2 wall2 tr2 s1 =
      { s1 with
        query := uid.take 12
        queryTs := tr2.ts.getD 0
        sent := s1.sent ++ [⟨false, 0, uid.take 12⟩] } := by
    intro s1 hq1 hqt
    have hn : ¬ (0 < s1.query.length ∧ (calm env).timeout < now2 - s1.queryTs) := by
      have : (calm env).timeout = env.timeout := rfl
      rw [hqt]; omega
    have hl6 : s1.query.length = 6 := by rw [hq1, List.length_take]; omega
    have hl : ((uid.drop 6).take 6).length = 6 := by rw [List.length_take, List.length_drop]; omega
    rw [next_eq d env true now2 wall2 tr2 s1 _ _ rfl h2]
    simp only [step, onAllocation, hs2, ne_eq, not_true, if_false, Bool.not_true, Bool.false_eq_true, PyM.bind_run,
      PyM.modify_run, PyM.get_run, part2, if_neg hn]
    simp only [hl6, hl, and_self, if_true, PyM.bind_run, PyM.modify_run, PyM.get_run, Alloc.broadcast, hcalm]
    rw [hq1, hq]
  have e3 : ∀ s2 : Server, s2.query = uid.take 12 → s2.queryTs = tr2.ts.getD 0 → s2.table = s.table →
      ∃ j, 1 ≤ j ∧ j < 128 ∧ (s.table.isKnown j = false ∨ ∃ r ∈ s.table, r.nodeId = j ∧ r.uid = some uid) ∧
      (next d env true now3 wall3 tr3 s2).sent = s2.sent ++ [⟨false, j, uid⟩] := by
    intro s2 hq2 hqt htb
    have hn : ¬ (0 < s2.query.length ∧ (calm env).timeout < now3 - s2.queryTs) := by
      have : (calm env).timeout = env.timeout := rfl
      rw [hqt]; omega
    have hl12 : s2.query.length = 12 := by rw [hq2, List.length_take]; omega
    have hl : (uid.drop 12).length = 4 := by rw [List.length_drop]; omega
    have h46 : ¬ ((4 : Nat) = 6) := by decide
    have hsome : ∃ j, chooseId (calm env) s.table uid want = some j ∧ j ≠ 0 := by
      rcases hr with hr | hr
      · exact chooseId_isSome (calm env) hr.1 hr.2 hi
      · have hf : ∃ k, firstFree s.table (rangeUp want env.hi) = some k ∧ k ≠ 0 := by
          cases hff : firstFree s.table (rangeUp want env.hi) with
          | none =>
            have := List.find?_eq_none.1 hff i (by
              simp only [rangeUp, List.mem_map, List.mem_range]
              exact ⟨i - want, by omega, by omega⟩)
            simp [hi] at this
          | some k =>
            have := List.mem_of_find?_eq_some hff
            simp only [rangeUp, List.mem_map, List.mem_range] at this
            obtain ⟨x, -, rfl⟩ := this
            exact ⟨_, rfl, by omega⟩
        obtain ⟨k, hk, hk0⟩ := hf
        obtain ⟨k', rfl⟩ := Nat.exists_eq_succ_of_ne_zero hk0
        have hk' : firstFree s.table (rangeUp want (calm env).hi) = some (k' + 1) := hk
        simp only [chooseId, hk', if_pos (show want ≠ 0 by omega)]
        match s.table.getNodeId (calm env).choose uid with
        | none => exact ⟨_, rfl, hk0⟩
        | some 0 => exact ⟨_, rfl, hk0⟩
        | some (n + 1) => exact ⟨_, rfl, Nat.succ_ne_zero n⟩
    obtain ⟨j, hj, hj0⟩ := hsome
    have hj1 := chooseId_lt (calm env) s.table uid want j hs hh hj
    have e : (next d env true now3 wall3 tr3 s2).sent = s2.sent ++ [⟨false, j, uid⟩] := by
      rw [next_eq d env true now3 wall3 tr3 s2 _ _ rfl h3]
      simp only [step, onAllocation, hs3, ne_eq, not_true, if_false, Bool.not_true, Bool.false_eq_true, PyM.bind_run,
        PyM.modify_run, PyM.get_run, part3, if_neg hn]
      simp only [hl, hl12, thirdPhase, and_self, if_true, h46, false_and, if_false, PyM.bind_run, PyM.modify_run, PyM.get_run]
      rw [hq2, hq', htb, hj]
      simp only [PyM.bind_run, PyM.modify_run, Alloc.broadcast, hcalm]
    refine ⟨j, by omega, hj1, ?_, e⟩
    rw [next_eq d env true now3 wall3 tr3 s2 _ _ rfl h3] at e
    have := C39_moment (calm env) s2 (.alloc ⟨tr3.header.source, tr3.ts.getD 0, part3 uid want⟩ true now3 wall3) ⟨false, j, uid⟩ (by
      rw [e]
      simp [grants, hj0])
    rw [htb] at this
    exact this
  obtain ⟨j, j1, j2, j3, j4⟩ := e3 (next d env true now2 wall2 tr2 (next d env true now1 wall1 tr1 s))
    (by rw [e1, e2 _ rfl rfl]) (by rw [e1, e2 _ rfl rfl]) (by rw [e1, e2 _ rfl rfl])
  refine ⟨j, j1, j2, j3, by rw [e1], ?_, j4⟩
  rw [e1, e2 _ rfl rfl]

/-- A free node ID is not given exactly in this case: only the lowest one is free, or free ones lie outside the range (or at its upper end, and the
wanted one is higher than it). Then the third request is not answered, and the device has to begin again. -/
theorem C126_refused (d : Shape) (env : AEnv) (s : Server) (tr : InTransfer) (m : Allocation) (hm : Tells d m tr.payload) (now wall : Int)
    (hl : env.lo ≤ env.hi) (hq : s.query.length = 12) (hu : m.uid.length = 4) (hf : m.first = false)
    (hfree : ∀ i, s.table.isKnown i = false → ¬ (env.lo < i ∧ i ≤ env.hi) ∧ ¬ (0 < m.nodeId ∧ m.nodeId ≤ i ∧ i < env.hi))
    (hnew : ∀ r ∈ s.table, r.uid ≠ some (s.query ++ m.uid)) : (next d env true now wall tr s).sent = s.sent := by
  rw [next_eq d env true now wall tr s m _ rfl hm]
  have none1 : ∀ l : List Nat, (∀ i ∈ l, s.table.isKnown i = true) → firstFree s.table l = none := by
    intro l h
    unfold firstFree
    rw [List.find?_eq_none]
    intro i hi
    simp [h i hi]
  have hdown : firstFree s.table (rangeDown env.hi env.lo) = none := by
    apply none1
    intro i hi
    simp only [rangeDown, List.mem_map, List.mem_range] at hi
    obtain ⟨x, hx, rfl⟩ := hi
    cases hk : s.table.isKnown (env.hi - x) with
    | true => rfl
    | false => exact absurd ⟨by omega, by omega⟩ (hfree _ hk).1
  have hup : m.nodeId ≠ 0 → firstFree s.table (rangeUp m.nodeId env.hi) = none := by
    intro h0
    apply none1
    intro i hi
    simp only [rangeUp, List.mem_map, List.mem_range] at hi
    obtain ⟨x, hx, rfl⟩ := hi
    cases hk : s.table.isKnown (m.nodeId + x) with
    | true => rfl
    | false => exact absurd ⟨by omega, by omega, by omega⟩ (hfree _ hk).2
  have hget : s.table.getNodeId env.choose (s.query ++ m.uid) = none := by
    have : s.table.filter (fun r => r.uid == some (s.query ++ m.uid)) = [] := by
      rw [List.filter_eq_nil_iff]
      intro r hr
      simpa using hnew r hr
    simp [Table.getNodeId, this]
  have hc : chooseId (calm env) s.table (s.query ++ m.uid) m.nodeId = none := by
    simp only [chooseId, calm, hget, hdown]
    by_cases h0 : m.nodeId = 0
    · simp [h0, orElse]
    · simp [h0, hup h0, orElse]
  simp only [step, onAllocation]
  split
  · rfl
  · simp only [Bool.not_true, Bool.false_eq_true, if_false, PyM.bind_run, PyM.modify_run, PyM.get_run, hf]
    by_cases ht : 0 < s.query.length ∧ (calm env).timeout < now - s.queryTs
    · simp only [if_pos ht, List.length_nil, hu]
      rfl
    · have h46 : ¬ ((4 : Nat) = 6) := by decide
      simp only [if_neg ht]
      simp only [hu, hq, thirdPhase, h46, false_and, if_false, and_self, if_true, PyM.bind_run, PyM.modify_run, PyM.get_run, hc, PyM.pure]

section Bus
open Node EndToEnd Dispatch Requests Rpc Timers

/-- A call of the handler of the server, in the state `srv`, with a transfer: it returns, and frames were handed to the driver that tell every node
the message `a`. -/
def Answers (d : Shape) (dt : DataType) (env : AEnv) (now wall : Int) (srv : Server) (tr : InTransfer) (a : Allocation) : Prop :=
  ∀ (senv : Env) (h : HEntry) (s s' : Node) (v : Nat), h.builtin = false → isService h.type = false →
    senv.script s (.handler h.uid tr) = script d dt env true now wall srv tr → s.nodeId = some (v + 1) → v + 1 < 128 →
    callHandler senv h tr s = (.ok (), s') →
    ∃ w, Tells d a w ∧ ∃ mid frames tid fd, s'.trace = s.trace ++ mid ++ frames.map (.frame s.nextNum) ∧
      OnAir dt false fd frames (fun ts => arrived { prio := 20, dtid := dt.dtid, source := v + 1 } tid ts w fd)

theorem answers (d : Shape) (dt : DataType) (hmsg : dt.msg = d.ty) (hid : dt.dtid < 65536) (env : AEnv) (hh : env.hi < 128) (now wall : Int)
    (srv : Server) (hs : Sane srv.table) (tr : InTransfer) (m a : Allocation) (hm : Tells d m tr.payload) (hu : m.uid.length ≤ 16)
    (ha : (next d env true now wall tr srv).sent = srv.sent ++ [a]) : Answers d dt env now wall srv tr a := by
  intro senv h s s' v hb hsv hscript hv hv' hok
  rcases C126_answer d dt hmsg hid env hh true now wall srv hs tr m hm hu senv h s s' v hb hsv hscript hv hv' hok with ⟨h1, -⟩ | ⟨b, w, h1, h2, h3⟩
  · rw [h1] at ha
    have := congrArg List.length ha
    simp at this
  · rw [h1] at ha
    have hab : b = a := by simpa using ha
    subst hab
    exact ⟨w, h2, h3⟩

/-- From the device to the device: the frames of its three requests are understood by every node; when the server handles them in time, it answers
each of them with the bytes that it has so far, and the last one with a node ID for this device. -/
theorem C126_exchange (d : Shape) (dt : DataType) (hmsg : dt.msg = d.ty) (hid : dt.dtid < 4) (env : AEnv) (hh : env.hi < 128) (srv : Server)
    (hs : Sane srv.table) (uid : List Byte) (hu : uid.length = 16) (want : Nat) (hw : want < 128) (prio disc1 disc2 disc3 tid1 tid2 tid3 : Nat)
    (hp : prio < 32) (hd : disc1 < 2 ^ 14 ∧ disc2 < 2 ^ 14 ∧ disc3 < 2 ^ 14) (ht : tid1 < 32 ∧ tid2 < 32 ∧ tid3 < 32) (i : Nat)
    (hi : srv.table.isKnown i = false) (hr : env.lo < i ∧ i ≤ env.hi ∨ 0 < want ∧ want ≤ i ∧ i < env.hi) :
    ∃ tr1 tr2 tr3 : Option Int → InTransfer,
      OnAir dt false false [deviceFrame prio disc1 dt.dtid tid1 (part1 uid want)] tr1 ∧
      OnAir dt false false [deviceFrame prio disc2 dt.dtid tid2 (part2 uid want)] tr2 ∧
      OnAir dt false false [deviceFrame prio disc3 dt.dtid tid3 (part3 uid want)] tr3 ∧
      ∀ t1 t2 t3 now1 now2 now3 wall1 wall2 wall3 : Int, now2 - t1 ≤ env.timeout → now3 - t2 ≤ env.timeout →
        Answers d dt env now1 wall1 srv (tr1 (some t1)) ⟨false, 0, uid.take 6⟩ ∧
        Answers d dt env now2 wall2 (next d env true now1 wall1 (tr1 (some t1)) srv) (tr2 (some t2)) ⟨false, 0, uid.take 12⟩ ∧
        ∃ j, 1 ≤ j ∧ j < 128 ∧ (srv.table.isKnown j = false ∨ ∃ r ∈ srv.table, r.nodeId = j ∧ r.uid = some uid) ∧
          Answers d dt env now3 wall3 (next d env true now2 wall2 (tr2 (some t2)) (next d env true now1 wall1 (tr1 (some t1)) srv)) (tr3 (some t3))
            ⟨false, j, uid⟩ := by
  have l1 : (part1 uid want).uid.length ≤ 6 := by simp only [part1, List.length_take]; omega
  have l2 : (part2 uid want).uid.length ≤ 6 := by simp only [part2, List.length_take, List.length_drop]; omega
  have l3 : (part3 uid want).uid.length ≤ 6 := by simp only [part3, List.length_drop]; omega
  obtain ⟨v1, a1, b1⟩ := C126_heard d dt hmsg hid prio disc1 tid1 hp hd.1 ht.1 (part1 uid want) hw l1
  obtain ⟨v2, a2, b2⟩ := C126_heard d dt hmsg hid prio disc2 tid2 hp hd.2.1 ht.2.1 (part2 uid want) hw l2
  obtain ⟨v3, a3, b3⟩ := C126_heard d dt hmsg hid prio disc3 tid3 hp hd.2.2 ht.2.2 (part3 uid want) hw l3
  refine ⟨_, _, _, b1, b2, b3, ?_⟩
  intro t1 t2 t3 now1 now2 now3 wall1 wall2 wall3 ht2 ht3
  obtain ⟨j, j1, j2, j3, s1, s2, s3⟩ := C126_partial d env hh srv hs uid hu want
    (arrived { prio, dtid := dt.dtid, discriminator := some disc1 } tid1 (some t1) v1 false)
    (arrived { prio, dtid := dt.dtid, discriminator := some disc2 } tid2 (some t2) v2 false)
    (arrived { prio, dtid := dt.dtid, discriminator := some disc3 } tid3 (some t3) v3 false)
    a1 a2 a3 rfl rfl rfl now1 now2 now3 wall1 wall2 wall3 ht2 ht3 i hi hr
  have n1 : Sane (next d env true now1 wall1 (arrived { prio, dtid := dt.dtid, discriminator := some disc1 } tid1 (some t1) v1 false) srv).table := by
    rw [next_eq d env true now1 wall1 _ srv _ _ rfl a1]
    exact (step_sends env _ true now1 wall1 srv hs hh (by simp only; omega)).1
  have n2 : Sane (next d env true now2 wall2 (arrived { prio, dtid := dt.dtid, discriminator := some disc2 } tid2 (some t2) v2 false)
      (next d env true now1 wall1 (arrived { prio, dtid := dt.dtid, discriminator := some disc1 } tid1 (some t1) v1 false) srv)).table := by
    rw [next_eq d env true now2 wall2 _ _ _ _ rfl a2]
    exact (step_sends env _ true now2 wall2 _ n1 hh (by simp only; omega)).1
  exact ⟨answers d dt hmsg (by omega) env hh now1 wall1 srv hs _ _ _ a1 (by omega) s1,
    answers d dt hmsg (by omega) env hh now2 wall2 _ n1 _ _ _ a2 (by omega) s2,
    j, j1, j2, j3, answers d dt hmsg (by omega) env hh now3 wall3 _ n2 _ _ _ a3 (by omega) s3⟩

end Bus

/-- Whatever arrives as a message of this type says something: the handler never fails at reading it. -/
theorem C126_understood (d : Shape) (bits : Bits) (tao : Bool) (v : Val) (rest : Bits) (h : unpack d.ty bits tao = .ok (v, rest)) :
    ∃ m, Tells d m v := by
  have hty := hasTy_unpack _ _ _ _ _ h
  cases v with
  | comp a vs =>
    match vs with
    | [.prim n, .prim f, .arr items] =>
      simp only [Shape.ty, hasTy, hasTys, Bool.and_eq_true, Bool.and_true, beq_iff_eq, List.all_eq_true] at hty
      obtain ⟨bytes, h1, -⟩ := TextField.toBytes_total d.uidTrunc items (fun x hx => by simpa [hasTy] using hty.1.2.2 x hx)
      have hn : n ≠ [] := by rintro rfl; simp at hty
      have hf : f ≠ [] := by rintro rfl; simp at hty
      refine ⟨⟨decide (natOfBits f ≠ 0), natOfBits n, bytes⟩, a, n, f, items, rfl, ?_, ?_, h1⟩
      · simp only [getInt, if_neg hn]
      · simp only [getInt, if_neg hf]
        by_cases hz : natOfBits f = 0 <;> simp [hz]
    | [] | [_] | [_, _] | _ :: _ :: _ :: _ :: _ => simp [Shape.ty, hasTy, hasTys] at hty
    | [.void, _, _] | [.arr _, _, _] | [.comp _ _, _, _] => simp [Shape.ty, hasTy, hasTys] at hty
    | [.prim _, .void, _] | [.prim _, .arr _, _] | [.prim _, .comp _ _, _] => simp [Shape.ty, hasTy, hasTys] at hty
    | [.prim _, .prim _, .void] | [.prim _, .prim _, .prim _] | [.prim _, .prim _, .comp _ _] => simp [Shape.ty, hasTy, hasTys] at hty
  | void => simp [Shape.ty, hasTy] at hty
  | prim _ => simp [Shape.ty, hasTy] at hty
  | arr _ => simp [Shape.ty, hasTy] at hty

/-! ## The hypotheses can be met -/

/-- The device `1, 2, …, 16`. -/
def sampleUid : List Byte := [1, 2, 3, 4, 5, 6, 7, 8, 9, 10, 11, 12, 13, 14, 15, 16]

/-- The server's own node and another one are known. -/
def sampleServer : Server := { table := [⟨127, some [9], 0⟩, ⟨125, none, 1⟩] }

def sampleAEnv : AEnv := { timeout := 500000 }

example : Sane sampleServer.table ∧ sampleServer.table.isKnown 124 = false ∧ sampleAEnv.lo < 124 ∧ sampleUid.length = 16 := by
  refine ⟨?_, by decide, by decide, by decide⟩
  intro r hr
  simp only [sampleServer, List.mem_cons, List.not_mem_nil, or_false] at hr
  rcases hr with rfl | rfl <;> decide

example : (deviceFrame 30 77 1 5 (part1 sampleUid 0)).bytes = [1, 1, 2, 3, 4, 5, 6, 0xC5] ∧
    (deviceFrame 30 77 1 5 (part1 sampleUid 0)).id = 0x1E013500 := by decide +kernel

example : (next {} sampleAEnv true 20 0 ⟨{}, 0, some 20, valOf (part3 sampleUid 0), false⟩
    (next {} sampleAEnv true 10 0 ⟨{}, 0, some 10, valOf (part2 sampleUid 0), false⟩
      (next {} sampleAEnv true 0 0 ⟨{}, 0, some 0, valOf (part1 sampleUid 0), false⟩ sampleServer))).sent =
    [⟨false, 0, [1, 2, 3, 4, 5, 6]⟩, ⟨false, 0, [1, 2, 3, 4, 5, 6, 7, 8, 9, 10, 11, 12]⟩, ⟨false, 124, sampleUid⟩] := by decide +kernel

def sampleType : DataType := { dtid := 1, baseCrc := 0x1234, msg := ({} : Shape).ty }

/-- The node of the server. -/
def sampleEnv : Env :=
  { db := fun n service => if n = 1 ∧ service = false then some sampleType else none
    script := fun _ c => match c with
      | .handler _ tr => script {} sampleType sampleAEnv true 0 0 sampleServer tr
      | _ => {}
    statusPayload := fun _ => ⟨sampleType, .comp none []⟩
    infoPayload := fun _ => ⟨sampleType, .comp none []⟩ }

/-- It answers the first request. -/
example : (Node.callHandler sampleEnv { uid := 1, type := some (1, false), sniff := false }
    (arrived { prio := 30, dtid := 1, discriminator := some 77 } 5 (some 0) (valOf (part1 sampleUid 0)) false)
    (Node.init (some 127) 0 none true false (1, true))).1 = .ok () := by decide +kernel

/-- The size of the message that the layout stands for. -/
theorem C126_size (d : Shape) : minBitlen d.ty = 8 ∧ maxBitlen d.ty = 8 + 5 + 16 * 8 := by
  refine ⟨?_, ?_⟩ <;> rfl

end AllocWire
end Dronecan
