import Verif.Props.Network
import Verif.Props.Mcast
import Verif.Props.SocketReceive
import Verif.Props.Mavcan
import Verif.Props.PythonCan
import Verif.Props.Slcan
import Verif.Props.SlcanStream

/-!
# From node to node, through their drivers (C115)

Node A sends a transfer through its driver; the driver of node B gets it among other traffic; B receives the transfer. The theorems of the node
(C91) and of the drivers (C47, C48, C51, C89, C94, C95, C104, C105, C109) are put together.
-/

namespace Dronecan
namespace EndToEnd
open Can Node PyM

/-! ## Specification -/

/-- What the node hands to its driver for a frame: `send(frame.message_id, frame.bytes, extended=True, canfd=canfd)`
(node.py:473, 521, 543). -/
def sentAs (f : Frame) : CANFrame := ⟨f.id, f.bytes, true, f.canfd⟩

/-- What the node reads, apart from the time stamp. -/
def canOf (raw : RawFrame) : CANFrame := ⟨raw.id, raw.data, raw.extended, raw.canfd⟩

/-- The frames that the node has read from its driver. -/
def readsOf (t : List Ev) : List RawFrame := t.filterMap fun
  | .read (some raw) => some raw
  | _ => none

/-- A frame of the same transfer or of another one with the same identifier and transfer ID. -/
def SameKey (f : Frame) (g : CANFrame) : Prop :=
  g.extended = true ∧ g.canId = f.id ∧ g.data.getLast?.map (fun b => b.toNat % 32) = f.bytes.getLast?.map (fun b => b.toNat % 32)

/-- The transfer `tr` as it is handed to a driver: CAN frames within the limits, from which every node understands it. -/
structure OnAir (dt : DataType) (service fd : Bool) (frames : List Frame) (tr : Option Int → InTransfer) : Prop where
  some : frames ≠ []
  id : ∀ f ∈ frames, f.id < 2 ^ 29
  len : ∀ f ∈ frames, f.bytes.length ≤ if fd then 64 else 8
  canfd : ∀ f ∈ frames, f.canfd = fd
  key : ∀ f ∈ frames, ∀ g ∈ frames, SameKey f (sentAs g)
  understood : Understood dt service frames tr

/-- What a driver gets, up to the last frame of a transfer: something for each frame of the transfer, in order, and between them any other things,
except such that are frames with the same identifier and transfer ID. `own f a`: `a` is there because of the frame `f`; `dec`: the frame that
something is. -/
inductive Mixed {α : Type} (own : Frame → α → Prop) (dec : α → Option CANFrame) (k : Frame) : List Frame → List α → Prop
  | last {f : Frame} {a : α} (h : own f a) : Mixed own dec k [f] [a]
  | own {f : Frame} {a : α} {fs : List Frame} {as : List α} (h : own f a) (hs : Mixed own dec k fs as) : Mixed own dec k (f :: fs) (a :: as)
  | other {a : α} {fs : List Frame} {as : List α} (h : ∀ g, dec a = some g → ¬ SameKey k g) (hs : Mixed own dec k fs as) :
      Mixed own dec k fs (a :: as)

/-- Every node whose registry has the data type, whatever its program and history: if it reads these frames from its driver one after the other
then it receives the transfer after the last one, before it reads another frame. The time stamp is that of the first frame of the transfer. -/
def Received (dt : DataType) (service : Bool) (frames : List Frame) (tr : Option Int → InTransfer) (heard : List CANFrame) : Prop :=
  ∀ (env : Env) (ops : List Op) (nid : Option Nat) (t : Int) (iv : Option Int) (ce fd : Bool) (it : Nat × Bool)
    (pre post : List Ev) (raw : RawFrame) (before arrivals : List RawFrame),
    Public ops → env.db dt.dtid service = some dt →
    (run env ops (init nid t iv ce fd it)).trace = pre ++ .read (some raw) :: post →
    readsOf pre ++ [raw] = before ++ arrivals → arrivals.map canOf = heard →
    ∃ first ∈ arrivals, frames.head?.map sentAs = some (canOf first) ∧
      ∃ mid m post', post = mid ++ .received m (tr first.ts) :: post' ∧ readsOf mid = []

/-! ## What is sent -/

theorem key_iff (f : Frame) (raw : RawFrame) : SameKey f (canOf raw) ↔ raw.extended = true ∧ raw.toFrame.key = f.key := by
  have hb : ∀ a b : Byte, (a &&& 0x1F#8 = b &&& 0x1F#8) ↔ a.toNat % 32 = b.toNat % 32 := by
    intro a b
    rw [← BitVec.toNat_inj, BitVec.toNat_and, BitVec.toNat_and]
    have : (0x1F#8).toNat = 2 ^ 5 - 1 := rfl
    rw [this, Nat.and_two_pow_sub_one_eq_mod, Nat.and_two_pow_sub_one_eq_mod]
  simp only [SameKey, canOf, Frame.key, RawFrame.toFrame, Prod.mk.injEq]
  refine and_congr_right fun _ => and_congr ⟨fun h => by exact_mod_cast h, fun h => by exact_mod_cast h⟩ ?_
  cases raw.data.getLast? <;> cases f.bytes.getLast? <;> simp [hb]

theorem onAir (dt : DataType) (hdr : Header) (tid : Nat) (v : Val) (fd : Bool) (t t' : OutTransfer) (frames : List Frame)
    (hmk : mkTransfer dt hdr tid v fd = .ok t) (hfr : toFrames t = .ok (t', frames)) (hv : ValidHeader { hdr with dtid := dt.dtid })
    (hwf : WfTy (dt.payloadTy hdr.service hdr.request) = true) (hty : hasTy (dt.payloadTy hdr.service hdr.request) v = true) :
    OnAir dt hdr.service fd frames
      (fun ts => arrived { hdr with dtid := dt.dtid } tid ts (canon (dt.payloadTy hdr.service hdr.request) v) fd) := by
  have hm : t.header = { hdr with dtid := dt.dtid } ∧ t.canfd = fd := by
    simp only [mkTransfer, bind, Except.bind] at hmk
    split at hmk
    · cases hmk
    · injection hmk with hmk
      subst hmk
      exact ⟨rfl, rfl⟩
  obtain ⟨c1, c2, c3, c4, -⟩ := C13_frame_sequence t t' frames hfr
  obtain ⟨e1, e2, -⟩ := C12_header_roundtrip _ hv
  rw [hm.1, e1] at c3
  have hid : ∀ f ∈ frames, f.id = idLayout { hdr with dtid := dt.dtid } := by
    intro f hf
    have := (c3 f hf).1
    injection this with this
    exact this.symm
  refine ⟨c1, fun f hf => hid f hf ▸ e2, fun f hf => hm.2 ▸ c4 f hf, fun f hf => hm.2 ▸ (c3 f hf).2, ?_, ?_⟩
  · intro f hf g hg
    refine ⟨rfl, ?_, ?_⟩
    · show ((g.id : Nat) : Int) = f.id
      rw [hid f hf, hid g hg]
    · have hl : ∀ f ∈ frames, f.bytes.getLast?.map (fun b => b.toNat % 32) = some (t.tid % 32) := by
        intro f hf
        obtain ⟨i, hi, rfl⟩ := List.getElem_of_mem hf
        obtain ⟨w1, w2, -⟩ := c2 i hi
        rw [← w2, List.getLast?_eq_some_getLast w1]
        simp [Frame.tail, List.getLast?_eq_some_getLast w1]
      exact (hl g hg).trans (hl f hf).symm
  · exact understood dt { hdr with dtid := dt.dtid } tid v fd t t' frames
      (by simpa [mkTransfer] using hmk) hfr hv rfl hwf hty

variable {env : Env}

theorem sent_onAir (n : Nat) (p : Payload) (hdr : Header) (tid : Nat) (fd : Bool) (s s' : Node) (t' : OutTransfer) (hn : n < s.nextNum)
    (hv : ValidHeader { hdr with dtid := p.dt.dtid }) (hwf : WfTy (p.dt.payloadTy hdr.service hdr.request) = true)
    (hty : hasTy (p.dt.payloadTy hdr.service hdr.request) p.val = true)
    (hs : sendTransfer env (hookCall env) n p hdr tid fd s = (.ok t', s')) :
    ∃ mid frames, s'.trace = s.trace ++ mid ++ frames.map (.frame n) ∧
      OnAir p.dt hdr.service fd frames (fun ts =>
        arrived { hdr with dtid := p.dt.dtid } tid ts (canon (p.dt.payloadTy hdr.service hdr.request) p.val) fd) := by
  obtain ⟨t, frames, mid, hmk, hfr, htr⟩ := sendTransfer_frames n p hdr tid fd s s' t' hn hs
  exact ⟨mid, frames, htr, onAir p.dt hdr tid p.val fd t t' frames hmk hfr hv hwf hty⟩

/-- A broadcast that returns has handed such frames to the driver. -/
theorem C115_broadcast (p : Payload) (prio : Option Nat) (canfd : Option Bool) (s s' : Node) (v : Nat) (hid : s.nodeId = some (v + 1))
    (hv : v + 1 < 128) (hp : effPrio prio < 32) (hd : p.dt.dtid < 65536) (hwf : WfTy (p.dt.payloadTy false false) = true)
    (hty : hasTy (p.dt.payloadTy false false) p.val = true)
    (hs : broadcast env (hookCall env) p prio canfd s = (.ok (), s')) :
    ∃ mid frames, s'.trace = s.trace ++ mid ++ frames.map (.frame s.nextNum) ∧
      OnAir p.dt false (canfd.getD s.sendCanfd) frames (fun ts =>
        arrived { prio := effPrio prio, dtid := p.dt.dtid, source := v + 1 } ((s.tids.get? (.msg p.dt.dtid)).getD 0) ts
          (canon (p.dt.payloadTy false false) p.val) (canfd.getD s.sendCanfd)) := by
  simp only [broadcast, bind_run, get_run, acceptTid, hid] at hs
  split at hs
  · rename_i t' s1 h1
    injection hs with _ hs
    subst hs
    obtain ⟨mid, frames, htr, hu⟩ := sent_onAir s.nextNum p { prio := effPrio prio, source := v + 1 } _ _ _ _ t' (Nat.lt_succ_self _)
      (.message _ _ _ hp hd (Nat.succ_le_succ (Nat.zero_le v)) hv) hwf hty h1
    refine ⟨.accepted s.nextNum ⟨.broadcast, p.dt.dtid, (s.tids.get? (.msg p.dt.dtid)).getD 0, prio, v + 1⟩ :: mid, frames, ?_, hu⟩
    rw [htr]
    simp only [List.append_assoc, List.cons_append, List.nil_append]
  · cases hs

/-- So has a request. -/
theorem C115_request (p : Payload) (dest : Nat) (prio : Option Nat) (timeout : Option Int) (canfd : Option Bool) (s s' : Node) (v : Nat)
    (hid : s.nodeId = some (v + 1)) (hv : v + 1 < 128) (hdest : 1 ≤ dest) (hdest' : dest < 128) (hp : effPrio prio < 32)
    (hd : p.dt.dtid < 256) (hwf : WfTy (p.dt.payloadTy true true) = true) (hty : hasTy (p.dt.payloadTy true true) p.val = true)
    (hs : request env (hookCall env) p dest prio timeout canfd s = (.ok (), s')) :
    ∃ mid frames e, s'.trace = s.trace ++ mid ++ frames.map (.frame s.nextNum) ++ [e] ∧
      OnAir p.dt true (canfd.getD s.sendCanfd) frames (fun ts =>
        arrived { prio := effPrio prio, dtid := p.dt.dtid, source := v + 1, dest := some dest, service := true, request := true }
          ((s.tids.get? (.svc p.dt.dtid dest)).getD 0) ts (canon (p.dt.payloadTy true true) p.val) (canfd.getD s.sendCanfd)) := by
  simp only [request, bind_run, get_run, acceptTid, hid] at hs
  split at hs
  · rename_i t' s1 h1
    obtain ⟨mid, frames, htr, hu⟩ := sent_onAir s.nextNum p
      { prio := effPrio prio, source := v + 1, dest := some dest, service := true, request := true } _ _ _ _ t' (Nat.lt_succ_self _)
      (.service _ _ _ _ _ hp hd hv hdest hdest') hwf hty h1
    simp only [lift_run, registerRequest] at hs
    split at hs
    · rename_i id s2 heq
      injection heq with _ heq
      subst heq
      injection hs with _ hs
      subst hs
      refine ⟨.accepted s.nextNum ⟨.request dest, p.dt.dtid, (s.tids.get? (.svc p.dt.dtid dest)).getD 0, prio, v + 1⟩ :: mid, frames,
        .requested s1.nextReq s.nextNum t'.header t'.tid (s1.now + effTimeout timeout), ?_, hu⟩
      show s1.trace ++ [_] = _
      rw [htr]
      simp only [List.append_assoc, List.cons_append, List.nil_append]
    · cases hs
  · cases hs

/-- So has a response. -/
theorem C115_respond (p : Payload) (dest tid : Nat) (prio : Option Nat) (canfd : Option Bool) (s s' : Node) (v : Nat)
    (hid : s.nodeId = some (v + 1)) (hv : v + 1 < 128) (hdest : 1 ≤ dest) (hdest' : dest < 128) (hp : prio.getD 31 < 32)
    (hd : p.dt.dtid < 256) (hwf : WfTy (p.dt.payloadTy true false) = true) (hty : hasTy (p.dt.payloadTy true false) p.val = true)
    (hs : respond env (hookCall env) p dest tid prio canfd s = (.ok (), s')) :
    ∃ mid frames, s'.trace = s.trace ++ mid ++ frames.map (.frame s.nextNum) ∧
      OnAir p.dt true (canfd.getD s.sendCanfd) frames (fun ts =>
        arrived { prio := prio.getD 31, dtid := p.dt.dtid, source := v + 1, dest := some dest, service := true } tid ts
          (canon (p.dt.payloadTy true false) p.val) (canfd.getD s.sendCanfd)) := by
  simp only [respond, bind_run, get_run, acceptResponse, hid] at hs
  split at hs
  · rename_i t' s1 h1
    injection hs with _ hs
    subst hs
    obtain ⟨mid, frames, htr, hu⟩ := sent_onAir s.nextNum p
      { prio := prio.getD 31, source := v + 1, dest := some dest, service := true, request := false } _ _ _ _ t' (Nat.lt_succ_self _)
      (.service _ _ _ _ _ hp hd hv hdest hdest') hwf hty h1
    refine ⟨.accepted s.nextNum ⟨.response dest, p.dt.dtid, tid, prio, v + 1⟩ :: mid, frames, ?_, hu⟩
    rw [htr]
    simp only [List.append_assoc, List.cons_append, List.nil_append]
  · cases hs

/-! ## What is read -/

/-- The frame in transport terms, if it is extended. -/
def ext (raw : RawFrame) : Option Frame := if raw.extended then some raw.toFrame else none

theorem framesIn_reads (t : List Ev) : framesIn (netLog t) = (readsOf t).filterMap ext := by
  induction t with
  | nil => rfl
  | cons e t ih =>
    have h1 : framesIn (netLog (e :: t)) = framesIn (netLog [e]) ++ framesIn (netLog t) := by
      show framesIn (netLog ([e] ++ t)) = _
      simp only [netLog, framesIn, List.filterMap_append]
    have h2 : readsOf (e :: t) = readsOf [e] ++ readsOf t := List.filterMap_append (l := [e])
    rw [h1, h2, List.filterMap_append, ih]
    congr 1
    cases e with
    | read f => cases f <;> rfl
    | _ => rfl

theorem reads_quiet {t : List Ev} (h : netLog t = []) : readsOf t = [] := by
  rw [readsOf, List.filterMap_eq_nil_iff]
  intro e he
  have := (List.filterMap_eq_nil_iff.1 h) e he
  cases e with
  | read f =>
    cases f with
    | none => rfl
    | some f => cases this
  | _ => rfl

/-- Frames as the node reads them. -/
def Plain (f : Frame) (g : CANFrame) : Prop := g = sentAs f

theorem mixed_arrive {k : Frame} {frames : List Frame} {heard : List CANFrame} (h : Mixed Plain some k frames heard)
    (hk : ∀ f ∈ frames, SameKey k (sentAs f)) : ∀ arrivals : List RawFrame, arrivals.map canOf = heard →
    ∃ raws, Arrive frames raws ∧ (∀ r ∈ raws, r ∈ arrivals) ∧ ofKey k.key (arrivals.filterMap ext) = raws.map RawFrame.toFrame ∧
      ∃ r, arrivals.getLast? = some r ∧ r.extended = true ∧ r.toFrame.key = k.key := by
  have wire : ∀ {f : Frame} {r : RawFrame}, canOf r = sentAs f → OnWire f r := by
    intro f r hr
    simp only [canOf, sentAs, CANFrame.mk.injEq] at hr
    exact ⟨by exact_mod_cast hr.1, hr.2.1, hr.2.2.2, hr.2.2.1⟩
  induction h with
  | @last f a h =>
    intro arrivals ha
    cases arrivals with
    | nil => cases ha
    | cons r rs =>
      injection ha with h1 h2
      cases rs with
      | cons _ _ => cases h2
      | nil =>
        have h' : canOf r = sentAs f := h1.trans h
        have hs := (key_iff k r).1 (h' ▸ hk f List.mem_cons_self)
        refine ⟨[r], .cons (wire h') .nil, fun x hx => hx, ?_, r, rfl, hs.1, hs.2⟩
        simp [ofKey, ext, hs.1, hs.2]
  | @own f a fs as h _ ih =>
    intro arrivals ha
    cases arrivals with
    | nil => cases ha
    | cons r rs =>
      injection ha with h1 h2
      have h' : canOf r = sentAs f := h1.trans h
      have hs := (key_iff k r).1 (h' ▸ hk f List.mem_cons_self)
      obtain ⟨raws, i1, i2, i3, x, i4, i5⟩ := ih (fun g hg => hk g (List.mem_cons_of_mem _ hg)) rs h2
      refine ⟨r :: raws, .cons (wire h') i1, ?_, ?_, x, ?_, i5⟩
      · intro y hy
        rcases List.mem_cons.1 hy with rfl | hy
        · exact List.mem_cons_self
        · exact List.mem_cons_of_mem _ (i2 y hy)
      · have he : ext r = some r.toFrame := if_pos hs.1
        rw [List.filterMap_cons_some he, List.map_cons, ← i3]
        simp [ofKey, hs.2]
      · rw [List.getLast?_cons, i4]; rfl
  | @other a fs as h _ ih =>
    intro arrivals ha
    cases arrivals with
    | nil => cases ha
    | cons r rs =>
      injection ha with h1 h2
      obtain ⟨raws, i1, i2, i3, x, i4, i5⟩ := ih hk rs h2
      refine ⟨raws, i1, fun y hy => List.mem_cons_of_mem _ (i2 y hy), ?_, x, ?_, i5⟩
      · have hn := h a rfl
        rw [← h1, key_iff] at hn
        cases he : r.extended with
        | false =>
          have : ext r = none := by simp [ext, he]
          rw [List.filterMap_cons_none this, i3]
        | true =>
          have : ext r = some r.toFrame := if_pos he
          rw [List.filterMap_cons_some this, ← i3]
          have hne : ¬ r.toFrame.key = k.key := fun e => hn ⟨he, e⟩
          simp [ofKey, hne]
      · rw [List.getLast?_cons, i4]; rfl

/-- A transfer whose frames are read in order, with others between them, is received. -/
theorem C115_frames {dt : DataType} {service fd : Bool} {frames : List Frame} {tr : Option Int → InTransfer}
    (h : OnAir dt service fd frames tr) (k : Frame) (hk : k ∈ frames) (heard : List CANFrame) (hm : Mixed Plain some k frames heard) :
    Received dt service frames tr heard := by
  intro env ops nid t iv ce fd0 it pre post raw before arrivals hops hreg htr hreads hheard
  obtain ⟨raws, a1, a2, a3, r, a4, a5, a6⟩ := mixed_arrive hm (fun f hf => h.key k hk f hf) arrivals hheard
  have hr : r = raw := by
    have := congrArg List.getLast? hreads
    rw [List.getLast?_append, List.getLast?_append, a4] at this
    simpa using this.symm
  subst hr
  cases a1 with
  | nil => exact absurd rfl h.some
  | @cons f first fs rest w ws =>
    have hfi : framesIn (netLog pre) ++ [r.toFrame] = before.filterMap ext ++ arrivals.filterMap ext := by
      rw [← List.filterMap_append, ← hreads, List.filterMap_append, framesIn_reads]
      simp [ext, a5]
    obtain ⟨mid, m, post', hp, hq⟩ := h.understood env ops nid t iv ce fd0 it pre post r first rest (ofKey k.key (before.filterMap ext)) hops hreg htr a5
      (.cons w ws) (by
        rw [hfi, a6, ← a3]
        simp [ofKey])
    refine ⟨first, a2 first List.mem_cons_self, ?_, mid, m, post', hp, reads_quiet hq⟩
    simp only [List.head?_cons, Option.map_some, sentAs, canOf, Option.some.injEq, CANFrame.mk.injEq]
    exact ⟨by rw [w.1], w.2.1.symm, w.2.2.2.symm, w.2.2.1.symm⟩

/-- From what the driver gets to what it delivers. -/
theorem Mixed.decode {α : Type} {own : Frame → α → Prop} {dec : α → Option CANFrame} {k : Frame} {frames : List Frame} {as : List α}
    (h : Mixed own dec k frames as) (ho : ∀ f ∈ frames, ∀ a, own f a → dec a = some (sentAs f)) :
    Mixed Plain some k frames (as.filterMap dec) := by
  induction h with
  | @last f a h =>
    rw [List.filterMap_cons_some (ho f List.mem_cons_self a h)]
    exact .last rfl
  | @own f a fs as h _ ih =>
    rw [List.filterMap_cons_some (ho f List.mem_cons_self a h)]
    exact .own rfl (ih fun g hg => ho g (List.mem_cons_of_mem _ hg))
  | @other a fs as h _ ih =>
    cases hd : dec a with
    | none =>
      rw [List.filterMap_cons_none hd]
      exact ih ho
    | some g =>
      rw [List.filterMap_cons_some hd]
      exact .other (fun g' hg => by
        injection hg with hg
        exact h g' (hg ▸ hd)) (ih ho)

theorem conveyed {dt : DataType} {service fd : Bool} {frames : List Frame} {tr : Option Int → InTransfer}
    (h : OnAir dt service fd frames tr) (k : Frame) (hk : k ∈ frames) {α : Type} {own : Frame → α → Prop} {dec : α → Option CANFrame}
    {as : List α} (hm : Mixed own dec k frames as) (ho : ∀ f ∈ frames, ∀ a, own f a → dec a = some (sentAs f)) :
    Received dt service frames tr (as.filterMap dec) := C115_frames h k hk _ (hm.decode ho)

/-! ## The drivers -/

theorem OnAir.valid {dt : DataType} {service fd : Bool} {frames : List Frame} {tr : Option Int → InTransfer}
    (h : OnAir dt service fd frames tr) {f : Frame} (hf : f ∈ frames) : Packet.Valid (sentAs f) where
  id0 := Int.natCast_nonneg _
  id1 := by
    have := h.id f hf
    show ((f.id : Nat) : Int) < 2 ^ 29
    omega
  len := by
    have := h.len f hf
    rw [← h.canfd f hf] at this
    exact this

/-- The packets that a multicast driver takes for packets of others. -/
def packetsOf (t : List Mcast.Ev) : List (List Byte) :=
  (Mcast.gotsOf t).filterMap fun x => if Mcast.firstPort 0 t = some x.2.1 then none else some x.2.2

/-- Multicast: the driver of B gets the packets that the driver of A sends, among others of any content. -/
theorem C115_mcast {dt : DataType} {service fd : Bool} {frames : List Frame} {tr : Option Int → InTransfer}
    (h : OnAir dt service fd frames tr) (k : Frame) (hk : k ∈ frames) (steps : List Mcast.Step) (earlier packets : List (List Byte))
    (hp : packetsOf (Mcast.run steps).trace = earlier ++ packets)
    (hm : Mixed (fun f p => Packet.mcastPacket (sentAs f) = .ok p) Packet.mcastParse k frames packets) :
    ∃ old heard, Mcast.deliveredOf (Mcast.run steps).trace = old ++ heard ∧ old = earlier.filterMap Packet.mcastParse ∧
      Received dt service frames tr heard := by
  refine ⟨_, packets.filterMap Packet.mcastParse, ?_, rfl, conveyed h k hk hm ?_⟩
  · rw [Mcast.C89_exact_partial, ← List.filterMap_append, ← hp, packetsOf, List.filterMap_filterMap]
    refine congrArg (fun g => List.filterMap g _) (funext fun x => ?_)
    by_cases hx : Mcast.firstPort 0 (Mcast.run steps).trace = some x.2.1
    · simp only [if_pos hx]
      rfl
    · simp only [if_neg hx]
      rfl
  · intro f hf p hp
    obtain ⟨q, hq, hq'⟩ := Packet.C51_mcast (sentAs f) (h.valid hf)
    have hp' : Packet.mcastPacket (sentAs f) = .ok p := hp
    have hpq := Except.ok.inj (hp'.symm.trans hq)
    exact hpq ▸ hq'

/-- SocketCAN: what the driver of A writes is the struct for the frame. -/
theorem C115_socketcan_sent {dt : DataType} {service fd : Bool} {frames : List Frame} {tr : Option Int → InTransfer}
    (h : OnAir dt service fd frames tr) (be : Bool) (f : Frame) (hf : f ∈ frames) :
    ∃ m : SocketReceive.Kernel, m.Legal ∧ m.remote = false ∧ m.frame = sentAs f ∧ Packet.socketPacket be (sentAs f) = .ok (m.bytes be) := by
  have hv := h.valid hf
  obtain ⟨m1, -⟩ := messageId_spec (sentAs f) hv.id0 hv.id1
  have m2 := messageId_add (sentAs f) hv.id0 hv.id1
  have hlen : f.bytes.length ≤ if f.canfd then 64 else 8 := hv.len
  have m3 : (LogFile.messageId (sentAs f)).toNat = f.id + 2 ^ 31 := by
    rw [m2]
    show (((f.id : Nat) : Int) + 2 ^ 31).toNat = _
    omega
  have hfit : fits 1 ((sentAs f).data.length : Int) = true := by
    simp only [fits, Bool.and_eq_true, decide_eq_true_eq, sentAs]
    have : f.bytes.length < 256 := by split at hlen <;> omega
    exact ⟨decide_eq_true (Int.natCast_nonneg _), decide_eq_true (by omega)⟩
  refine ⟨⟨f.id, true, false, f.canfd, f.bytes, List.replicate ((if f.canfd then 64 else 8) - f.bytes.length) 0, if f.canfd then 1 else 0, 0, 0⟩,
    ⟨by simpa using h.id f hf, fun _ => rfl, ?_⟩, rfl, rfl, ?_⟩
  · simp only [List.length_replicate]
    omega
  · unfold Packet.socketPacket
    rw [m1, hfit, m3]
    simp only [Bool.and_true, if_true]
    have hw : ∀ n : Nat, packLE 4 n = [0, 1, 2, 3].map fun i => BitVec.ofNat 8 (n / 256 ^ i) := by
      intro n
      simp [packLE, Nat.div_div_eq_div_mul]
    rw [hw]
    cases hfd : f.canfd with
    | true =>
      rw [hfd] at hlen
      simp only [sentAs, hfd, if_true] at hlen ⊢
      rw [Packet.packStr_pad 64 f.bytes hlen]
      simp [SocketReceive.Kernel.bytes, SocketReceive.Kernel.word, Packet.native, packLE]
    | false =>
      rw [hfd] at hlen
      simp only [sentAs, hfd, Bool.false_eq_true, if_false] at hlen ⊢
      rw [Packet.packStr_pad 8 f.bytes hlen]
      simp [SocketReceive.Kernel.bytes, SocketReceive.Kernel.word, Packet.native, packLE]

/-- SocketCAN: the driver of B reads the frames of the transfer, among others. -/
theorem C115_socketcan {dt : DataType} {service fd : Bool} {frames : List Frame} {tr : Option Int → InTransfer}
    (h : OnAir dt service fd frames tr) (k : Frame) (hk : k ∈ frames) (be : Bool) (steps : List SocketReceive.Step)
    (earlier bus later : List (Int × SocketReceive.Kernel × Option Rat)) (hl : ∀ x ∈ earlier ++ bus ++ later, x.2.1.Legal)
    (hs : SocketReceive.Monotonic steps)
    (hr : (SocketReceive.run be (SocketReceive.arrivals be (earlier ++ bus ++ later)) steps).incoming = SocketReceive.arrivals be later)
    (hm : Mixed (fun f x => x.2.1.frame = sentAs f) (fun x => some x.2.1.frame) k frames bus) :
    ∃ old heard, SocketReceive.returned (SocketReceive.run be (SocketReceive.arrivals be (earlier ++ bus ++ later)) steps).trace = old ++ heard ∧
      old = earlier.map (·.2.1.frame) ∧ Received dt service frames tr heard := by
  obtain ⟨n, h1, h2⟩ := SocketReceive.C109_kernel be _ steps hl hs
  refine ⟨_, bus.filterMap (fun x => some x.2.1.frame), ?_, rfl, conveyed h k hk hm fun f hf x hx => congrArg some hx⟩
  rw [h2]
  have hn : (earlier ++ bus ++ later).take n = earlier ++ bus := by
    rw [hr] at h1
    have hlen := congrArg List.length h1
    simp only [SocketReceive.arrivals, List.length_map, List.length_drop, List.length_append] at hlen
    cases later with
    | nil =>
      rw [List.length_nil] at hlen
      rw [List.append_nil, List.take_of_length_le (by rw [List.length_append]; omega)]
    | cons x later =>
      rw [List.length_cons] at hlen
      exact List.take_left' (by rw [List.length_append]; omega)
  rw [hn, List.map_append]
  congr 1
  rw [List.filterMap_eq_map']

/-- The frame in a MAVLink message (mavcan.py). -/
def mavlinkFrame (x : Nat × Nat × List Byte × Nat × Bool) : CANFrame :=
  ⟨((x.2.1 % 2 ^ 29 : Nat) : Int), x.2.2.1.take x.2.2.2.1, decide (x.2.1 / 2 ^ 31 % 2 = 1), x.2.2.2.2⟩

/-- The messages received: source, identifier, data, length, kind. -/
def messagesOf (t : List Mavcan.Ev) : List (Nat × Nat × List Byte × Nat × Bool) := t.filterMap fun
  | .got src id data len fd => some (src, id, data, len, fd)
  | _ => none

/-- The frames put into the reception queue. -/
def deliveredOf (t : List Mavcan.Ev) : List CANFrame := t.filterMap fun
  | .delivered f => some f
  | _ => none

theorem holds_eq {id len : Nat} {data : List Byte} {fd : Bool} {f : CANFrame} (h : Mavcan.Holds id data len fd f) (src : Nat) :
    f = mavlinkFrame (src, id, data, len, fd) := by
  obtain ⟨f1, f2, f3, f4⟩ := f
  obtain ⟨h1, h2, ⟨rest, h3, h4⟩, h5⟩ := h
  simp only at h1 h2 h3 h4 h5
  subst h1 h2 h3 h5
  simp only [mavlinkFrame, CANFrame.mk.injEq, true_and, and_true]
  rw [List.length_append] at h4
  rcases Nat.le_total len (f2.length + rest.length) with hl | hl
  · rw [Nat.min_eq_left hl] at h4
    exact (List.take_left' h4).symm
  · rw [Nat.min_eq_right hl] at h4
    have : rest = [] := List.eq_nil_of_length_eq_zero (by omega)
    subst this
    rw [List.append_nil, List.take_of_length_le (by simpa using hl)]

/-- What is delivered is what has been received. -/
theorem mavlink_delivered (t : List Mavcan.Ev) (h : Mavcan.All Mavcan.DeliveredRight t)
    (hl : ∀ src id data len fd, t.getLast? ≠ some (.got src id data len fd)) : deliveredOf t = (messagesOf t).map mavlinkFrame := by
  have key : ∀ n, ∀ t : List Mavcan.Ev, t.length = n → Mavcan.All Mavcan.DeliveredRight t →
      ((∀ src id data len fd, t.getLast? ≠ some (.got src id data len fd)) → deliveredOf t = (messagesOf t).map mavlinkFrame) ∧
      ∀ t' src id data len fd, t = t' ++ [.got src id data len fd] → deliveredOf t' = (messagesOf t').map mavlinkFrame := by
    intro n
    induction n with
    | zero =>
      intro t ht _
      have := List.eq_nil_of_length_eq_zero ht
      subst this
      exact ⟨fun _ => rfl, fun t' _ _ _ _ _ he => absurd he (by simp)⟩
    | succ n ih =>
      intro t ht hall
      rcases List.eq_nil_or_concat t with rfl | ⟨t, x, rfl⟩
      · cases ht
      · simp only [List.concat_eq_append] at ht hall ⊢
        have hall' : Mavcan.All Mavcan.DeliveredRight t := fun pre y post he => hall pre y (post ++ [x]) (by rw [he]; simp)
        obtain ⟨i1, i2⟩ := ih t (by simpa using ht) hall'
        obtain ⟨d1, d2⟩ := hall t x [] (by simp)
        have e1 : deliveredOf (t ++ [x]) = deliveredOf t ++ deliveredOf [x] := List.filterMap_append
        have e2 : messagesOf (t ++ [x]) = messagesOf t ++ messagesOf [x] := List.filterMap_append
        constructor
        · intro hlast
          by_cases hd : ∃ f, x = .delivered f
          · obtain ⟨f, rfl⟩ := hd
            obtain ⟨src, id, data, len, fd, hg, hh⟩ := d2 f rfl
            obtain ⟨t', rfl⟩ := List.getLast?_eq_some_iff.1 hg
            have e3 : deliveredOf (t' ++ [.got src id data len fd]) = deliveredOf t' := by
              simp [deliveredOf]
            have e4 : messagesOf (t' ++ [.got src id data len fd]) = messagesOf t' ++ [(src, id, data, len, fd)] := by
              simp [messagesOf]
            rw [e1, e2, e3, e4, i2 t' src id data len fd rfl, List.map_append, List.map_append, holds_eq hh src]
            simp [deliveredOf, messagesOf]
          · have hng : ∀ src id data len fd, t.getLast? ≠ some (.got src id data len fd) :=
              fun src id data len fd hg => hd (d1 src id data len fd hg)
            rw [e1, e2, i1 hng]
            cases x with
            | delivered f => exact absurd ⟨f, rfl⟩ hd
            | got src id data len fd => exact absurd (by simp) (hlast src id data len fd)
            | _ => simp [deliveredOf, messagesOf]
        · intro t' src id data len fd he
          obtain ⟨rfl, hx⟩ := List.append_inj' he rfl
          injection hx with hx _
          subst hx
          refine i1 fun src' id' data' len' fd' hg => ?_
          obtain ⟨f, hf⟩ := d1 src' id' data' len' fd' hg
          cases hf
  exact (key t.length t rfl h).1 hl

/-- MAVLink: the driver of B receives messages that carry the frames, among others. -/
theorem C115_mavlink {dt : DataType} {service fd : Bool} {frames : List Frame} {tr : Option Int → InTransfer}
    (h : OnAir dt service fd frames tr) (k : Frame) (hk : k ∈ frames) (bus : Int) (target : Nat) (ro : Bool) (r : Mavcan.Io)
    (steps : List Mavcan.Step) (earlier messages : List (Nat × Nat × List Byte × Nat × Bool))
    (hp : messagesOf (Mavcan.run bus target ro r steps).trace = earlier ++ messages)
    (hm : Mixed (fun f x => ∃ bus m, Mavcan.Carries bus (sentAs f) m ∧ x.2 = (m.id.toNat, m.data, m.len, m.canfd))
      (fun x => some (mavlinkFrame x)) k frames messages) :
    ∃ old heard, deliveredOf (Mavcan.run bus target ro r steps).trace = old ++ heard ∧ old = earlier.map mavlinkFrame ∧
      Received dt service frames tr heard := by
  obtain ⟨h1, h2⟩ := Mavcan.C95_delivered bus target ro r steps
  refine ⟨_, messages.filterMap (fun x => some (mavlinkFrame x)), ?_, rfl, conveyed h k hk hm ?_⟩
  · rw [mavlink_delivered _ h1 h2, hp, List.map_append]
    congr 1
    rw [List.filterMap_eq_map']
  · rintro f hf ⟨src, id, data, len, fd'⟩ ⟨b, m, hc, hx⟩
    injection hx with e1 hx
    injection hx with e2 hx
    injection hx with e3 e4
    subst e1 e2 e3 e4
    have hv := h.valid hf
    obtain ⟨-, -, -, g⟩ := Mavcan.C94_received b (sentAs f) ⟨hv.id0, hv.id1, hv.len⟩ m hc
    refine congrArg some (g _ ⟨rfl, rfl, ⟨m.data.drop m.len, (List.take_append_drop m.len m.data).symm, ?_⟩, rfl⟩)
    simp [mavlinkFrame]

/-- python-can: the driver of B takes messages that carry the frames from the bus, among others. It has classic CAN only. -/
theorem C115_pythoncan {dt : DataType} {service : Bool} {frames : List Frame} {tr : Option Int → InTransfer}
    (h : OnAir dt service false frames tr) (k : Frame) (hk : k ∈ frames) (polls : Bool) (s : PythonCan.State) (hs : PythonCan.Fresh s)
    (steps : List PythonCan.Step) (earlier messages : List (Int × PythonCan.Message))
    (hp : s.incoming = earlier ++ messages ++ (PythonCan.run polls s steps).incoming)
    (hm : Mixed (fun f x => PythonCan.carries x.2 (sentAs f)) (fun x => some ⟨x.2.id, x.2.data, true, false⟩) k frames messages) :
    ∃ old heard, PythonCan.returnedOf (PythonCan.run polls s steps).trace = old ++ heard ∧
      old = earlier.map (fun x => ⟨x.2.id, x.2.data, true, false⟩) ∧ Received dt service frames tr heard := by
  obtain ⟨taken, h1, h2, -⟩ := PythonCan.C105_order polls s hs steps
  refine ⟨_, messages.filterMap (fun x => some ⟨x.2.id, x.2.data, true, false⟩), ?_, rfl, conveyed h k hk hm ?_⟩
  · rw [hp] at h1
    rw [h2, ← List.append_cancel_right h1, List.map_append]
    congr 1
    rw [List.filterMap_eq_map']
  · rintro f hf ⟨t, m⟩ ⟨c1, c2, c3, c4, -⟩
    simp only [sentAs] at c1 c2 c3 c4
    simp only [sentAs, Option.some.injEq, CANFrame.mk.injEq, c1, c3, c2, Int.toNat_natCast, and_self]

/-- The lines of a transfer as an SLCAN adapter reports them: what was written for the frame, possibly with a time stamp. -/
def LineOf (f : Frame) (line : List Byte) : Prop :=
  ∃ body ts, Slcan.sendFrame (sentAs f) = .ok (body ++ [Slcan.CR]) ∧ Slcan.IsStamp ts ∧ line = body ++ ts

/-- SLCAN: the adapter of B reports the frames, among other lines; the stream is read in any pieces; no time stamp estimator raises (C142). -/
def C115_statement : Prop :=
  ∀ (σ : Type) (renv : Slcan.REnv σ) (dt : DataType) (service fd : Bool) (frames : List Frame) (tr : Option Int → InTransfer),
    OnAir dt service fd frames tr → ∀ k ∈ frames, ∀ (s : Slcan.Rx σ) (reads : List Slcan.Read) (lines : List (List Byte)) (rest : List Byte),
    Slcan.Normal s → (∀ r ∈ reads, r.cmds = []) → (∀ line ∈ lines, Slcan.CR ∉ line) → Slcan.CR ∉ rest →
    s.data ++ Slcan.bytesOf reads = lines.flatMap (· ++ [Slcan.CR]) ++ rest → Slcan.CR ∉ s.data →
    Mixed LineOf Slcan.frameOf k frames lines → Slcan.NoneLost (Slcan.run renv s reads) →
    ∃ heard, Slcan.framesOf (Slcan.run renv s reads).out = Slcan.framesOf s.out ++ heard ∧ Received dt service frames tr heard

theorem linesOf_flat (lines : List (List Byte)) (rest : List Byte) (h : ∀ line ∈ lines, Slcan.CR ∉ line) (hr : Slcan.CR ∉ rest) :
    Slcan.linesOf [] (lines.flatMap (· ++ [Slcan.CR]) ++ rest) = lines := by
  induction lines with
  | nil =>
    have := (Slcan.linesOf_plain rest hr [] []).1
    simpa [Slcan.linesOf] using this
  | cons line lines ih =>
    have h1 := (Slcan.linesOf_plain line (h line List.mem_cons_self) (Slcan.CR :: (lines.flatMap (· ++ [Slcan.CR]) ++ rest)) []).1
    have h2 : Slcan.linesOf ([] ++ line) (Slcan.CR :: (lines.flatMap (· ++ [Slcan.CR]) ++ rest)) =
        line :: Slcan.linesOf [] (lines.flatMap (· ++ [Slcan.CR]) ++ rest) := by
      rw [List.nil_append]
      exact if_pos rfl
    rw [h2, ih fun l hl => h l (List.mem_cons_of_mem _ hl)] at h1
    simpa using h1

/-- It is true for classic CAN, and for CAN FD frames of lengths that exist. (Missing: CAN FD frames of other lengths, `C115_counterexample`; by C15
those occur for payloads of 62 bytes and of certain larger lengths.) -/
theorem C115_slcan_partial {σ : Type} (renv : Slcan.REnv σ) {dt : DataType} {service fd : Bool} {frames : List Frame}
    {tr : Option Int → InTransfer} (h : OnAir dt service fd frames tr) (k : Frame) (hk : k ∈ frames)
    (hfd : fd = true → ∀ f ∈ frames, f.bytes.length ∈ fdLengths) (s : Slcan.Rx σ) (reads : List Slcan.Read) (lines : List (List Byte))
    (rest : List Byte) (hn : Slcan.Normal s) (hc : ∀ r ∈ reads, r.cmds = []) (hl : ∀ line ∈ lines, Slcan.CR ∉ line) (hrest : Slcan.CR ∉ rest)
    (hb : s.data ++ Slcan.bytesOf reads = lines.flatMap (· ++ [Slcan.CR]) ++ rest) (hd : Slcan.CR ∉ s.data)
    (hm : Mixed LineOf Slcan.frameOf k frames lines) (hnl : Slcan.NoneLost (Slcan.run renv s reads)) :
    ∃ heard, Slcan.framesOf (Slcan.run renv s reads).out = Slcan.framesOf s.out ++ heard ∧ Received dt service frames tr heard := by
  refine ⟨lines.filterMap Slcan.frameOf, ?_, conveyed h k hk hm ?_⟩
  · rw [(Slcan.C48_delivered renv reads s).all hnl _ (Slcan.C48_stream_partial renv s hn hd reads hc).1]
    congr 2
    have := (Slcan.linesOf_plain s.data hd (Slcan.bytesOf reads) []).1
    rw [List.nil_append] at this
    rw [← this, hb, linesOf_flat lines rest hl hrest]
  · rintro f hf line ⟨body, ts, hs, hts, rfl⟩
    have hv := h.valid hf
    obtain ⟨body', hs', -, hp⟩ := Slcan.C47_extended_partial (sentAs f) ts ⟨hv.id0, hv.id1, by
      show if f.canfd = true then f.bytes.length ∈ fdLengths else f.bytes.length ≤ 8
      rw [h.canfd f hf]
      have := h.len f hf
      cases hfd' : fd with
      | true => exact hfd hfd' f hf
      | false => simpa [hfd'] using this⟩ rfl hts
    rw [hs] at hs'
    injection hs' with hs'
    rw [List.append_cancel_right hs', Slcan.frameOf, hp]

/-! ### The counterexample: a payload of 62 bytes -/

def longTy : DataType := { dtid := 1000, baseCrc := 0x1234#16, msg := .comp false [.arr (.prim ⟨.unsigned, 8, true⟩) false 62] }

def longVal : Val := .comp none [.arr (List.replicate 62 (.prim (List.replicate 8 false)))]

def longHdr : Header := { prio := 16, dtid := 1000, source := 5 }

/-- The frame: 63 bytes. -/
def longFrame : CANFrame := ⟨0x1003E805, List.replicate 62 0 ++ [0xC0], true, true⟩

/-- What the receiver makes of it, with the time stamp 1234: the first two digits are taken for a byte of data. -/
def longRead : CANFrame := ⟨0x1003E805, List.replicate 62 0 ++ [0xC0, 0x12], true, true⟩

def longRaw : RawFrame := { id := 0x1003E805, data := longRead.data, ts := some 7, canfd := true }

def longEnv : Env where
  db d sv := if d = 1000 ∧ sv = false then some longTy else none
  script _ _ := {}
  statusPayload _ := { dt := { dtid := 341, baseCrc := 0, msg := .comp false [] }, val := .comp none [] }
  infoPayload _ := { dt := { dtid := 1, baseCrc := 0, msg := .comp false [] }, val := .comp none [] }
  lim := 3

def stamp : List Byte := "1234".toList.map Slcan.ch

def longLine : List Byte := (Slcan.sendFrame longFrame).toOption.getD [] |>.dropLast

theorem long_sent : ((mkTransfer longTy longHdr 0 longVal true).toOption.bind fun t => (toFrames t).toOption.map fun x => x.2.map sentAs) =
    some [longFrame] := by decide +kernel

theorem long_onAir : ∃ f, sentAs f = longFrame ∧ OnAir longTy false true [f]
    (fun ts => arrived longHdr 0 ts (canon (longTy.payloadTy false false) longVal) true) := by
  have hs := long_sent
  cases hmk : mkTransfer longTy longHdr 0 longVal true with
  | error e => rw [hmk] at hs; cases hs
  | ok t =>
    rw [hmk] at hs
    cases hfr : toFrames t with
    | error e =>
      simp only [Except.toOption, Option.bind_some, hfr, Option.map_none] at hs
      cases hs
    | ok x =>
      obtain ⟨t', frames⟩ := x
      simp only [Except.toOption, Option.bind_some, hfr, Option.map_some, Option.some.injEq] at hs
      have ha := onAir longTy longHdr 0 longVal true t t' frames hmk hfr (.message 16 1000 5 (by decide) (by decide) (by decide) (by decide))
        (by decide +kernel) (by decide +kernel)
      cases frames with
      | nil => cases hs
      | cons f fs =>
        injection hs with h1 h2
        have : fs = [] := List.map_eq_nil_iff.1 h2
        subst this
        exact ⟨f, h1, ha⟩

theorem first_read {t : List Ev} {c : CANFrame} (h : (readsOf t).map canOf = [c]) :
    ∃ pre raw post, t = pre ++ .read (some raw) :: post ∧ readsOf pre = [] ∧ canOf raw = c := by
  induction t with
  | nil => cases h
  | cons e t ih =>
    by_cases he : ∃ raw, e = .read (some raw)
    · obtain ⟨raw, rfl⟩ := he
      exact ⟨[], raw, t, rfl, rfl, by injection h⟩
    · have h0 : readsOf [e] = [] := by
        cases e with
        | read f =>
          cases f with
          | none => rfl
          | some f => exact absurd ⟨f, rfl⟩ he
        | _ => rfl
      have h1 : readsOf (e :: t) = readsOf [e] ++ readsOf t := List.filterMap_append (l := [e])
      rw [h1, h0] at h
      obtain ⟨pre, raw, post, rfl, hp, hc⟩ := ih h
      refine ⟨e :: pre, raw, post, rfl, ?_, hc⟩
      have h2 : readsOf (e :: pre) = readsOf [e] ++ readsOf pre := List.filterMap_append (l := [e])
      rw [h2, h0, hp]
      rfl

/-- The time stamp that the adapter appends spoils the frame. -/
theorem C115_counterexample : ¬ C115_statement := by
  intro h
  obtain ⟨f, hf, ha⟩ := long_onAir
  obtain ⟨heard, h1, h2⟩ := h Unit ⟨fun _ _ ts => (some ts, ()), fun _ => true⟩ longTy false true [f] _ ha f List.mem_cons_self
    { est := () } [⟨longLine ++ stamp ++ [Slcan.CR], (0, 0), 0, []⟩] [longLine ++ stamp] [] ⟨rfl, rfl⟩
    (by intro r hr; simp only [List.mem_singleton] at hr; rw [hr])
    (by intro r hr; simp only [List.mem_singleton] at hr; rw [hr]; decide +kernel) (by simp) (by simp [Slcan.bytesOf]) (by simp)
    (.last ⟨longLine, stamp, by rw [hf]; decide +kernel, .inr (by decide +kernel), rfl⟩) (by unfold Slcan.NoneLost; decide +kernel)
  have hh : heard = [longRead] := by
    have : Slcan.framesOf (Slcan.run (σ := Unit) ⟨fun _ _ ts => (some ts, ()), fun _ => true⟩ { est := () }
      [⟨longLine ++ stamp ++ [Slcan.CR], (0, 0), 0, []⟩]).out = [longRead] := by decide +kernel
    rw [this] at h1
    simpa [Slcan.framesOf] using h1.symm
  subst hh
  have hr : (readsOf (run longEnv [.spin0 [some longRaw] [0]] (init (some 9) 0 none true false (1, true))).trace).map canOf = [longRead] := by
    decide +kernel
  obtain ⟨pre, raw, post, e1, e2, e3⟩ := first_read hr
  obtain ⟨first, g1, g2, -⟩ := h2 longEnv [.spin0 [some longRaw] [0]] (some 9) 0 none true false (1, true) pre post raw [] [raw]
    (by intro f hf; simp at hf) (by rfl) e1 (by rw [e2]) (by rw [List.map_singleton, e3])
  simp only [List.mem_singleton] at g1
  subst g1
  simp only [List.head?_cons, Option.map_some, Option.some.injEq, hf, e3] at g2
  revert g2
  decide +kernel

/-! ## Examples: ten bytes in two frames, with another frame between them -/

def tenHdr : Header := { prio := 16, dtid := 1000, source := 5 }

def tenSent : List Frame := ((mkTransfer tenTy tenHdr 3 tenVal false).toOption.bind fun t => (toFrames t).toOption.map (·.2)).getD []

/-- A frame of another transfer of the same kind. -/
def otherFrame : CANFrame := ⟨0x1003E805, [1, 2, 0xC4], true, false⟩

theorem ten_onAir : tenSent.length = 2 ∧
    OnAir tenTy false false tenSent (fun ts => arrived tenHdr 3 ts (canon (tenTy.payloadTy false false) tenVal) false) := by
  have hl : tenSent.length = 2 := by decide +kernel
  refine ⟨hl, ?_⟩
  cases hmk : mkTransfer tenTy tenHdr 3 tenVal false with
  | error e => simp [tenSent, hmk, Except.toOption] at hl
  | ok t =>
    cases hfr : toFrames t with
    | error e => simp [tenSent, hmk, hfr, Except.toOption] at hl
    | ok x =>
      obtain ⟨t', frames⟩ := x
      have : tenSent = frames := by simp [tenSent, hmk, hfr, Except.toOption]
      rw [this]
      exact onAir tenTy tenHdr 3 tenVal false t t' frames hmk hfr (.message 16 1000 5 (by decide) (by decide) (by decide) (by decide))
        (by decide +kernel) (by decide +kernel)

def tenPackets : List (List Byte) :=
  [tenSent[0]?.map sentAs, some otherFrame, tenSent[1]?.map sentAs].map fun f => ((f.map Packet.mcastPacket).bind (·.toOption)).getD []

def tenSteps : List Mcast.Step := .round { connect := some 5000 } :: tenPackets.map fun p => .round { recv := .datagram 9 7000 p }

example : packetsOf (Mcast.run tenSteps).trace = [] ++ tenPackets := by decide +kernel

example : ∃ f g, tenSent = [f, g] ∧ Mixed (fun f p => Packet.mcastPacket (sentAs f) = .ok p) Packet.mcastParse f tenSent tenPackets := by
  obtain ⟨f, g, h⟩ : ∃ f g, tenSent = [f, g] := by
    have hl := ten_onAir.1
    match hs : tenSent, hl with
    | [f, g], _ => exact ⟨f, g, rfl⟩
  have h0 : Packet.mcastPacket (sentAs f) = .ok (tenPackets[0]?.getD []) := by
    have : tenSent[0]? = some f := by rw [h]; rfl
    have e : (tenSent[0]?.map fun f => Packet.mcastPacket (sentAs f)) = some (.ok (tenPackets[0]?.getD [])) := by decide +kernel
    rw [this] at e
    exact Option.some.inj e
  have h1 : Packet.mcastPacket (sentAs g) = .ok (tenPackets[2]?.getD []) := by
    have : tenSent[1]? = some g := by rw [h]; rfl
    have e : (tenSent[1]?.map fun f => Packet.mcastPacket (sentAs f)) = some (.ok (tenPackets[2]?.getD [])) := by decide +kernel
    rw [this] at e
    exact Option.some.inj e
  have hp : tenPackets = [tenPackets[0]?.getD [], tenPackets[1]?.getD [], tenPackets[2]?.getD []] := by decide +kernel
  have ho : Packet.mcastParse (tenPackets[1]?.getD []) = some otherFrame := by decide +kernel
  refine ⟨f, g, h, ?_⟩
  rw [hp, h]
  refine .own h0 (.other ?_ (.last h1))
  intro x hx hk
  rw [ho] at hx
  injection hx with hx
  subst hx
  have hb : (tenSent[0]?.map fun f => f.bytes.getLast?.map fun b => b.toNat % 32) = some (some 3) := by decide +kernel
  rw [h] at hb
  have hb' := Option.some.inj hb
  have := hk.2.2.trans hb'
  revert this
  decide +kernel

/-- What the adapter of B reports, with time stamps, and a line that is not understood. -/
def tenLines : List (List Byte) :=
  [tenSent[0]?.map sentAs, tenSent[1]?.map sentAs].map fun f => ((f.map Slcan.sendFrame).bind (·.toOption)).getD [] |>.dropLast

example : Slcan.framesOf (Slcan.run (σ := Unit) ⟨fun _ _ ts => (some ts, ()), fun _ => true⟩ { est := () }
      [⟨(tenLines[0]?.getD []) ++ stamp ++ [Slcan.CR] ++ "zz\rT12".toList.map Slcan.ch, (0, 0), 0, []⟩,
       ⟨"x".toList.map Slcan.ch ++ [Slcan.CR] ++ (tenLines[1]?.getD []) ++ [Slcan.CR], (0, 0), 0, []⟩]).out = tenSent.map sentAs := by
  decide +kernel

end EndToEnd
end Dronecan
