import Verif.Props.EndToEnd
import Verif.Props.LogReplay
import Verif.Props.LogFile

/-!
# From node to node, through a log file (C152)

A transfer that was logged among other traffic is received by every node that the log is replayed to. The theorems of the node (C91, C115) and of the
log files (C49, C118) are put together.
-/

namespace Dronecan
namespace EndToEnd
open Can Node PyM LogFile

/-! ## What is written is a log -/

theorem packLE_num (n v : Nat) (h : v < 256 ^ n) : num (packLE n v) = v := by rw [num_eq, unpackLE_packLE_lt n v h]

/-- What `send_frame` of the log file driver writes is a record of the frame. -/
theorem C152_record (w : CANFrame × Rat) (h : Valid w) : ∃ bytes, writeFrame w.1 w.2 = .ok bytes ∧ IsRecord bytes w.1 := by
  refine ⟨enc w, writeFrame_valid w h, packLE 2 0x2934, packLE 8 (micros w.2).toNat, packLE 2 (crc16 0xFFFF w.1.data).toNat, packLE 2 w.1.data.length,
    packLE 2 (flagsOf w.1), packLE 4 (messageId w.1).toNat, rfl, by simp, by simp, by simp, by simp, by simp, by simp, ?_, ?_, ?_, ?_, ?_, ?_⟩
  · exact packLE_num 2 _ (by decide)
  · exact packLE_num 2 _ (by have := (crc16 0xFFFF w.1.data).isLt; omega)
  · exact packLE_num 2 _ (by have := h.len; omega)
  · rw [packLE_num 2 _ (by unfold flagsOf; split <;> decide)]
    unfold flagsOf
    cases w.1.canfd <;> decide
  · rw [packLE_num 4 _ (messageId_spec w.1 h.id0 h.id1).2.1, ← (messageId_spec w.1 h.id0 h.id1).2.2.2, Nat.testBit_eq_decide_div_mod_eq]
  · rw [packLE_num 4 _ (messageId_spec w.1 h.id0 h.id1).2.1]
    have := (messageId_spec w.1 h.id0 h.id1).2.2.1
    rw [show (0x1FFFFFFF : Nat) = 2 ^ 29 - 1 from rfl, Nat.and_two_pow_sub_one_eq_mod] at this
    exact this.symm

/-- What several calls write is a log of the frames. -/
theorem written_consists (ws : List (CANFrame × Rat)) (h : ∀ w ∈ ws, Valid w) : ∃ bytes, writeAll ws = .ok bytes ∧ Consists (ws.map (·.1)) bytes := by
  induction ws with
  | nil => exact ⟨[], rfl, .done [] (by decide)⟩
  | cons w ws ih =>
    obtain ⟨bs, h1, h2⟩ := ih fun x hx => h x (List.mem_cons_of_mem _ hx)
    obtain ⟨b, h3, h4⟩ := C152_record w (h w List.mem_cons_self)
    have e : writeAll (w :: ws) = .ok (b ++ bs) := by
      unfold writeAll
      rw [h3]
      dsimp only
      rw [h1]
    exact ⟨b ++ bs, e, .record h4 h2⟩

/-! ## The start of the replay -/

theorem lastLoop_start (now : Rat) (n : Nat) : ∀ r, (lastLoop now n r).2.start = r.start := by
  induction n with
  | zero => intro r; rfl
  | succ n ih =>
    intro r
    have hp := readFrame_start now r
    unfold lastLoop
    split
    · rename_i hf; rw [hf] at hp; exact hp
    · rename_i hf; rw [hf] at hp; exact hp
    · rename_i x r2 hf
      rw [hf] at hp
      exact (ih { r2 with last := some x.2 }).trans hp

theorem openLog_start (content : List Byte) (speedup now : Rat) (r : Reader) (h : openLog content speedup now = .ok r) : r.start = some now := by
  unfold openLog at h
  split at h
  · cases h
  · cases h
  · rename_i x r1 h1
    have p1 := readFrame_start now { content := content, start := some now, speedup := speedup }
    rw [h1] at p1
    have p2 := lastLoop_start now (content.length + 1) { r1 with startFile := x.2 }
    split at h
    · cases h
    · rename_i r2 h2
      rw [h2] at p2
      injection h with h
      subst h
      exact p2.trans p1

/-! ## The theorems -/

/-- A log has the frames of a transfer, in order, with others between them, before and after. Then, however `receive` is called, and at any speed:
as soon as so many frames are delivered, they are these; at the end, all are; and a node that reads them receives the transfer. -/
theorem C152_replayed {dt : DataType} {service fd : Bool} {frames : List Frame} {tr : Option Int → InTransfer}
    (h : OnAir dt service fd frames tr) (k : Frame) (hk : k ∈ frames) (content : List Byte) (speedup now : Rat) (r : Reader)
    (ho : openLog content speedup now = .ok r) (hs : speedup ≠ 0) (earlier heard later : List CANFrame)
    (hc : Consists (earlier ++ heard ++ later) content) (hm : Mixed Plain some k frames heard) (start : Option Rat)
    (calls : List (Rat × Option Rat)) :
    NoErrors (receives calls (setStart start r)).1 ∧
    (earlier.length + heard.length ≤ (delivered (receives calls (setStart start r)).1).length →
      ∃ rest, delivered (receives calls (setStart start r)).1 = earlier ++ heard ++ rest) ∧
    (endOfStream (receives calls (setStart start r)).2 = true → delivered (receives calls (setStart start r)).1 = earlier ++ heard ++ later) ∧
    Received dt service frames tr heard := by
  obtain ⟨h1, h2, h3⟩ := C118_replay content speedup now r ho hs _ hc start calls
  refine ⟨h1, fun hl => ?_, fun he => (h3 he).1, C115_frames h k hk heard hm⟩
  have h4 : earlier ++ heard <+: earlier ++ heard ++ later := List.prefix_append _ _
  obtain ⟨rest, hr⟩ := List.prefix_of_prefix_length_le h4 h2 (by simpa using hl)
  exact ⟨rest, hr.symm⟩

/-- Node A sends the transfer through the log file driver, among other frames. Writing succeeds, and what is written can be opened. Replayed without
waiting, every call returns the next frame; replayed at a positive speed, there is a time after which every call does. Whatever is delivered, the
frames of the transfer are among them in the order in which they were sent; and a node that reads them receives the transfer. -/
theorem C152_written {dt : DataType} {service fd : Bool} {frames : List Frame} {tr : Option Int → InTransfer}
    (h : OnAir dt service fd frames tr) (k : Frame) (hk : k ∈ frames) (earlier mid later : List (CANFrame × Rat))
    (hv : ∀ w ∈ earlier ++ mid ++ later, Valid w) (hm : Mixed (fun f w => w.1 = sentAs f) (fun w => some w.1) k frames mid)
    (speedup now : Rat) (hs : speedup ≠ 0) :
    ∃ bytes r, writeAll (earlier ++ mid ++ later) = .ok bytes ∧ openLog bytes speedup now = .ok r ∧ Received dt service frames tr (mid.map (·.1)) ∧
      (∀ calls, NoErrors (receives calls r).1 ∧ delivered (receives calls r).1 <+: (earlier ++ mid ++ later).map (·.1)) ∧
      (speedup = -1 → ∀ calls, (earlier ++ mid ++ later).length ≤ calls.length →
        delivered (receives calls r).1 = earlier.map (·.1) ++ mid.map (·.1) ++ later.map (·.1)) ∧
      (0 < speedup → ∀ before, ∃ T, ∀ calls : List (Rat × Option Rat), (∀ c ∈ calls, T ≤ c.1) →
        (earlier ++ mid ++ later).length + 2 ≤ calls.length →
        delivered (receives (before ++ calls) r).1 = earlier.map (·.1) ++ mid.map (·.1) ++ later.map (·.1)) := by
  obtain ⟨bytes, h1, h2⟩ := written_consists _ hv
  have hne : mid ≠ [] := by
    cases hm <;> exact List.cons_ne_nil _ _
  have hheard : Received dt service frames tr (mid.map (·.1)) := by
    have := conveyed h k hk hm (by intro f _ w hw; exact congrArg some hw)
    simpa [List.filterMap_eq_map] using this
  have ⟨r, hr⟩ : ∃ r, openLog bytes speedup now = .ok r := by
    refine (C118_open bytes speedup now).1.2 ?_
    cases hl : (earlier ++ mid ++ later).map (·.1) with
    | nil => simp [hne] at hl
    | cons f fs => exact ⟨f, fs, hl ▸ h2⟩
  have hset : setStart r.start r = r := rfl
  refine ⟨bytes, r, h1, hr, hheard, fun calls => ?_, fun hsp calls hl => ?_, fun hsp before => ?_⟩
  · have := C118_replay bytes speedup now r hr hs _ h2 r.start calls
    exact ⟨this.1, this.2.1⟩
  · subst hsp
    have := (C118_unpaced bytes now r hr _ h2 r.start calls).1 (by simpa using hl)
    rw [hset] at this
    simpa using this
  · obtain ⟨T, hT⟩ := C118_paced bytes speedup now r hr hsp _ h2 r.start before (.inl (by rw [openLog_start bytes speedup now r hr]; rfl))
    refine ⟨T, fun calls hc hl => ?_⟩
    have := (hT calls hc (by simpa using hl)).1
    rw [hset] at this
    simpa using this

/-! ## Example: ten bytes in two frames, logged with another frame between them -/

def tenLog : List (CANFrame × Rat) :=
  [(((tenSent[0]?.map sentAs).getD otherFrame), 5), (otherFrame, 6), (((tenSent[1]?.map sentAs).getD otherFrame), 7)]

example : (∀ w ∈ tenLog, Valid w) ∧
    ∃ f g, tenSent = [f, g] ∧ Mixed (fun f w => w.1 = sentAs f) (fun w => some w.1) f tenSent tenLog := by
  constructor
  · intro w hw
    have : w = tenLog[0] ∨ w = tenLog[1] ∨ w = tenLog[2] := by simpa [tenLog] using hw
    rcases this with rfl | rfl | rfl <;>
      exact ⟨by decide +kernel, by decide +kernel, by decide +kernel, by decide +kernel, by decide +kernel⟩
  obtain ⟨f, g, h⟩ : ∃ f g, tenSent = [f, g] := by
    have hl := ten_onAir.1
    match hs : tenSent, hl with
    | [f, g], _ => exact ⟨f, g, rfl⟩
  refine ⟨f, g, h, ?_⟩
  have e : tenLog = [(sentAs f, 5), (otherFrame, 6), (sentAs g, 7)] := by simp [tenLog, h]
  rw [e, h]
  refine .own rfl (.other ?_ (.last rfl))
  intro x hx hk
  injection hx with hx
  subst hx
  have hb : (tenSent[0]?.map fun f => f.bytes.getLast?.map fun b => b.toNat % 32) = some (some 3) := by decide +kernel
  rw [h] at hb
  have hb' := Option.some.inj hb
  have := hk.2.2.trans hb'
  revert this
  decide +kernel

/-- The log, and what is replayed. -/
example : ((writeAll tenLog).toOption.bind fun bytes => (openLog bytes (-1) 100).toOption.map fun r =>
    delivered (receives [(100, none), (100, none), (100, none), (100, none)] r).1) = some (tenLog.map (·.1)) := by decide +kernel

end EndToEnd
end Dronecan
