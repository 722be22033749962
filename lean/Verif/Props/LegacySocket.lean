import Verif.Model.LegacySocket
import Verif.Props.Packet

/-!
# The SocketCAN driver where Python's socket module does not know CAN (C159)
-/

namespace Dronecan
namespace LegacySocket
open Can Packet

/-- What other nodes get from a message on the bus: the kernel gives it to them as it is. -/
def Gets (be : Bool) (m : List Byte) (f : CANFrame) : Prop := receive be (some m) = .ok f

/-- A valid frame that is reported as sent is on the bus. -/
def C159_statement : Prop := ∀ (be : Bool) (w : Write) (f g : CANFrame), Valid f → (transmit be w f).feedback = .ok g →
  ∃ m, (transmit be w f).bus = some m ∧ Gets be m f

/-- The same, if every call of `write` succeeds. -/
def C159_fd_statement : Prop := ∀ (be : Bool) (f g : CANFrame), Valid f → (transmit be .accepted f).feedback = .ok g →
  ∃ m, (transmit be .accepted f).bus = some m ∧ Gets be m f

theorem packet_length (be : Bool) (f : CANFrame) (hv : Valid f) (m : List Byte) (h : socketPacket be f = .ok m) :
    m.length = if f.canfd then 72 else 16 := by
  have e := C51_socketcan_layout be f hv
  rw [h] at e
  injection e with e
  have hl := hv.len
  subst e
  cases be <;> cases hc : f.canfd <;> simp [hc] at hl ⊢ <;> omega

/-- **C159**: a classic frame that `write` accepts is on the bus as it is, and is reported. -/
theorem C159_partial (be : Bool) (f : CANFrame) (hv : Valid f) (hc : f.canfd = false) :
    ∃ m, (transmit be .accepted f) = ⟨some m, .ok f⟩ ∧ Gets be m f := by
  obtain ⟨p, h1, h2⟩ := C51_socketcan be f hv
  have hl := packet_length be f hv p h1
  rw [hc, if_neg (by decide)] at hl
  refine ⟨p, ?_, ?_⟩
  · simp only [transmit, h1, given, sizeOf]
    rw [List.take_of_length_le (by simp [hl])]
  · show socketParse be (p.take 72) = .ok f
    rw [List.take_of_length_le (by omega), h2]

/-- Reading a message of 16 bytes. -/
theorem parse16 (be : Bool) (w rest : List Byte) (len x y z : Byte) (hw : w.length = 4) (hr : rest.length = 8) :
    socketParse be (w ++ [len, x, y, z] ++ rest) = .ok ⟨((unpackLE (native be w) &&& 0x1FFFFFFF : Nat) : Int), rest.take len.toNat,
      (unpackLE (native be w)).testBit 31, false⟩ := by
  match w, hw with
  | [a, b, c, d], _ =>
    have hl : ([a, b, c, d] ++ [len, x, y, z] ++ rest).length = 16 := by simp [hr]
    have ht : ([a, b, c, d] ++ [len, x, y, z] ++ rest).take 72 = [a, b, c, d] ++ [len, x, y, z] ++ rest := List.take_of_length_le (by omega)
    simp only [socketParse, ht, hl]
    rw [if_pos (by decide), if_pos trivial]
    simp [unpackLE]

/-- **C159** (CAN FD): an FD frame that `write` accepts is reported as sent, but what is on the bus is a classic frame with the first eight bytes. -/
theorem C159_fd (be : Bool) (f : CANFrame) (hv : Valid f) (hc : f.canfd = true) :
    ∃ m, (transmit be .accepted f) = ⟨some m, .ok f⟩ ∧ Gets be m { f with canfd := false, data := f.data.take 8 } := by
  have e := C51_socketcan_layout be f hv
  have hl := hv.len
  rw [hc, if_pos rfl] at hl
  have hv' : Valid { f with canfd := false, data := f.data.take 8 } := ⟨hv.id0, hv.id1, by simp; omega⟩
  have e' := C51_socketcan_layout be _ hv'
  obtain ⟨p', q1, q2⟩ := C51_socketcan be _ hv'
  rw [e'] at q1
  injection q1 with q1
  have hword : word { f with canfd := false, data := f.data.take 8 } = word f := rfl
  simp only [hword] at q1
  generalize hw : (if be = true then [byteOf (word f) 3, byteOf (word f) 2, byteOf (word f) 1, byteOf (word f) 0]
    else [byteOf (word f) 0, byteOf (word f) 1, byteOf (word f) 2, byteOf (word f) 3]) = w at q1 e
  have hwl : w.length = 4 := by rw [← hw]; cases be <;> rfl
  generalize hr : f.data.take 8 ++ List.replicate (8 - (f.data.take 8).length) (0 : Byte) = rest
  have hrl : rest.length = 8 := by rw [← hr]; simp; omega
  have q1' : w ++ [BitVec.ofNat 8 (f.data.take 8).length, 0, 0, 0] ++ rest = p' := by
    rw [← q1, ← hr]
    simp
  rw [← q1', parse16 be w rest _ _ _ _ hwl hrl] at q2
  have htake : (f.data ++ List.replicate (64 - f.data.length) (0 : Byte)).take 8 = rest := by
    rw [← hr, List.take_append, List.take_replicate]
    congr 2
    simp
    omega
  refine ⟨w ++ [BitVec.ofNat 8 f.data.length, 1, 0, 0] ++ rest, ?_, ?_⟩
  · have h8 : (w ++ [BitVec.ofNat 8 f.data.length, if f.canfd then 1 else 0, 0, 0] ++ f.data ++
        List.replicate ((if f.canfd then 64 else 8) - f.data.length) 0).take 16 = w ++ [BitVec.ofNat 8 f.data.length, 1, 0, 0] ++ rest := by
      rw [hc, if_pos rfl, if_pos rfl, List.append_assoc (_ ++ _), List.take_append]
      have h1 : (w ++ [BitVec.ofNat 8 f.data.length, (1 : Byte), 0, 0]).length = 8 := by simp [hwl]
      rw [h1, htake, List.take_of_length_le (by omega)]
    simp only [transmit, e, given, sizeOf]
    rw [if_neg (by decide), h8]
  · have hlen : (w ++ [BitVec.ofNat 8 f.data.length, 1, 0, 0] ++ rest).length = 16 := by simp [hwl, hrl]
    show socketParse be ((w ++ [BitVec.ofNat 8 f.data.length, 1, 0, 0] ++ rest).take 72) = _
    rw [List.take_of_length_le (by omega), parse16 be w rest _ _ _ _ hwl hrl, ← q2]
    have h3 : rest.take (BitVec.ofNat 8 f.data.length).toNat = rest.take (BitVec.ofNat 8 (f.data.take 8).length).toNat := by
      rw [BitVec.toNat_ofNat, BitVec.toNat_ofNat, Nat.mod_eq_of_lt (by omega), Nat.mod_eq_of_lt (by simp; omega)]
      by_cases h : f.data.length ≤ 8
      · rw [List.take_of_length_le (by omega : f.data.length ≤ 8)]
      · rw [List.take_of_length_le (by omega), List.take_of_length_le (by simp; omega)]
    rw [h3]

/-- **C159** (failure): whatever the frame, if `write` fails then nothing is on the bus, but the frame is reported as sent. -/
theorem C159_failed (be : Bool) (f : CANFrame) (hv : Valid f) : transmit be .failed f = ⟨none, .ok f⟩ := by
  obtain ⟨p, h1, -⟩ := C51_socketcan be f hv
  simp only [transmit, h1]

/-- A frame that is too long for the length field: `struct.error` is what the caller gets, and nothing is sent. -/
theorem C159_error (be : Bool) (w : Write) (f : CANFrame) (h : 256 ≤ f.data.length) : transmit be w f = ⟨none, .error .structError⟩ := by
  have : fits 1 f.data.length = false := by
    simp only [fits]
    simp
    omega
  simp only [transmit, socketPacket, this, Bool.and_false]
  rfl

/-- If `read` fails then `receive` raises `struct.error`. -/
theorem C159_read (be : Bool) : receive be none = .error .structError := by cases be <;> decide +kernel

/-- A message that `read` gives is read as it is with a native socket. -/
theorem C159_receive (be : Bool) (m : List Byte) : receive be (some m) = socketParse be m := by
  simp only [receive, recv, socketParse, List.take_take]
  rfl

/-- A frame with two bytes: classic, and FD. -/
def two (canfd : Bool) : CANFrame := ⟨0x123456, [7, 8], true, canfd⟩

example : Valid (two false) ∧ Valid (two true) ∧
    transmit false .accepted (two false) = ⟨some [0x56, 0x34, 0x12, 0x80, 2, 0, 0, 0, 7, 8, 0, 0, 0, 0, 0, 0], .ok (two false)⟩ ∧
    transmit false .accepted (two true) = ⟨some [0x56, 0x34, 0x12, 0x80, 2, 1, 0, 0, 7, 8, 0, 0, 0, 0, 0, 0], .ok (two true)⟩ :=
  ⟨⟨by decide, by decide, by decide⟩, ⟨by decide, by decide, by decide⟩, by decide +kernel, by decide +kernel⟩

theorem C159_fd_counterexample : ¬ C159_fd_statement := by
  intro h
  have hv : Valid (two true) := ⟨by decide, by decide, by decide⟩
  obtain ⟨m, h1, h2⟩ := C159_fd false (two true) hv rfl
  obtain ⟨m', h3, h4⟩ := h false (two true) (two true) hv (by rw [h1])
  rw [h1] at h3
  injection h3 with h3
  subst h3
  simp only [Gets] at h2 h4
  rw [h2] at h4
  exact absurd h4 (by decide +kernel)

theorem C159_counterexample : ¬ C159_statement := by
  intro h
  have hv : Valid (two false) := ⟨by decide, by decide, by decide⟩
  obtain ⟨m, h1, -⟩ := h false .failed (two false) (two false) hv (by rw [C159_failed _ _ hv])
  rw [C159_failed _ _ hv] at h1
  cases h1

end LegacySocket
end Dronecan
