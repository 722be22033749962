import Verif.Spec.Transfer
import Verif.Proofs.Crc
import Verif.Proofs.Decode2

/-! Helper lemmas about CAN identifiers, tail bytes and frame sequences. -/

namespace Dronecan

/-! ## CAN identifiers -/

theorem shl_or_eq_add (a k b : Nat) (hb : b < 2 ^ k) : a <<< k ||| b = a * 2 ^ k + b := by
  rw [Nat.shiftLeft_eq, Nat.mul_comm, Nat.two_pow_add_eq_or_of_lt hb]

theorem and_5 (x : Nat) : x &&& 0x1F = x % 32 := Nat.and_two_pow_sub_one_eq_mod x 5
theorem and_7 (x : Nat) : x &&& 0x7F = x % 128 := Nat.and_two_pow_sub_one_eq_mod x 7
theorem and_8 (x : Nat) : x &&& 0xFF = x % 256 := Nat.and_two_pow_sub_one_eq_mod x 8
theorem and_2 (x : Nat) : x &&& 0x3 = x % 4 := Nat.and_two_pow_sub_one_eq_mod x 2
theorem and_14 (x : Nat) : x &&& 0x3FFF = x % 16384 := Nat.and_two_pow_sub_one_eq_mod x 14
theorem and_16 (x : Nat) : x &&& 0xFFFF = x % 65536 := Nat.and_two_pow_sub_one_eq_mod x 16

theorem and_bit (x k : Nat) : (x &&& 2 ^ k != 0) = decide (x / 2 ^ k % 2 = 1) := by
  rw [← Nat.testBit_eq_decide_div_mod_eq]
  cases h : x.testBit k with
  | true =>
    have : (x &&& 2 ^ k).testBit k = true := by simp [h]
    have h0 : x &&& 2 ^ k ≠ 0 := by intro h0; simp [h0] at this
    simp [h0]
  | false =>
    have : x &&& 2 ^ k = 0 := by
      apply Nat.eq_of_testBit_eq
      intro i
      rw [Nat.testBit_and, Nat.testBit_two_pow, Nat.zero_testBit]
      by_cases hi : k = i
      · subst hi; simp [h]
      · simp [hi]
    simp [this]

theorem bool_toNat_lt (b : Bool) : b.toNat < 2 := by cases b <;> decide

theorem or6 (a b c d e f : Nat) : a ||| b ||| c ||| d ||| e ||| f = a ||| (d ||| (e ||| (f ||| (b ||| c)))) := by
  ac_rfl
theorem or4 (a b c d : Nat) : a ||| b ||| c ||| d = a ||| (d ||| (b ||| c)) := by ac_rfl
theorem or5 (a b c d e : Nat) : a ||| b ||| c ||| d ||| e = a ||| (d ||| (e ||| (b ||| c))) := by ac_rfl

theorem encode_service (prio dtid source dest : Nat) (request : Bool)
    (hd : dtid < 256) (hs : source < 128) (hd1 : 1 ≤ dest) (hd2 : dest < 128) :
    encodeId { prio, source, dest := some dest, service := true, request, dtid }
      = .ok (prio % 32 * 2 ^ 24 + dtid * 2 ^ 16 + request.toNat * 2 ^ 15 + dest * 2 ^ 8 + 2 ^ 7 + source) := by
  simp only [encodeId, if_true]
  rw [if_neg (by omega), if_neg (by omega)]
  congr 1
  have hr := bool_toNat_lt request
  rw [and_5]
  rw [or6, shl_or_eq_add true.toNat 7 source (by omega)]
  simp only [Bool.toNat_true]
  rw [shl_or_eq_add dest 8 _ (by omega), shl_or_eq_add _ 15 _ (by omega), shl_or_eq_add _ 16 _ (by omega),
    shl_or_eq_add _ 24 _ (by omega)]
  omega

theorem encode_message (prio dtid source : Nat) (hd : dtid < 65536) (hs1 : 1 ≤ source) (hs2 : source < 128)
    (dest : Option Nat) (request : Bool) (disc : Option Nat) :
    encodeId { prio, source, dtid, dest, request, discriminator := disc }
      = .ok (prio % 32 * 2 ^ 24 + dtid * 2 ^ 8 + source) := by
  simp only [encodeId, Bool.false_eq_true, if_false]
  rw [if_neg (by omega), if_neg (by omega)]
  congr 1
  rw [and_5]
  rw [or4, shl_or_eq_add false.toNat 7 source (by omega)]
  simp only [Bool.toNat_false]
  rw [shl_or_eq_add _ 8 _ (by omega), shl_or_eq_add _ 24 _ (by omega)]
  omega

theorem encode_anonymous (prio dtid disc : Nat) (hdisc : disc < 2 ^ 14) (request : Bool) :
    encodeId { prio, dtid, request, discriminator := some disc }
      = .ok (prio % 32 * 2 ^ 24 + disc * 2 ^ 10 + dtid % 4 * 2 ^ 8) := by
  simp only [encodeId, Bool.false_eq_true, if_false, if_true, ne_eq, not_true_eq_false]
  congr 1
  rw [and_5, and_2]
  rw [or5, shl_or_eq_add false.toNat 7 0 (by omega)]
  simp only [Bool.toNat_false]
  rw [shl_or_eq_add _ 8 _ (by omega), shl_or_eq_add _ 10 _ (by omega), shl_or_eq_add _ 24 _ (by omega)]
  omega

/-- `decodeId` with arithmetic instead of bit operations. -/
theorem decodeId_eq (v : Nat) : decodeId v =
    if v / 128 % 2 = 1 then
      { prio := v / 2 ^ 24 % 32, service := true, source := v % 128, dtid := v / 2 ^ 16 % 256,
        request := decide (v / 2 ^ 15 % 2 = 1), dest := some (v / 2 ^ 8 % 128) }
    else if v % 128 = 0 then
      { prio := v / 2 ^ 24 % 32, source := 0, discriminator := some (v / 2 ^ 10 % 16384), dtid := v / 2 ^ 8 % 4 }
    else
      { prio := v / 2 ^ 24 % 32, source := v % 128, dtid := v / 2 ^ 8 % 65536 } := by
  have h7 : (v &&& 0x80 != 0) = decide (v / 128 % 2 = 1) := and_bit v 7
  have h15 : (v &&& 0x8000 != 0) = decide (v / 2 ^ 15 % 2 = 1) := and_bit v 15
  simp only [decodeId, h7, h15, and_5, and_7, and_8, and_2, and_14, and_16, Nat.shiftRight_eq_div_pow]
  by_cases hs : v / 128 % 2 = 1
  · simp [hs]
  · by_cases h0 : v % 128 = 0
    · simp [hs, h0]
    · simp [hs, h0]

/-! ## Bytes -/

theorem forall_byte {P : Byte → Prop} (h : ∀ k : Fin 256, P (BitVec.ofFin k)) (b : Byte) : P b := by
  obtain ⟨k⟩ := b
  exact h k

theorem and_80 (b : Byte) : (b &&& 0x80#8 ≠ 0#8) ↔ b.getLsbD 7 = true := by
  revert b; apply forall_byte; decide +kernel

theorem and_40 (b : Byte) : (b &&& 0x40#8 ≠ 0#8) ↔ b.getLsbD 6 = true := by
  revert b; apply forall_byte; decide +kernel

theorem and_20 (b : Byte) : b &&& 0x20#8 = if b.getLsbD 5 then 0x20#8 else 0#8 := by
  revert b; apply forall_byte; decide +kernel

theorem xor_20 (b : Byte) : (b ^^^ 0x20#8) &&& 0x20#8 = if b.getLsbD 5 then 0#8 else 0x20#8 := by
  revert b; apply forall_byte; decide +kernel

theorem and_1F (b : Byte) : (b &&& 0x1F#8).toNat = b.toNat % 32 := by
  revert b; apply forall_byte; decide +kernel

theorem tailByte_spec (first last : Bool) (prev : Byte) (tid : Nat) :
    (tailByte first last prev tid).getLsbD 7 = first ∧ (tailByte first last prev tid).getLsbD 6 = last ∧
    (tailByte first last prev tid).getLsbD 5 = (!prev.getLsbD 5) ∧
    (tailByte first last prev tid).toNat % 32 = tid % 32 := by
  unfold tailByte
  rw [xor_20, and_5]
  have key : ∀ (first last t5 : Bool) (k : Fin 32),
      let b := (if first then 0x80#8 else 0#8) ||| (if last then 0x40#8 else 0#8) |||
        (if t5 then 0#8 else 0x20#8) ||| BitVec.ofNat 8 k
      b.getLsbD 7 = first ∧ b.getLsbD 6 = last ∧ b.getLsbD 5 = (!t5) ∧ b.toNat % 32 = k := by decide +kernel
  exact key first last (prev.getLsbD 5) ⟨tid % 32, by omega⟩

/-! ## Frame generation -/

theorem frameLoop_ne_nil (id tid : Nat) (fd first : Bool) (prev : Byte) (rem : List Byte) :
    frameLoop id tid fd first prev rem ≠ [] := by
  rw [frameLoop]
  split <;> simp

/-- Everything about the frame loop except tail bytes. -/
theorem frameLoop_content (id tid : Nat) (fd first : Bool) (prev : Byte) (rem : List Byte) :
    joinPayload (frameLoop id tid fd first prev rem) = rem ∧
    (∀ f ∈ frameLoop id tid fd first prev rem,
      f.id = id ∧ f.canfd = fd ∧ f.ts = none ∧ f.bytes ≠ [] ∧ f.bytes.length ≤ frameCap fd + 1) ∧
    (∀ f ∈ (frameLoop id tid fd first prev rem).dropLast, f.bytes.length = frameCap fd + 1) ∧
    ((frameLoop id tid fd first prev rem).length = 1 ↔ rem.length ≤ frameCap fd) := by
  induction hn : rem.length using Nat.strongRecOn generalizing first prev rem with
  | ind n ih =>
    rw [frameLoop]
    have hc := frameCap_pos fd
    by_cases hd : rem.drop (frameCap fd) = []
    · rw [if_pos hd]
      have hl : rem.length ≤ frameCap fd := by simpa using hd
      refine ⟨?_, ?_, ?_, ?_⟩
      · simp [joinPayload, List.take_of_length_le hl]
      · intro f hf
        rw [List.mem_singleton] at hf
        subst hf
        simp [Nat.min_le_left]
      · simp
      · simp; omega
    · rw [if_neg hd]
      have hl : frameCap fd < rem.length := by
        apply Nat.lt_of_not_le
        intro h
        exact hd (by simpa using h)
      generalize tailByte first (decide (rem.length ≤ frameCap fd)) prev tid = tail
      obtain ⟨h1, h2, h3, h4⟩ := ih (rem.drop (frameCap fd)).length (by simp; omega) false tail _ rfl
      have hne := frameLoop_ne_nil id tid fd false tail (rem.drop (frameCap fd))
      refine ⟨?_, ?_, ?_, ?_⟩
      · simp only [joinPayload, List.flatMap_cons, List.dropLast_concat] at h1 ⊢
        rw [h1, List.take_append_drop]
      · intro f hf
        rcases List.mem_cons.1 hf with rfl | hf
        · simp [Nat.min_le_left]
        · exact h2 f hf
      · intro f hf
        rw [List.dropLast_cons_of_ne_nil hne] at hf
        rcases List.mem_cons.1 hf with rfl | hf
        · simp; omega
        · exact h3 f hf
      · have := List.length_pos_iff.2 hne
        simp only [List.length_cons]
        omega

theorem tail_concat (id : Nat) (bs : List Byte) (t : Byte) (fd : Bool) :
    (({ id, bytes := bs ++ [t], canfd := fd } : Frame)).tail = t := by
  simp [Frame.tail]

/-- The tail bytes of the frame loop. -/
theorem frameLoop_tails (id tid : Nat) (fd first : Bool) (prev : Byte) (rem : List Byte) :
    ∀ i (h : i < (frameLoop id tid fd first prev rem).length),
      ((frameLoop id tid fd first prev rem)[i]).tail.toNat % 32 = tid % 32 ∧
      (((frameLoop id tid fd first prev rem)[i]).tail.getLsbD 7 = true ↔ first = true ∧ i = 0) ∧
      (((frameLoop id tid fd first prev rem)[i]).tail.getLsbD 6 = true ↔
        i + 1 = (frameLoop id tid fd first prev rem).length) ∧
      (((frameLoop id tid fd first prev rem)[i]).tail.getLsbD 5 = true ↔ (i + (prev.getLsbD 5).toNat) % 2 = 0) := by
  induction hn : rem.length using Nat.strongRecOn generalizing first prev rem with
  | ind n ih =>
    obtain ⟨t7, t6, t5, tt⟩ := tailByte_spec first (decide (rem.length ≤ frameCap fd)) prev tid
    have hc := frameCap_pos fd
    by_cases hd : rem.drop (frameCap fd) = []
    · have hl : rem.length ≤ frameCap fd := by simpa using hd
      rw [frameLoop, if_pos hd]
      intro i hi
      have hi0 : i = 0 := by simpa using hi
      subst hi0
      simp only [List.getElem_cons_zero, tail_concat]
      refine ⟨tt, by rw [t7]; simp, by rw [t6]; simp [hl], ?_⟩
      rw [t5]
      cases prev.getLsbD 5 <;> simp
    · have hl : frameCap fd < rem.length := by
        apply Nat.lt_of_not_le
        intro h
        exact hd (by simpa using h)
      rw [frameLoop, if_neg hd]
      have hne := frameLoop_ne_nil id tid fd false
        (tailByte first (decide (rem.length ≤ frameCap fd)) prev tid) (rem.drop (frameCap fd))
      have ih' := ih (rem.drop (frameCap fd)).length (by simp; omega) false
        (tailByte first (decide (rem.length ≤ frameCap fd)) prev tid) _ rfl
      have hpos := List.length_pos_iff.2 hne
      intro i hi
      cases i with
      | zero =>
        simp only [List.getElem_cons_zero, tail_concat]
        refine ⟨tt, by rw [t7]; simp, ?_, ?_⟩
        · rw [t6]
          simp only [List.length_cons, decide_eq_true_eq]
          omega
        · rw [t5]
          cases prev.getLsbD 5 <;> simp
      | succ i =>
        simp only [List.getElem_cons_succ]
        obtain ⟨a1, a2, a3, a4⟩ := ih' i (by simpa using hi)
        refine ⟨a1, ?_, ?_, ?_⟩
        · rw [a2]; simp
        · rw [a3]; simp
        · rw [a4, t5]
          cases prev.getLsbD 5 <;> simp <;> omega

theorem wellFormed_frameLoop (id tid : Nat) (fd : Bool) (rem : List Byte) :
    WellFormedSeq (tid % 32) (frameLoop id tid fd true 0x20#8 rem) := by
  intro i h
  obtain ⟨h1, h2, h3, h4⟩ := frameLoop_tails id tid fd true 0x20#8 rem i h
  have hne := (frameLoop_content id tid fd true 0x20#8 rem).2.1 _ (List.getElem_mem h)
  refine ⟨hne.2.2.2.1, h1, by simpa using h2, h3, ?_⟩
  rw [h4]
  have : ((0x20#8).getLsbD 5).toNat = 1 := by decide
  rw [this]
  omega

/-! ## Validation -/

theorem tail_of_getLast? {f : Frame} {t : Byte} (h : f.bytes.getLast? = some t) : f.tail = t := by
  simp [Frame.tail, h]

theorem bytes_ne_of_getLast? {f : Frame} {t : Byte} (h : f.bytes.getLast? = some t) : f.bytes ≠ [] := by
  intro h0; simp [h0] at h

/-- The expected toggle value for frame `idx`. -/
def toggleAt (idx : Nat) : Byte := if idx % 2 = 1 then 0x20#8 else 0#8

theorem toggleAt_succ (idx : Nat) : toggleAt idx ^^^ 0x20#8 = toggleAt (idx + 1) := by
  unfold toggleAt
  rcases Nat.mod_two_eq_zero_or_one idx with h | h
  · rw [if_neg (by omega), if_pos (by omega)]; decide
  · rw [if_pos (by omega), if_neg (by omega)]; decide

theorem toggle_iff (t : Byte) (idx : Nat) : t &&& 0x20#8 = toggleAt idx ↔ (t.getLsbD 5 = true ↔ idx % 2 = 1) := by
  rw [and_20]
  unfold toggleAt
  by_cases h : idx % 2 = 1
  · rw [if_pos h]
    cases t.getLsbD 5 <;> simp [h]
  · rw [if_neg h]
    cases t.getLsbD 5 <;> simp [h]

/-- One frame passes the checks in position `idx` of `n`. -/
def TailOk (n : Nat) (tid : Byte) (idx : Nat) (f : Frame) : Prop :=
  f.bytes ≠ [] ∧ f.tail &&& 0x1F#8 = tid ∧ (f.tail.getLsbD 7 = true ↔ idx = 0) ∧
    (f.tail.getLsbD 6 = true ↔ idx + 1 = n) ∧ (f.tail.getLsbD 5 = true ↔ idx % 2 = 1)

theorem checkTails_cons (n : Nat) (tid : Byte) (idx : Nat) (hidx : idx < n) (f : Frame) (fs : List Frame) :
    (TailOk n tid idx f ∧ checkTails n tid idx (toggleAt idx) (f :: fs) = checkTails n tid (idx + 1) (toggleAt (idx + 1)) fs)
    ∨ (¬ TailOk n tid idx f ∧ (f.bytes = [] → checkTails n tid idx (toggleAt idx) (f :: fs) = .error .indexError) ∧
        (f.bytes ≠ [] → checkTails n tid idx (toggleAt idx) (f :: fs) = .error .transferError)) := by
  rw [checkTails]
  cases hb : f.bytes.getLast? with
  | none =>
    right
    have : f.bytes = [] := by simpa using hb
    exact ⟨fun h => h.1 this, fun _ => rfl, fun h => absurd this h⟩
  | some t =>
    have hne := bytes_ne_of_getLast? hb
    simp only [TailOk, tail_of_getLast? hb]
    by_cases c1 : t &&& 0x1F#8 = tid
    · rw [if_neg (Decidable.not_not.2 c1)]
      simp only [and_80, and_40]
      by_cases c2 : t.getLsbD 7 = true ↔ idx = 0
      · rw [if_neg (by rintro ⟨h1, h2⟩; exact h2 (c2.2 h1)), if_neg (by rintro ⟨h1, h2⟩; have := c2.1 h2; omega)]
        by_cases c3 : t.getLsbD 6 = true ↔ idx + 1 = n
        · rw [if_neg (by rintro ⟨h1, h2⟩; exact h2 (c3.2 h1)), if_neg (by rintro ⟨h1, h2⟩; have := c3.1 h2; omega)]
          by_cases c4 : t.getLsbD 5 = true ↔ idx % 2 = 1
          · left
            rw [if_neg (Decidable.not_not.2 ((toggle_iff t idx).2 c4)), toggleAt_succ]
            exact ⟨⟨hne, c1, c2, c3, c4⟩, rfl⟩
          · right
            rw [if_pos (fun h => c4 ((toggle_iff t idx).1 h))]
            exact ⟨fun h => c4 h.2.2.2.2, fun h => absurd h hne, fun _ => rfl⟩
        · right
          refine ⟨fun h => c3 h.2.2.2.1, fun h => absurd h hne, fun _ => ?_⟩
          by_cases c : idx + 1 = n
          · have : ¬ t.getLsbD 6 = true := fun h => c3 ⟨fun _ => c, fun _ => h⟩
            rw [if_pos ⟨c, this⟩]
          · have : t.getLsbD 6 = true := by
              cases h : t.getLsbD 6 with
              | true => rfl
              | false => exact absurd ⟨fun h' => by (rw [h] at h'; cases h'), fun h' => absurd h' c⟩ c3
            rw [if_neg (fun h => c h.1), if_pos ⟨by omega, this⟩]
      · right
        refine ⟨fun h => c2 h.2.2.1, fun h => absurd h hne, fun _ => ?_⟩
        by_cases c : idx = 0
        · have : ¬ t.getLsbD 7 = true := fun h => c2 ⟨fun _ => c, fun _ => h⟩
          rw [if_pos ⟨c, this⟩]
        · have : t.getLsbD 7 = true := by
            cases h : t.getLsbD 7 with
            | true => rfl
            | false => exact absurd ⟨fun h' => by (rw [h] at h'; cases h'), fun h' => absurd h' c⟩ c2
          rw [if_neg (fun h => c h.1), if_pos ⟨by omega, this⟩]
    · right
      rw [if_pos c1]
      exact ⟨fun h => c1 h.2.1, fun h => absurd h hne, fun _ => rfl⟩

theorem checkTails_spec (n : Nat) (tid : Byte) (fs : List Frame) (idx : Nat) (hn : idx + fs.length = n) :
    (checkTails n tid idx (toggleAt idx) fs = .ok () ∧ ∀ i (h : i < fs.length), TailOk n tid (idx + i) fs[i])
    ∨ (checkTails n tid idx (toggleAt idx) fs = .error .transferError ∧ ¬ ∀ i (h : i < fs.length), TailOk n tid (idx + i) fs[i])
    ∨ (checkTails n tid idx (toggleAt idx) fs = .error .indexError ∧ ∃ f ∈ fs, f.bytes = []) := by
  induction fs generalizing idx with
  | nil => left; exact ⟨rfl, fun i h => by simp at h⟩
  | cons f fs ih =>
    simp only [List.length_cons] at hn
    rcases checkTails_cons n tid idx (by omega) f fs with ⟨h1, h2⟩ | ⟨h1, h2, h3⟩
    · rw [h2]
      rcases ih (idx + 1) (by omega) with ⟨a, b⟩ | ⟨a, b⟩ | ⟨a, g, hg, hg'⟩
      · left
        refine ⟨a, fun i hi => ?_⟩
        cases i with
        | zero => exact h1
        | succ i =>
          have := b i (by simpa using hi)
          simpa [Nat.add_assoc, Nat.add_comm 1] using this
      · right; left
        refine ⟨a, fun h => b fun i hi => ?_⟩
        have := h (i + 1) (by simpa using hi)
        simpa [Nat.add_assoc, Nat.add_comm 1] using this
      · right; right
        exact ⟨a, g, List.mem_cons_of_mem _ hg, hg'⟩
    · by_cases hb : f.bytes = []
      · right; right
        exact ⟨h2 hb, f, List.mem_cons_self, hb⟩
      · right; left
        exact ⟨h3 hb, fun h => h1 (h 0 (by simp))⟩

theorem wellFormed_iff_tailOk (frames : List Frame) (tid : Byte) (htid : tid.toNat < 32) :
    (∀ i (h : i < frames.length), TailOk frames.length tid (0 + i) frames[i]) ↔ WellFormedSeq tid.toNat frames := by
  constructor
  · intro H i h
    obtain ⟨h1, h2, h3, h4, h5⟩ := H i h
    rw [Nat.zero_add] at *
    exact ⟨h1, by rw [← and_1F, h2], h3, h4, h5⟩
  · intro H i h
    obtain ⟨h1, h2, h3, h4, h5⟩ := H i h
    rw [Nat.zero_add]
    refine ⟨h1, ?_, h3, h4, h5⟩
    apply BitVec.eq_of_toNat_eq
    rw [and_1F, h2]

/-! ## Padding -/

theorem roundup_le (m : Nat) (h : m < 65) : m ≤ datalengthRoundup m ∧ datalengthRoundup m ≤ 64 ∧
    datalengthRoundup m - m ≤ 15 ∧ datalengthRoundup m ∈ fdLengths := by
  have : ∀ m : Fin 65, m.val ≤ datalengthRoundup m ∧ datalengthRoundup m ≤ 64 ∧
    datalengthRoundup m - m ≤ 15 ∧ datalengthRoundup m ∈ fdLengths := by decide +kernel
  exact this ⟨m, h⟩

theorem roundup_idem (m : Nat) (h : m < 63) :
    datalengthRoundup (datalengthRoundup m % 63) = datalengthRoundup m % 63 := by
  have : ∀ m : Fin 63, datalengthRoundup (datalengthRoundup m % 63) = datalengthRoundup m % 63 := by decide +kernel
  exact this ⟨m, h⟩

/-- Length of the whole transfer on the bus, as used for padding (one tail byte and the CRC counted once). -/
def fdTotal (n : Nat) : Nat := if n + 1 > 64 then n + 3 else n + 1

/-- Number of padding bytes for a payload of `n` bytes. -/
def fdPad (n : Nat) : Nat :=
  if n > 7 then datalengthRoundup (fdTotal n % 63) - fdTotal n % 63 else 0

theorem padPayload_classic (p : List Byte) : padPayload false p = p := by
  simp [padPayload]

theorem padPayload_fd (p : List Byte) : padPayload true p = p ++ List.replicate (fdPad p.length) 0#8 := by
  unfold padPayload fdPad fdTotal
  by_cases h : p.length > 7
  · rw [if_pos ⟨rfl, h⟩, if_pos h]
  · rw [if_neg (fun hh => h hh.2), if_neg h]; simp

theorem fdPad_le (n : Nat) : fdPad n ≤ 15 := by
  unfold fdPad
  split
  · exact (roundup_le _ (by omega)).2.2.1
  · omega

/-- Total length after padding. -/
theorem fdTotal_pad (n : Nat) (h : n > 7) :
    fdTotal (n + fdPad n) = fdTotal n + fdPad n ∧
    (fdTotal n + fdPad n) % 63 = datalengthRoundup (fdTotal n % 63) % 63 ∧
    (n + fdPad n ≤ 63 ↔ n ≤ 63) := by
  obtain ⟨a, b, c, _⟩ := roundup_le (fdTotal n % 63) (by omega)
  have hp : fdPad n = datalengthRoundup (fdTotal n % 63) - fdTotal n % 63 := by
    unfold fdPad; rw [if_pos h]
  have hm : (fdTotal n + fdPad n) % 63 = datalengthRoundup (fdTotal n % 63) % 63 := by
    rw [hp]
    omega
  refine ⟨?_, hm, ?_⟩
  · by_cases h64 : n + 1 > 64
    · unfold fdTotal
      rw [if_pos (by omega), if_pos h64]; omega
    · have ht : fdTotal n = n + 1 := by unfold fdTotal; rw [if_neg h64]
      have : n + fdPad n + 1 ≤ 64 := by
        rw [hp]
        by_cases h63 : n + 1 < 63
        · rw [ht, Nat.mod_eq_of_lt h63] at a b ⊢; omega
        · have : n + 1 = 63 ∨ n + 1 = 64 := by omega
          rcases this with e | e
          · rw [ht, e]
            have : datalengthRoundup (63 % 63) - 63 % 63 = 0 := by decide
            omega
          · rw [ht, e]
            have : datalengthRoundup (64 % 63) - 64 % 63 = 0 := by decide
            omega
      rw [ht]
      unfold fdTotal
      rw [if_neg (by omega)]; omega
  · constructor
    · omega
    · intro h64
      have ht : fdTotal n = n + 1 := by unfold fdTotal; rw [if_neg (by omega)]
      rw [hp]
      by_cases h63 : n + 1 < 63
      · rw [ht, Nat.mod_eq_of_lt h63] at a b ⊢; omega
      · have : n + 1 = 63 ∨ n + 1 = 64 := by omega
        rcases this with e | e
        · rw [ht, e]
          have : datalengthRoundup (63 % 63) - 63 % 63 = 0 := by decide
          omega
        · rw [ht, e]
          have : datalengthRoundup (64 % 63) - 64 % 63 = 0 := by decide
          omega

theorem fdPad_idem (n : Nat) : fdPad (n + fdPad n) = 0 := by
  by_cases h : n > 7
  · obtain ⟨a, b, _⟩ := fdTotal_pad n h
    have e : ∀ m, m > 7 → fdPad m = datalengthRoundup (fdTotal m % 63) - fdTotal m % 63 := by
      intro m hm; unfold fdPad; rw [if_pos hm]
    rw [e _ (by omega)]
    rw [a, b, roundup_idem _ (by omega)]
    omega
  · have : fdPad n = 0 := by unfold fdPad; rw [if_neg h]
    rw [this, Nat.add_zero, this]

theorem padPayload_idem (fd : Bool) (p : List Byte) : padPayload fd (padPayload fd p) = padPayload fd p := by
  cases fd
  · simp [padPayload_classic]
  · rw [padPayload_fd, padPayload_fd, List.length_append, List.length_replicate, fdPad_idem]
    simp

theorem padPayload_append (fd : Bool) (p : List Byte) :
    ∃ k ≤ 15, (fd = false → k = 0) ∧ padPayload fd p = p ++ List.replicate k 0#8 := by
  cases fd
  · exact ⟨0, by omega, fun _ => rfl, by simp [padPayload_classic]⟩
  · exact ⟨_, fdPad_le p.length, by simp, padPayload_fd p⟩

/-- Length of the last frame produced by the frame loop. -/
theorem frameLoop_last (id tid : Nat) (fd first : Bool) (prev : Byte) (rem : List Byte)
    (h : frameLoop id tid fd first prev rem ≠ []) :
    ((frameLoop id tid fd first prev rem).getLast h).bytes.length =
      if rem.length = 0 then 1 else (rem.length - 1) % frameCap fd + 2 := by
  induction hn : rem.length using Nat.strongRecOn generalizing first prev rem with
  | ind n ih =>
    have hc := frameCap_pos fd
    by_cases hd : rem.drop (frameCap fd) = []
    · have hl : rem.length ≤ frameCap fd := by simpa using hd
      have e : frameLoop id tid fd first prev rem = [{ id, bytes := rem.take (frameCap fd) ++
          [tailByte first (decide (rem.length ≤ frameCap fd)) prev tid], canfd := fd }] := by
        rw [frameLoop, if_pos hd]
      simp only [e, List.getLast_singleton, List.length_append, List.length_take, List.length_singleton]
      by_cases h0 : n = 0
      · simp [h0, hn]
      · rw [if_neg h0, Nat.mod_eq_of_lt (by omega)]; omega
    · have hl : frameCap fd < rem.length := by
        apply Nat.lt_of_not_le
        intro h
        exact hd (by simpa using h)
      have e := frameLoop.eq_1 id tid fd first prev rem
      rw [if_neg hd] at e
      simp only [e]
      have hne := frameLoop_ne_nil id tid fd false
        (tailByte first (decide (rem.length ≤ frameCap fd)) prev tid) (rem.drop (frameCap fd))
      rw [List.getLast_cons hne]
      rw [ih (rem.drop (frameCap fd)).length (by simp; omega) _ _ _ hne rfl]
      rw [List.length_drop, if_neg (by omega), if_neg (by omega), hn]
      congr 1
      rw [show n - 1 = (n - frameCap fd - 1) + frameCap fd by omega, Nat.add_mod_right]

/-! ## CRC bytes -/

theorem crc_bytes (crc : BitVec 16) :
    ((crc &&& 0xFF#16).setWidth 8).setWidth 16 + (((crc >>> 8).setWidth 8 : Byte).setWidth 16 <<< 8) = crc := by
  apply BitVec.eq_of_toNat_eq
  have := crc.isLt
  simp only [BitVec.toNat_add, BitVec.toNat_setWidth, BitVec.toNat_and, BitVec.toNat_shiftLeft,
    BitVec.toNat_ushiftRight, BitVec.toNat_ofNat, Nat.shiftRight_eq_div_pow, Nat.shiftLeft_eq]
  rw [show 255 % 2 ^ 16 = 255 from rfl, and_8]
  omega

end Dronecan
