import Verif.Proofs.Transfer

/-!
# C12-C17, C19: CAN identifiers and frame sequences

Vocabulary (`ValidHeader`, `idLayout`, `WellFormedSeq`, `fdLengths`) is in `Verif/Spec/Transfer.lean`.
-/

namespace Dronecan

/-! ## C12 -/

/-- C12: every valid header encodes to the documented 29-bit layout, and decodes back to itself. -/
theorem C12_header_roundtrip (h : Header) (hv : ValidHeader h) :
    encodeId h = .ok (idLayout h) ∧ idLayout h < 2 ^ 29 ∧ decodeId (idLayout h) = h := by
  cases hv with
  | service prio dtid source dest request hp hd hs hd1 hd2 =>
    have hr := bool_toNat_lt request
    refine ⟨?_, ?_, ?_⟩
    · rw [encode_service prio dtid source dest request hd hs hd1 hd2]
      simp only [idLayout, if_true, Option.getD_some, Bool.toNat_true]
      exact congrArg Except.ok (by omega)
    · simp only [idLayout, if_true, Option.getD_some, Bool.toNat_true]
      omega
    · rw [decodeId_eq, if_pos (by simp only [idLayout, if_true, Option.getD_some, Bool.toNat_true]; omega)]
      simp only [idLayout, if_true, Option.getD_some, Bool.toNat_true, Header.mk.injEq, true_and, and_true,
        Option.some.injEq]
      refine ⟨by omega, by omega, by omega, ?_, by omega⟩
      cases request
      · simp only [Bool.toNat_false, decide_eq_false_iff_not]; omega
      · simp only [Bool.toNat_true, decide_eq_true_eq]; omega
  | message prio dtid source hp hd hs1 hs2 =>
    have hs0 : ¬ source = 0 := by omega
    have e : idLayout { prio, source, dtid } = prio * 2 ^ 24 + source + dtid * 2 ^ 8 := by
      simp [idLayout, hs0]
    refine ⟨?_, ?_, ?_⟩
    · rw [encode_message prio dtid source hd hs1 hs2, e]
      exact congrArg Except.ok (by omega)
    · rw [e]; omega
    · rw [decodeId_eq, e, if_neg (by omega), if_neg (by omega)]
      simp only [Header.mk.injEq, and_true, true_and]
      exact ⟨by omega, by omega, by omega⟩
  | anonymous prio dtid disc hp hd hdisc =>
    have e : idLayout { prio, dtid, discriminator := some disc } = prio * 2 ^ 24 + (disc * 2 ^ 10 + dtid * 2 ^ 8) := by
      simp [idLayout]
    refine ⟨?_, ?_, ?_⟩
    · rw [encode_anonymous prio dtid disc hdisc, e]
      exact congrArg Except.ok (by omega)
    · rw [e]; omega
    · rw [decodeId_eq, e, if_neg (by omega), if_pos (by omega)]
      simp only [Header.mk.injEq, and_true, true_and, Option.some.injEq]
      omega

/-- C12: two valid headers with the same identifier are equal. -/
theorem C12_no_overlap (h h' : Header) (hv : ValidHeader h) (hv' : ValidHeader h')
    (he : encodeId h = encodeId h') : h = h' := by
  obtain ⟨a, _, b⟩ := C12_header_roundtrip h hv
  obtain ⟨a', _, b'⟩ := C12_header_roundtrip h' hv'
  rw [a, a'] at he
  have : idLayout h = idLayout h' := by simpa using he
  rw [← b, ← b', this]

/-- C12: every 29-bit identifier decodes to a header that encodes to the same identifier, except service frames for
node 0, which cannot be encoded. -/
theorem C12_id_roundtrip (id : Nat) (hid : id < 2 ^ 29) :
    ((decodeId id).service = true ∧ (decodeId id).dest = some 0 ∧ encodeId (decodeId id) = .error .assertionError)
    ∨ (ValidHeader (decodeId id) ∧ encodeId (decodeId id) = .ok id) := by
  rw [decodeId_eq]
  by_cases hs : id / 128 % 2 = 1
  · rw [if_pos hs]
    by_cases h0 : id / 2 ^ 8 % 128 = 0
    · left
      refine ⟨rfl, by simp only [h0], ?_⟩
      simp only [encodeId, if_true]
      rw [if_neg (by omega), if_pos (by omega)]
    · right
      refine ⟨ValidHeader.service _ _ _ _ _ (by omega) (by omega) (by omega) (by omega) (by omega), ?_⟩
      rw [encode_service _ _ _ _ _ (by omega) (by omega) (by omega) (by omega)]
      congr 1
      by_cases hr : id / 2 ^ 15 % 2 = 1
      · simp only [hr, decide_true, Bool.toNat_true]; omega
      · simp only [hr, decide_false, Bool.toNat_false]; omega
  · rw [if_neg hs]
    right
    by_cases h0 : id % 128 = 0
    · rw [if_pos h0]
      refine ⟨ValidHeader.anonymous _ _ _ (by omega) (by omega) (by omega), ?_⟩
      rw [encode_anonymous _ _ _ (by omega)]
      exact congrArg Except.ok (by omega)
    · rw [if_neg h0]
      refine ⟨ValidHeader.message _ _ _ (by omega) (by omega) (by omega) (by omega), ?_⟩
      rw [encode_message _ _ _ (by omega) (by omega) (by omega)]
      exact congrArg Except.ok (by omega)

/-- C12: the anonymous format keeps only the two low bits of the type ID; everything else survives. -/
theorem C12_anonymous_dtid (prio dtid disc : Nat) (hp : prio < 32) (hdisc : disc < 2 ^ 14) :
    ∃ id, encodeId { prio, dtid, discriminator := some disc } = .ok id ∧
      decodeId id = { prio, dtid := dtid % 4, discriminator := some disc } := by
  have h := encode_anonymous prio dtid disc hdisc false
  have h' := C12_header_roundtrip _ (ValidHeader.anonymous prio (dtid % 4) disc hp (by omega) hdisc)
  refine ⟨_, h, ?_⟩
  rw [← h'.2.2]
  apply congrArg decodeId
  simp [idLayout]; omega

example : ValidHeader { prio := 30, source := 5, dest := some 127, service := true, request := true, dtid := 255 } :=
  .service 30 255 5 127 true (by decide) (by decide) (by decide) (by decide) (by decide)
example : ValidHeader { prio := 0, source := 127, dtid := 65535 } :=
  .message 0 65535 127 (by decide) (by decide) (by decide) (by decide)
example : ValidHeader { prio := 31, dtid := 1, discriminator := some 16383 } :=
  .anonymous 31 1 16383 (by decide) (by decide) (by decide)

/-! ## C17 -/

/-- C17: validation accepts a frame list, reporting transfer ID `tid`, exactly if it is non-empty and well formed. -/
theorem C17_accepts_iff (frames : List Frame) (tid : Byte) :
    validateFrames frames = .ok tid ↔ frames ≠ [] ∧ WellFormedSeq tid.toNat frames := by
  cases frames with
  | nil => simp [validateFrames]
  | cons f fs =>
    simp only [validateFrames]
    cases hb : f.bytes.getLast? with
    | none =>
      have hb' : f.bytes = [] := by simpa using hb
      simp only [reduceCtorEq, false_iff]
      rintro ⟨_, h⟩
      exact (h 0 (by simp)).1 hb'
    | some t =>
      simp only [bind, Except.bind, pure, Except.pure]
      have htid : (t &&& 0x1F#8).toNat < 32 := by rw [and_1F]; omega
      have hspec := checkTails_spec (f :: fs).length (t &&& 0x1F#8) (f :: fs) 0 (by simp)
      have h0 : toggleAt 0 = 0#8 := rfl
      rw [h0, wellFormed_iff_tailOk _ _ htid] at hspec
      have hwf : WellFormedSeq tid.toNat (f :: fs) → tid = t &&& 0x1F#8 := by
        intro h
        have := (h 0 (by simp)).2.1
        simp only [List.getElem_cons_zero, tail_of_getLast? hb] at this
        apply BitVec.eq_of_toNat_eq
        rw [and_1F, this]
      rcases hspec with ⟨a, b⟩ | ⟨a, b⟩ | ⟨a, g, hg, hg'⟩
      · rw [a]
        constructor
        · intro h
          have : t &&& 0x1F#8 = tid := by simpa using h
          rw [← this]; exact ⟨by simp, b⟩
        · rintro ⟨_, h⟩
          rw [hwf h]
      · rw [a]
        simp only [reduceCtorEq, false_iff]
        rintro ⟨_, h⟩
        rw [hwf h] at h
        exact b h
      · rw [a]
        simp only [reduceCtorEq, false_iff]
        rintro ⟨_, h⟩
        obtain ⟨i, hi, rfl⟩ := List.mem_iff_getElem.1 hg
        exact (h i hi).1 hg'

/-- C17: a list of non-empty frames that is not a well-formed transfer is refused with a `TransferError`. -/
theorem C17_refuses_with_transfer_error (frames : List Frame) (hne : frames ≠ [])
    (hb : ∀ f ∈ frames, f.bytes ≠ []) (hbad : ¬ ∃ tid, WellFormedSeq tid frames) :
    validateFrames frames = .error .transferError := by
  cases frames with
  | nil => exact absurd rfl hne
  | cons f fs =>
    simp only [validateFrames]
    cases hl : f.bytes.getLast? with
    | none => exact absurd (by simpa using hl) (hb f List.mem_cons_self)
    | some t =>
      simp only [bind, Except.bind, pure, Except.pure]
      have htid : (t &&& 0x1F#8).toNat < 32 := by rw [and_1F]; omega
      have hspec := checkTails_spec (f :: fs).length (t &&& 0x1F#8) (f :: fs) 0 (by simp)
      have h0 : toggleAt 0 = 0#8 := rfl
      rw [h0, wellFormed_iff_tailOk _ _ htid] at hspec
      rcases hspec with ⟨a, b⟩ | ⟨a, b⟩ | ⟨a, g, hg, hg'⟩
      · exact absurd ⟨_, b⟩ hbad
      · rw [a]
      · exact absurd hg' (hb g hg)

/-- C17 in terms of `from_frames`: no frame list that is not well formed ever yields a transfer. -/
theorem C17_from_frames (db : Registry) (frames : List Frame) (t : InTransfer)
    (h : fromFrames db frames = .ok t) : frames ≠ [] ∧ WellFormedSeq t.tid.toNat frames := by
  cases frames with
  | nil => simp [fromFrames] at h
  | cons f fs =>
    simp only [fromFrames, bind, Except.bind] at h
    cases hv : validateFrames (f :: fs) with
    | error e => rw [hv] at h; simp at h
    | ok tid =>
      rw [hv] at h
      simp only at h
      have := (C17_accepts_iff _ _).1 hv
      split at h
      · simp at h
      · split at h
        · simp at h
        · split at h
          · simp at h
          · simp only [pure, Except.pure, Except.ok.injEq] at h
            rw [← h]; exact this

example : WellFormedSeq 3 [⟨7, [1#8, 0x83#8], none, false⟩, ⟨7, [2#8, 0x23#8], none, false⟩, ⟨7, [0x43#8], none, false⟩] := by
  intro i h
  have : i = 0 ∨ i = 1 ∨ i = 2 := by simp at h; omega
  rcases this with rfl | rfl | rfl <;> decide +revert

/-! ## C19 -/

/-- C19: losing an odd number of consecutive frames strictly inside a well-formed sequence is detected. -/
theorem C19_odd_loss_detected (pre gap post : List Frame) (tid : Nat)
    (h : WellFormedSeq tid (pre ++ gap ++ post)) (hpost : post ≠ []) (hodd : gap.length % 2 = 1) (tid' : Nat) :
    ¬ WellFormedSeq tid' (pre ++ post) := by
  intro h'
  have hp := List.length_pos_iff.2 hpost
  have e1 := (h (pre.length + gap.length) (by simp; omega)).2.2.2.2
  have e2 := (h' pre.length (by simp; omega)).2.2.2.2
  have g1 : (pre ++ gap ++ post)[pre.length + gap.length]'(by simp; omega) = post[0] := by
    rw [List.getElem_append_right (by simp)]; simp
  have g2 : (pre ++ post)[pre.length]'(by simp; omega) = post[0] := by
    rw [List.getElem_append_right (by simp)]; simp
  rw [g1] at e1
  rw [g2, e1] at e2
  omega

/-- C19: losing any number of frames at the beginning, or at the end, of a well-formed sequence is detected. -/
theorem C19_truncation_detected (pre post : List Frame) (tid : Nat)
    (h : WellFormedSeq tid (pre ++ post)) (hpre : pre ≠ []) (hpost : post ≠ []) (tid' : Nat) :
    ¬ WellFormedSeq tid' post ∧ ¬ WellFormedSeq tid' pre := by
  have hp := List.length_pos_iff.2 hpost
  have hq := List.length_pos_iff.2 hpre
  constructor
  · intro h'
    have e1 := (h pre.length (by simp; omega)).2.2.1
    have e2 := (h' 0 hp).2.2.1
    have g1 : (pre ++ post)[pre.length]'(by simp; omega) = post[0] := by
      rw [List.getElem_append_right (by simp)]; simp
    rw [g1, e2] at e1
    omega
  · intro h'
    have e1 := (h (pre.length - 1) (by simp; omega)).2.2.2.1
    have e2 := (h' (pre.length - 1) (by omega)).2.2.2.1
    have g1 : (pre ++ post)[pre.length - 1]'(by simp; omega) = pre[pre.length - 1] :=
      List.getElem_append_left (by omega)
    rw [g1, e2] at e1
    simp at e1
    omega

/-- C19: a frame delivered twice in a row is detected. -/
theorem C19_duplicate_detected (pre post : List Frame) (f : Frame) (tid : Nat)
    (h : WellFormedSeq tid (pre ++ f :: post)) (tid' : Nat) :
    ¬ WellFormedSeq tid' (pre ++ f :: f :: post) := by
  intro h'
  have e1 := (h' pre.length (by simp)).2.2.2.2
  have e2 := (h' (pre.length + 1) (by simp)).2.2.2.2
  have g1 : (pre ++ f :: f :: post)[pre.length]'(by simp) = f := by simp
  have g2 : (pre ++ f :: f :: post)[pre.length + 1]'(by simp) = f := by
    rw [List.getElem_append_right (by omega)]; simp
  rw [g1] at e1
  rw [g2, e1] at e2
  omega

/-- C19: two adjacent frames delivered in swapped order are detected. -/
theorem C19_swap_detected (pre post : List Frame) (f g : Frame) (tid : Nat)
    (h : WellFormedSeq tid (pre ++ f :: g :: post)) (tid' : Nat) :
    ¬ WellFormedSeq tid' (pre ++ g :: f :: post) := by
  intro h'
  have e1 := (h' pre.length (by simp)).2.2.2.2
  have e2 := (h (pre.length + 1) (by simp)).2.2.2.2
  have g1 : (pre ++ g :: f :: post)[pre.length]'(by simp) = g := by simp
  have g2 : (pre ++ f :: g :: post)[pre.length + 1]'(by simp) = g := by
    rw [List.getElem_append_right (by omega)]; simp
  rw [g1] at e1
  rw [g2, e1] at e2
  omega

end Dronecan
