import Verif.Props.LogFile
import Verif.Props.LogRead
import Verif.Proofs.FlMono

/-!
# A log that can be opened can be replayed to its end (C118)
-/

namespace Dronecan
namespace LogFile
open Can

/-! ## Specification -/

/-- The content is records of the frames, one after the other, and then fewer bytes than a header has. -/
inductive Consists : List CANFrame → List Byte → Prop
  | done (tail : List Byte) : tail.length < 20 → Consists [] tail
  | record {r : List Byte} {f : CANFrame} {fs : List CANFrame} {bytes : List Byte} :
      IsRecord r f → Consists fs bytes → Consists (f :: fs) (r ++ bytes)

/-! ## Proofs -/

theorem IsRecord.length {bytes : List Byte} {f : CANFrame} (h : IsRecord bytes f) : bytes.length = 20 + f.data.length := by
  obtain ⟨magic, stamp, crc, len, flags, id, h0, h1, h2, h3, h4, h5, h6, -⟩ := h
  rw [h0]
  simp only [List.length_append]
  omega

/-- A record at the position is what `_read_frame` returns. -/
theorem readFrame_record (now : Rat) (r : Reader) (s : Rat) (hs : r.start = some s) (bytes tail : List Byte) (f : CANFrame)
    (hr : IsRecord bytes f) (hpos : r.pos ≤ r.content.length) (h : r.content.drop r.pos = bytes ++ tail) :
    ∃ x ts, readFrame now r = (.ok (some (x, ts)), { r with pos := r.pos + bytes.length }) ∧ x.frame = f := by
  have hbl := hr.length
  obtain ⟨magic, stamp, crc, len, flags, id, h0, h1, h2, h3, h4, h5, h6, g1, g2, g3, g4, g5, g6⟩ := hr
  rw [h0, List.append_assoc _ f.data tail] at h
  have hlen : r.content.length = r.pos + (20 + f.data.length + tail.length) := by
    have := congrArg List.length h
    simp only [List.length_drop, List.length_append] at this
    omega
  have hhl : (magic ++ stamp ++ crc ++ len ++ flags ++ id).length = 20 := by simp only [List.length_append]; omega
  have hhead : (r.content.drop r.pos).take 20 = magic ++ stamp ++ crc ++ len ++ flags ++ id := by
    rw [h, ← hhl, List.take_left]
  have f1 : (magic ++ stamp ++ crc ++ len ++ flags ++ id).take 2 = magic := by
    simp only [List.append_assoc]; rw [← h1, List.take_left]
  have f2 : ((magic ++ stamp ++ crc ++ len ++ flags ++ id).drop 10).take 2 = crc := by
    have : magic ++ stamp ++ crc ++ len ++ flags ++ id = (magic ++ stamp) ++ (crc ++ (len ++ flags ++ id)) := by simp
    rw [this, List.drop_left' (by simp only [List.length_append]; omega), ← h3, List.take_left]
  have f3 : ((magic ++ stamp ++ crc ++ len ++ flags ++ id).drop 12).take 2 = len := by
    have : magic ++ stamp ++ crc ++ len ++ flags ++ id = (magic ++ stamp ++ crc) ++ (len ++ (flags ++ id)) := by simp
    rw [this, List.drop_left' (by simp only [List.length_append]; omega), ← h4, List.take_left]
  have f4 : ((magic ++ stamp ++ crc ++ len ++ flags ++ id).drop 14).take 2 = flags := by
    have : magic ++ stamp ++ crc ++ len ++ flags ++ id = (magic ++ stamp ++ crc ++ len) ++ (flags ++ id) := by simp
    rw [this, List.drop_left' (by simp only [List.length_append]; omega), ← h5, List.take_left]
  have f5 : ((magic ++ stamp ++ crc ++ len ++ flags ++ id).drop 16).take 4 = id := by
    rw [List.drop_left' (by simp only [List.length_append]; omega), ← h6, List.take_length]
  have f6 : (r.content.drop (r.pos + 20)).take f.data.length = f.data := by
    rw [← List.drop_drop, h, List.drop_left' hhl, List.take_left]
  unfold readFrame
  rw [if_neg (by omega)]
  dsimp only
  rw [hhead, hhl, if_neg (by omega), f1, ← num_eq, g1, if_neg (by simp), f3, ← num_eq len, g3, f6,
    if_neg (by omega), f2, ← num_eq crc, if_neg (by simp [g2]), f4, f5, ← num_eq flags, ← num_eq id, hs]
  dsimp only
  refine ⟨_, _, Prod.ext rfl ?_, ?_⟩
  · rw [hbl, ← Nat.add_assoc]
  · obtain ⟨cid, data, ext, fd⟩ := f
    simp only at g4 g5 g6
    rw [g4, g5, g6]
    simp only [CANFrame.mk.injEq]
    refine ⟨?_, trivial, ?_, ?_⟩
    · rw [show (0x1FFFFFFF : Nat) = 2 ^ 29 - 1 from rfl, Nat.and_two_pow_sub_one_eq_mod]
    · rw [Nat.testBit_eq_decide_div_mod_eq]
    · rw [Nat.testBit_eq_decide_div_mod_eq]; simp

/-- Fewer bytes than a header has: there is no further frame. -/
theorem readFrame_tail (now : Rat) (r : Reader) (hpos : r.pos ≤ r.content.length) (h : (r.content.drop r.pos).length < 20) :
    readFrame now r = (.ok none, if r.pos = r.content.length then { r with eof := true } else { r with pos := r.content.length }) := by
  unfold readFrame
  rw [List.length_drop] at h
  by_cases hp : r.pos = r.content.length
  · rw [if_pos (by omega), if_pos hp]
  · rw [if_neg (by omega), if_neg hp]
    dsimp only
    rw [List.take_of_length_le (by rw [List.length_drop]; omega), List.length_drop, if_pos h]
    rw [show r.pos + (r.content.length - r.pos) = r.content.length by omega]

/-- `_read_frame` where the rest of the file is as it should be. -/
theorem readFrame_next (now : Rat) (r : Reader) (s : Rat) (hs : r.start = some s) (hpos : r.pos ≤ r.content.length)
    (fs : List CANFrame) (h : Consists fs (r.content.drop r.pos)) :
    (∃ x ts p fs', fs = x.frame :: fs' ∧ readFrame now r = (.ok (some (x, ts)), { r with pos := p }) ∧ r.pos + 20 ≤ p ∧
      p ≤ r.content.length ∧ Consists fs' (r.content.drop p)) ∨
    (fs = [] ∧ readFrame now r =
      (.ok none, if r.pos = r.content.length then { r with eof := true } else { r with pos := r.content.length })) := by
  generalize hd : r.content.drop r.pos = rest at h
  cases h with
  | done _ ht => exact .inr ⟨rfl, readFrame_tail now r hpos (by rw [hd]; exact ht)⟩
  | @record bytes f fs' tail hr hc =>
    left
    obtain ⟨x, ts, e1, e2⟩ := readFrame_record now r s hs bytes tail f hr hpos hd
    have hl := hr.length
    have hlen := congrArg List.length hd
    simp only [List.length_drop, List.length_append] at hlen
    refine ⟨x, ts, _, fs', by rw [e2], e1, by omega, by omega, ?_⟩
    rw [← List.drop_drop, hd, List.drop_left]
    exact hc

theorem readFrame_none (now : Rat) (r r' : Reader) (h : readFrame now r = (.ok none, r')) :
    (r.content.drop r.pos).length < 20 := by
  unfold readFrame at h
  split at h
  · rw [List.length_drop]; omega
  · dsimp only at h
    split at h
    · rename_i hl
      rw [List.length_take] at hl
      omega
    · split at h
      · cases h
      · split at h
        · cases h
        · split at h
          · cases h
          · split at h <;> simp at h

theorem readFrame_start (now : Rat) (r : Reader) : (readFrame now r).2.start = r.start := by
  unfold readFrame
  split
  · rfl
  · dsimp only
    repeat' split
    all_goals rfl

theorem readFrame_error (now : Rat) (r r' : Reader) (s : Rat) (hs : r.start = some s) (e : Err)
    (h : readFrame now r = (.error e, r')) : e = .driverError := by
  unfold readFrame at h
  split at h
  · cases h
  · dsimp only at h
    split at h
    · cases h
    · split at h
      · simp only [Prod.mk.injEq, Except.error.injEq] at h; exact h.1.symm
      · split at h
        · simp only [Prod.mk.injEq, Except.error.injEq] at h; exact h.1.symm
        · split at h
          · simp only [Prod.mk.injEq, Except.error.injEq] at h; exact h.1.symm
          · rw [hs] at h
            simp at h

theorem readFrame_forward (now : Rat) (r r' : Reader) (x : RxFrame) (ts : Rat)
    (h : readFrame now r = (.ok (some (x, ts)), r')) : r.pos + 20 ≤ r'.pos ∧ r'.pos ≤ r.content.length := by
  unfold readFrame at h
  split at h
  · cases h
  · dsimp only at h
    split at h
    · cases h
    · rename_i hl
      split at h
      · cases h
      · split at h
        · cases h
        · split at h
          · cases h
          · split at h
            · cases h
            · simp only [Prod.mk.injEq] at h
              obtain ⟨-, h⟩ := h
              subst h
              simp only [List.length_take, List.length_drop] at hl ⊢
              omega

/-! ### Opening -/

/-- The loop over the rest of the file comes to its end just when the rest is as it should be. -/
theorem lastLoop_consists (now : Rat) (n : Nat) : ∀ (r : Reader) (s : Rat), r.start = some s → r.pos ≤ r.content.length →
    r.content.length - r.pos < n →
    ((∃ r', lastLoop now n r = (.ok (), r')) ∧ ∃ fs, Consists fs (r.content.drop r.pos)) ∨
    ((∃ r', lastLoop now n r = (.error .driverError, r')) ∧ ¬ ∃ fs, Consists fs (r.content.drop r.pos)) := by
  induction n with
  | zero => intro r s _ _ h; omega
  | succ n ih =>
    intro r s hs hpos hn
    have hnext := fun fs => readFrame_next now r s hs hpos fs
    have hstart := readFrame_start now r
    simp only [lastLoop]
    match hf : readFrame now r with
    | (.error e, r') =>
      have he := readFrame_error now r r' s hs e hf
      subst he
      refine .inr ⟨⟨r', rfl⟩, fun ⟨fs, h⟩ => ?_⟩
      rcases hnext fs h with ⟨x, ts, p, fs', -, h1, -⟩ | ⟨-, h1⟩ <;> rw [hf] at h1 <;> simp at h1
    | (.ok none, r') =>
      exact .inl ⟨⟨_, rfl⟩, [], .done _ (readFrame_none now r r' hf)⟩
    | (.ok (some (x, ts)), r') =>
      obtain ⟨s1, bytes, s2, s3⟩ := readFrame_sound now r r' x ts hf
      obtain ⟨p1, p2⟩ := readFrame_forward now r r' x ts hf
      rw [hf] at hstart
      dsimp only at hstart ⊢
      have := ih { r' with last := some ts } s (hstart.trans hs) (by rw [s1]; exact p2) (by simp only [s1]; omega)
      rcases this with ⟨h1, fs, h2⟩ | ⟨h1, h2⟩ <;> simp only [s1] at h2
      · exact .inl ⟨h1, x.frame :: fs, by rw [s3]; exact .record s2 h2⟩
      · refine .inr ⟨h1, fun ⟨fs, h⟩ => h2 ?_⟩
        rcases hnext fs h with ⟨x', ts', p, fs', -, h3, -, -, h4⟩ | ⟨-, h3⟩
        · rw [hf] at h3
          simp only [Prod.mk.injEq] at h3
          exact ⟨fs', by rw [h3.2]; exact h4⟩
        · rw [hf] at h3; simp at h3

theorem lastLoop_keeps (now : Rat) (n : Nat) : ∀ r, (lastLoop now n r).2.content = r.content ∧
    (lastLoop now n r).2.curr = r.curr ∧ (lastLoop now n r).2.speedup = r.speedup := by
  induction n with
  | zero => intro r; exact ⟨rfl, rfl, rfl⟩
  | succ n ih =>
    intro r
    have hp := readFrame_pos now r
    unfold lastLoop
    split
    · rename_i hf; rw [hf] at hp; exact ⟨hp.1, hp.2.2.1, hp.2.2.2⟩
    · rename_i hf; rw [hf] at hp; exact ⟨hp.1, hp.2.2.1, hp.2.2.2⟩
    · rename_i x r2 hf
      rw [hf] at hp
      obtain ⟨a, b, c⟩ := ih { r2 with last := some x.2 }
      exact ⟨a.trans hp.1, b.trans hp.2.2.1, c.trans hp.2.2.2⟩

/-- The driver just after a log was opened. -/
theorem openLog_state (content : List Byte) (speedup now : Rat) (r : Reader) (h : openLog content speedup now = .ok r) :
    r.content = content ∧ r.pos = 0 ∧ r.curr = none ∧ r.eof = false ∧ r.speedup = speedup := by
  unfold openLog at h
  split at h
  · cases h
  · cases h
  · rename_i x r1 h1
    have p1 := readFrame_pos now { content := content, start := some now, speedup := speedup }
    rw [h1] at p1
    have p2 := lastLoop_keeps now (content.length + 1) { r1 with startFile := x.2 }
    split at h
    · cases h
    · rename_i r2 h2
      rw [h2] at p2
      injection h with h
      subst h
      exact ⟨p2.1.trans p1.1, rfl, p2.2.1.trans p1.2.2.1, rfl, p2.2.2.trans p1.2.2.2⟩

theorem openLog_cases (content : List Byte) (speedup now : Rat) :
    ((∃ r, openLog content speedup now = .ok r) ∧ ∃ f fs, Consists (f :: fs) content) ∨
    (openLog content speedup now = .error .driverError ∧ ¬ ∃ f fs, Consists (f :: fs) content) := by
  have hnext := fun fs => readFrame_next now { content := content, start := some now, speedup := speedup } now rfl (Nat.zero_le _) fs
  have hstart := readFrame_start now { content := content, start := some now, speedup := speedup }
  simp only [List.drop_zero] at hnext
  unfold openLog
  match hf : readFrame now { content := content, start := some now, speedup := speedup } with
  | (.error e, r') =>
    have he := readFrame_error now _ r' now rfl e hf
    subst he
    refine .inr ⟨rfl, fun ⟨f, fs, h⟩ => ?_⟩
    rcases hnext _ h with ⟨x, ts, p, fs', -, h1, -⟩ | ⟨-, h1⟩ <;> rw [hf] at h1 <;> simp at h1
  | (.ok none, r') =>
    refine .inr ⟨rfl, fun ⟨f, fs, h⟩ => ?_⟩
    rcases hnext _ h with ⟨x, ts, p, fs', -, h1, -⟩ | ⟨h1, -⟩
    · rw [hf] at h1; simp at h1
    · cases h1
  | (.ok (some (x, ts)), r') =>
    obtain ⟨s1, bytes, s2, s3⟩ := readFrame_sound now _ r' x ts hf
    obtain ⟨p1, p2⟩ := readFrame_forward now _ r' x ts hf
    rw [hf] at hstart
    simp only [List.drop_zero] at s1 s3 p1 p2 hstart
    dsimp only
    rcases lastLoop_consists now (content.length + 1) { r' with startFile := ts } now hstart (by simp only [s1]; exact p2)
        (by simp only [s1]; omega) with ⟨⟨r2, h1⟩, fs, h2⟩ | ⟨⟨r2, h1⟩, h2⟩
    · rw [h1]
      simp only [s1] at h2
      exact .inl ⟨⟨_, rfl⟩, x.frame, fs, by rw [s3]; exact .record s2 h2⟩
    · rw [h1]
      simp only [s1] at h2
      refine .inr ⟨rfl, fun ⟨f, fs, h⟩ => h2 ?_⟩
      rcases hnext _ h with ⟨x', ts', p, fs', -, h3, -, -, h4⟩ | ⟨h3, -⟩
      · rw [hf] at h3
        simp only [Prod.mk.injEq] at h3
        exact ⟨fs', by rw [h3.2]; exact h4⟩
      · cases h3

/-! ### Replaying -/

/-- The frames `fs` are those not delivered yet. -/
structure Holds (r : Reader) (fs : List CANFrame) : Prop where
  le : r.pos ≤ r.content.length
  eof : r.eof = true → r.curr = none ∧ fs = []
  rest : (r.curr = none ∧ Consists fs (r.content.drop r.pos)) ∨
    ∃ x fs', r.curr = some x ∧ fs = x.frame :: fs' ∧ Consists fs' (r.content.drop r.pos)

/-- One call of `receive`. -/
theorem receive_holds (now : Rat) (timeout : Option Rat) (r : Reader) (fs : List CANFrame) (h : Holds r fs) (hs : r.speedup ≠ 0) :
    (∃ x fs', fs = x.frame :: fs' ∧ (receive now timeout r).1 = .ok (some x) ∧ Holds (receive now timeout r).2 fs') ∨
    ((receive now timeout r).1 = .ok none ∧ Holds (receive now timeout r).2 fs ∧
      (∀ f fs', fs = f :: fs' → ∃ x, (receive now timeout r).2.curr = some x ∧ ¬ Due r.speedup now timeout x)) := by
  obtain ⟨content, pos, eof, curr, start, startFile, last, speedup⟩ := r
  obtain ⟨hle, heof, hrest⟩ := h
  simp only at hle heof hrest hs
  unfold receive
  cases eof with
  | true =>
    obtain ⟨rfl, rfl⟩ := heof rfl
    exact .inr ⟨rfl, ⟨hle, heof, hrest⟩, fun f fs' hf => nomatch hf⟩
  | false =>
    simp only [Bool.false_eq_true, if_false]
    rcases hrest with ⟨rfl, hr⟩ | ⟨x, fs', rfl, e, hr⟩
    · dsimp only
      rcases readFrame_next now ⟨content, pos, false, none, some (start.getD now), startFile, last, speedup⟩ (start.getD now)
          rfl hle fs hr with ⟨x, ts, p, fs', e, h1, h2, h3, h4⟩ | ⟨e, h1⟩
      · rw [h1]
        dsimp only
        obtain ⟨d1, d2⟩ := deliver_due now timeout x
          ⟨content, p, false, some x, some (start.getD now), startFile, last, speedup⟩ hs
        by_cases hd : Due speedup now timeout x
        · rw [d1 hd]
          exact .inl ⟨x, fs', e, rfl, h3, (fun h => nomatch h), .inl ⟨rfl, h4⟩⟩
        · rw [d2 hd]
          exact .inr ⟨rfl, ⟨h3, (fun h => nomatch h), .inr ⟨x, fs', rfl, e, h4⟩⟩, fun _ _ _ => ⟨x, rfl, hd⟩⟩
      · rw [h1]
        subst e
        dsimp only
        refine .inr ⟨rfl, ?_, fun _ _ h => nomatch h⟩
        split
        · exact ⟨hle, fun _ => ⟨rfl, rfl⟩, .inl ⟨rfl, hr⟩⟩
        · exact ⟨Nat.le_refl _, fun _ => ⟨rfl, rfl⟩, .inl ⟨rfl, .done _ (by simp)⟩⟩
    · dsimp only
      obtain ⟨d1, d2⟩ := deliver_due now timeout x
        ⟨content, pos, false, some x, some (start.getD now), startFile, last, speedup⟩ hs
      by_cases hd : Due speedup now timeout x
      · rw [d1 hd]
        exact .inl ⟨x, fs', e, rfl, hle, (fun h => nomatch h), .inl ⟨rfl, hr⟩⟩
      · rw [d2 hd]
        exact .inr ⟨rfl, ⟨hle, (fun h => nomatch h), .inr ⟨x, fs', rfl, e, hr⟩⟩, fun _ _ _ => ⟨x, rfl, hd⟩⟩

theorem deliver_keeps (now : Rat) (timeout : Option Rat) (x : RxFrame) (r : Reader) :
    (deliver now timeout x r).2.content = r.content ∧ (deliver now timeout x r).2.pos = r.pos ∧
    (deliver now timeout x r).2.speedup = r.speedup ∧ (deliver now timeout x r).2.eof = r.eof ∧
    (deliver now timeout x r).2.start = r.start ∧ (deliver now timeout x r).2.startFile = r.startFile := by
  rcases deliver_cases now timeout x r with h | ⟨h, -⟩ <;> rw [h] <;> exact ⟨rfl, rfl, rfl, rfl, rfl, rfl⟩

theorem readFrame_startFile (now : Rat) (r : Reader) : (readFrame now r).2.startFile = r.startFile ∧
    (r.eof = true → (readFrame now r).2.eof = true) := by
  unfold readFrame
  split
  · exact ⟨rfl, fun _ => rfl⟩
  · dsimp only
    repeat' split
    all_goals exact ⟨rfl, id⟩

theorem receive_keeps (now : Rat) (timeout : Option Rat) (r : Reader) :
    (receive now timeout r).2.content = r.content ∧ r.pos ≤ (receive now timeout r).2.pos ∧
    (receive now timeout r).2.speedup = r.speedup ∧ (r.eof = true → (receive now timeout r).2 = r) ∧
    (∀ s, r.start = some s → (receive now timeout r).2.start = some s) ∧
    (receive now timeout r).2.startFile = r.startFile := by
  unfold receive
  split
  · exact ⟨rfl, Nat.le_refl _, rfl, fun _ => rfl, fun _ h => h, rfl⟩
  · rename_i he
    dsimp only
    split
    · rename_i x hx
      obtain ⟨a, b, c, -, d, e⟩ := deliver_keeps now timeout x { r with start := some (r.start.getD now) }
      exact ⟨a, Nat.le_of_eq b.symm, c, fun h => absurd h he, fun s h => by rw [d, h]; rfl, e⟩
    · have hp := readFrame_pos now { r with start := some (r.start.getD now) }
      have hq := readFrame_start now { r with start := some (r.start.getD now) }
      have hr := (readFrame_startFile now { r with start := some (r.start.getD now) }).1
      split
      · rename_i hf; rw [hf] at hp hq hr
        exact ⟨hp.1, hp.2.1, hp.2.2.2, fun h => absurd h he, fun s h => by rw [hq, h]; rfl, hr⟩
      · rename_i hf; rw [hf] at hp hq hr
        exact ⟨hp.1, hp.2.1, hp.2.2.2, fun h => absurd h he, fun s h => hq.trans (by rw [h]; rfl), hr⟩
      · rename_i x r1 hf
        rw [hf] at hp hq hr
        obtain ⟨a, b, c, -, d, e⟩ := deliver_keeps now timeout x.1 { r1 with curr := some x.1 }
        refine ⟨a.trans hp.1, ?_, c.trans hp.2.2.2, fun h => absurd h he, fun s h => ?_, e.trans hr⟩
        · rw [b]; exact hp.2.1
        · rw [d]; simp only at hq ⊢; rw [hq, h]; rfl

theorem receives_holds (calls : List (Rat × Option Rat)) : ∀ (r : Reader) (fs : List CANFrame), Holds r fs → r.speedup ≠ 0 →
    NoErrors (receives calls r).1 ∧ ∃ rest, fs = delivered (receives calls r).1 ++ rest ∧ Holds (receives calls r).2 rest := by
  induction calls with
  | nil => intro r fs h _; exact ⟨by simp [NoErrors, receives], fs, rfl, h⟩
  | cons c calls ih =>
    intro r fs h hs
    have hk := (receive_keeps c.1 c.2 r).2.2.1
    simp only [receives]
    rcases receive_holds c.1 c.2 r fs h hs with ⟨x, fs', e1, e2, e3⟩ | ⟨e2, e3, -⟩
    · obtain ⟨a1, rest, a2, a3⟩ := ih _ fs' e3 (by rw [hk]; exact hs)
      refine ⟨?_, rest, ?_, a3⟩
      · intro e he
        rw [e2] at he
        simp only [List.mem_cons, reduceCtorEq, false_or] at he
        exact a1 e he
      · rw [e1, e2]
        simp only [delivered, List.cons_append]
        exact congrArg _ a2
    · obtain ⟨a1, rest, a2, a3⟩ := ih _ fs e3 (by rw [hk]; exact hs)
      refine ⟨?_, rest, ?_, a3⟩
      · intro e he
        rw [e2] at he
        simp only [List.mem_cons, reduceCtorEq, false_or] at he
        exact a1 e he
      · rw [e2]
        simp only [delivered]
        exact a2

theorem holds_open (content : List Byte) (speedup now : Rat) (r : Reader) (h : openLog content speedup now = .ok r)
    (start : Option Rat) (fs : List CANFrame) (hc : Consists fs content) : Holds (setStart start r) fs := by
  obtain ⟨h1, h2, h3, h4, -⟩ := openLog_state content speedup now r h
  refine ⟨by simp [setStart, h2], fun h => absurd h (by simp [setStart, h4]), .inl ⟨h3, ?_⟩⟩
  simp only [setStart, h1, h2, List.drop_zero]
  exact hc

/-! ### Reaching the end -/

/-- With nothing left, `receive` goes to the end of the file and then reports it. -/
theorem receive_end (now : Rat) (timeout : Option Rat) (r : Reader) (h : Holds r []) :
    (r.pos = r.content.length → (receive now timeout r).2.eof = true) ∧
    (receive now timeout r).2.pos = r.content.length ∨ r.eof = true := by
  obtain ⟨content, pos, eof, curr, start, startFile, last, speedup⟩ := r
  obtain ⟨hle, heof, hrest⟩ := h
  simp only at hle heof hrest
  cases eof with
  | true => exact .inr rfl
  | false =>
    left
    rcases hrest with ⟨rfl, hr⟩ | ⟨x, fs', rfl, e, hr⟩
    · unfold receive
      simp only [Bool.false_eq_true, if_false]
      rcases readFrame_next now ⟨content, pos, false, none, some (start.getD now), startFile, last, speedup⟩ (start.getD now)
          rfl hle [] hr with ⟨x, ts, p, fs', e, -⟩ | ⟨e, h1⟩
      · cases e
      · rw [h1]
        dsimp only
        by_cases hp : pos = content.length
        · rw [if_pos hp]; exact ⟨fun _ => rfl, hp⟩
        · rw [if_neg hp]; exact ⟨fun h => absurd h hp, rfl⟩
    · cases e

/-- If every call finds its frame due, that many calls and two more are enough. -/
theorem receives_live (I : Reader → Prop) (C : Rat × Option Rat → Prop)
    (hI : ∀ r c, I r → C c → I (receive c.1 c.2 r).2)
    (hdue : ∀ r c x, I r → C c → (receive c.1 c.2 r).2.curr = some x → Due r.speedup c.1 c.2 x)
    (calls : List (Rat × Option Rat)) : ∀ (r : Reader) (fs : List CANFrame), Holds r fs → r.speedup ≠ 0 → I r →
    (∀ c ∈ calls, C c) →
    (fs.length ≤ calls.length → delivered (receives calls r).1 = fs) ∧
    (fs.length + 2 ≤ calls.length → (receives calls r).2.eof = true) ∧
    (fs.length + 1 ≤ calls.length → r.pos = r.content.length → (receives calls r).2.eof = true) ∧
    (r.eof = true → (receives calls r).2.eof = true) := by
  induction calls with
  | nil =>
    intro r fs h _ _ _
    refine ⟨fun hl => ?_, fun hl => ?_, fun hl => ?_, fun h => h⟩
    · have : fs = [] := List.eq_nil_of_length_eq_zero (by simpa using hl)
      subst this
      rfl
    · simp at hl
    · simp at hl
  | cons c calls ih =>
    intro r fs h hs hi hc
    obtain ⟨k1, k2, k3, k4, -⟩ := receive_keeps c.1 c.2 r
    have hc' : ∀ c' ∈ calls, C c' := fun c' h => hc c' (List.mem_cons_of_mem _ h)
    have hcc := hc c List.mem_cons_self
    simp only [receives, List.length_cons]
    rcases receive_holds c.1 c.2 r fs h hs with ⟨x, fs', e1, e2, e3⟩ | ⟨e2, e3, e4⟩
    · obtain ⟨a1, a2, a3, a4⟩ := ih _ fs' e3 (by rw [k3]; exact hs) (hI r c hi hcc) hc'
      subst e1
      rw [e2]
      simp only [delivered, List.length_cons]
      refine ⟨fun hl => by rw [a1 (by omega)], fun hl => a2 (by omega), fun hl hp => a3 (by omega) ?_, fun he => ?_⟩
      · have := e3.le
        rw [k1] at this ⊢
        omega
      · exact absurd (h.eof he).2 (by simp)
    · have hnil : fs = [] := by
        cases fs with
        | nil => rfl
        | cons f fs' =>
          obtain ⟨x, hx, hn⟩ := e4 f fs' rfl
          exact absurd (hdue r c x hi hcc hx) hn
      subst hnil
      obtain ⟨a1, a2, a3, a4⟩ := ih _ [] e3 (by rw [k3]; exact hs) (hI r c hi hcc) hc'
      rw [e2]
      simp only [delivered, List.length_nil]
      refine ⟨fun _ => a1 (by simp), fun hl => ?_, fun hl hp => ?_, fun he => a4 (by rw [k4 he]; exact he)⟩
      · rcases receive_end c.1 c.2 r h with ⟨-, h2⟩ | h2
        · exact a3 (by simp only [List.length_nil]; omega) (by rw [h2, k1])
        · exact a4 (by rw [k4 h2]; exact h2)
      · rcases receive_end c.1 c.2 r h with ⟨h1, -⟩ | h2
        · exact a4 (h1 hp)
        · exact a4 (by rw [k4 h2]; exact h2)

theorem receives_append (before calls : List (Rat × Option Rat)) : ∀ r,
    receives (before ++ calls) r = ((receives before r).1 ++ (receives calls (receives before r).2).1,
      (receives calls (receives before r).2).2) := by
  induction before with
  | nil => intro r; rfl
  | cons c before ih =>
    intro r
    simp only [List.cons_append, receives, ih]

theorem delivered_append (a b : List (Except Err (Option RxFrame))) : delivered (a ++ b) = delivered a ++ delivered b := by
  induction a with
  | nil => rfl
  | cons x a ih =>
    match x with
    | .ok (some y) => simp only [List.cons_append, delivered, ih]
    | .ok none => simp only [List.cons_append, delivered, ih]
    | .error _ => simp only [List.cons_append, delivered, ih]

/-- The time of the record at `p` in the replay. -/
def stampAt (content : List Byte) (start startFile : Rat) (p : Nat) : Rat :=
  fl (fl (start + fl ((unpackLE ((((content.drop p).take 20).drop 2).take 8) : Rat) / 1000000)) - startFile)

theorem readFrame_ts (now : Rat) (r r' : Reader) (s : Rat) (hs : r.start = some s) (x : RxFrame) (ts : Rat)
    (h : readFrame now r = (.ok (some (x, ts)), r')) : x.ts = now ∨ x.ts = stampAt r.content s r.startFile r.pos := by
  unfold readFrame at h
  split at h
  · cases h
  · dsimp only at h
    split at h
    · cases h
    · split at h
      · cases h
      · split at h
        · cases h
        · split at h
          · cases h
          · rw [hs] at h
            simp only [Prod.mk.injEq, Except.ok.injEq, Option.some.injEq] at h
            obtain ⟨⟨h, -⟩, -⟩ := h
            subst h
            dsimp only
            split
            · exact .inl rfl
            · exact .inr rfl

theorem bound (f : Nat → Rat) (n : Nat) (t0 : Rat) : ∃ T, t0 ≤ T ∧ ∀ p, p ≤ n → f p ≤ T := by
  induction n with
  | zero =>
    by_cases h : t0 ≤ f 0
    · exact ⟨f 0, h, fun p hp => by rw [Nat.le_zero.1 hp]; exact Rat.le_refl⟩
    · exact ⟨t0, Rat.le_refl, fun p hp => by rw [Nat.le_zero.1 hp]; grind⟩
  | succ n ih =>
    obtain ⟨T, h0, h1⟩ := ih
    by_cases h : T ≤ f (n + 1)
    · refine ⟨f (n + 1), Rat.le_trans h0 h, fun p hp => ?_⟩
      by_cases hp' : p = n + 1
      · rw [hp']; exact Rat.le_refl
      · exact Rat.le_trans (h1 p (by omega)) h
    · refine ⟨T, h0, fun p hp => ?_⟩
      by_cases hp' : p = n + 1
      · rw [hp']; grind
      · exact h1 p (by omega)

/-- All frames are due at the time `T`. -/
def Past (T : Rat) (r : Reader) : Prop :=
  0 < r.speedup ∧ (∃ s, r.start = some s ∧ ∀ p, p ≤ r.content.length → stampAt r.content s r.startFile p ≤ T) ∧
  ∀ x, r.curr = some x → x.ts ≤ T

theorem past_receive (T : Rat) (r : Reader) (h : Past T r) (now : Rat) (timeout : Option Rat) (hn : T ≤ now) :
    (receive now timeout r).2.curr = none ∨ r.eof = true := by
  obtain ⟨hp, ⟨s, hs, hb⟩, hc⟩ := h
  unfold receive
  by_cases he : r.eof = true
  · exact .inr he
  · left
    rw [if_neg he]
    dsimp only
    split
    · rename_i x hx
      have hd := C72_past r.speedup now hp timeout x (Rat.le_trans (hc x hx) hn)
      rw [(deliver_due now timeout x { r with start := some (r.start.getD now) } (Rat.ne_of_gt hp)).1 hd]
    · rename_i hx
      have hpos := readFrame_pos now { r with start := some (r.start.getD now) }
      split
      · rename_i e r1 hr; rw [hr] at hpos; exact hpos.2.2.1.trans hx
      · rfl
      · rename_i x r1 hr
        obtain ⟨x, ts⟩ := x
        rw [hr] at hpos
        obtain ⟨f1, f2⟩ := readFrame_forward now _ r1 x ts hr
        simp only at f1 f2
        have hts : x.ts ≤ now := by
          rcases readFrame_ts now _ r1 s (by rw [hs]; rfl) x ts hr with h | h
          · rw [h]; exact Rat.le_refl
          · rw [h]; exact Rat.le_trans (hb r.pos (by omega)) hn
        have hsp : r1.speedup = r.speedup := hpos.2.2.2
        have hd := C72_past r1.speedup now (by rw [hsp]; exact hp) timeout x hts
        rw [(deliver_due now timeout x { r1 with curr := some x } (by rw [hsp]; exact Rat.ne_of_gt hp)).1 hd]

theorem receives_start (calls : List (Rat × Option Rat)) : ∀ (r : Reader), r.eof = false → r.start.isSome ∨ calls ≠ [] →
    (receives calls r).2.start.isSome := by
  have hsome : ∀ (calls : List (Rat × Option Rat)) (r : Reader), r.start.isSome → (receives calls r).2.start.isSome := by
    intro calls
    induction calls with
    | nil => intro r h; exact h
    | cons c calls ih =>
      intro r h
      obtain ⟨s, hs⟩ := Option.isSome_iff_exists.1 h
      exact ih (receive c.1 c.2 r).2 (by rw [(receive_keeps c.1 c.2 r).2.2.2.2.1 s hs]; rfl)
  intro r he h
  rcases h with h | h
  · exact hsome calls r h
  · cases calls with
    | nil => exact absurd rfl h
    | cons c calls =>
      refine hsome calls (receive c.1 c.2 r).2 ?_
      unfold receive
      rw [if_neg (by rw [he]; simp)]
      dsimp only
      split
      · rename_i x hx
        rw [(deliver_keeps c.1 c.2 x { r with start := some (r.start.getD c.1) }).2.2.2.2.1]; rfl
      · have hq := readFrame_start c.1 { r with start := some (r.start.getD c.1) }
        split
        · rename_i hf; rw [hf] at hq; rw [hq]; rfl
        · rename_i hf; rw [hf] at hq
          exact (congrArg Option.isSome hq).trans rfl
        · rename_i x r1 hf
          rw [hf] at hq
          rw [(deliver_keeps c.1 c.2 x.1 { r1 with curr := some x.1 }).2.2.2.2.1]
          exact (congrArg Option.isSome hq).trans rfl

theorem receives_keeps (calls : List (Rat × Option Rat)) : ∀ r, (receives calls r).2.content = r.content ∧
    r.pos ≤ (receives calls r).2.pos ∧ (receives calls r).2.speedup = r.speedup ∧
    (r.eof = true → (receives calls r).2.eof = true) := by
  induction calls with
  | nil => intro r; exact ⟨rfl, Nat.le_refl _, rfl, fun h => h⟩
  | cons c calls ih =>
    intro r
    obtain ⟨a1, a2, a3, a4, -⟩ := receive_keeps c.1 c.2 r
    obtain ⟨b1, b2, b3, b4⟩ := ih (receive c.1 c.2 r).2
    exact ⟨b1.trans a1, Nat.le_trans a2 b2, b3.trans a3, fun h => b4 (by rw [a4 h]; exact h)⟩

/-! ### Progress -/

theorem ratio_le {p q n : Nat} (h : p ≤ q) : (p : Rat) / (n : Rat) ≤ (q : Rat) / (n : Rat) := by
  rw [Rat.div_def, Rat.div_def]
  refine Rat.mul_le_mul_of_nonneg_right (by exact_mod_cast h) ?_
  by_cases hn : n = 0
  · subst hn; decide +kernel
  · exact Rat.le_of_lt (Rat.inv_pos.2 (by exact_mod_cast Nat.pos_of_ne_zero hn))

theorem progress_mono {p q n : Nat} (hn : n ≠ 0) (h : p ≤ q) (hq : q ≤ n) :
    0 ≤ fl (fl ((p : Rat) / (n : Rat)) * 100) ∧ fl (fl ((p : Rat) / (n : Rat)) * 100) ≤ fl (fl ((q : Rat) / (n : Rat)) * 100) ∧
    fl (fl ((q : Rat) / (n : Rat)) * 100) ≤ 100 := by
  have h0 : (0 : Rat) ≤ (p : Rat) / (n : Rat) := by
    have := ratio_le (p := 0) (q := p) (n := n) (Nat.zero_le _)
    rwa [show ((0 : Nat) : Rat) / (n : Rat) = 0 by rw [Rat.div_def]; exact Rat.zero_mul _] at this
  have h1 := ratio_le (n := n) h
  have h2 : (q : Rat) / (n : Rat) ≤ 1 := by
    have := ratio_le (n := n) hq
    rwa [Rat.div_def (n : Rat), Rat.mul_inv_cancel _ (by exact_mod_cast hn)] at this
  have e0 : (0 : Rat) ≤ fl ((p : Rat) / (n : Rat)) := by
    have := fl_mono Rat.le_refl h0
    rwa [fl_zero] at this
  have e1 := fl_mono h0 h1
  have e2 := fl_mono (Rat.le_trans h0 h1) h2
  rw [show fl 1 = 1 by decide +kernel] at e2
  generalize fl ((p : Rat) / (n : Rat)) = a at *
  generalize fl ((q : Rat) / (n : Rat)) = b at *
  refine ⟨?_, fl_mono (by grind) (by grind), ?_⟩
  · have := fl_mono (p := 0) (q := a * 100) Rat.le_refl (by grind)
    rwa [fl_zero] at this
  · have := fl_mono (p := b * 100) (q := 100) (by grind) (by grind)
    rwa [show fl 100 = 100 by decide +kernel] at this

/-! ## C118 -/

/-- A log can be opened just if it consists of at least one record, one after the other, and at most an incomplete header
after the last; otherwise opening it raises `DriverError`. -/
theorem C118_open (content : List Byte) (speedup now : Rat) :
    ((∃ r, openLog content speedup now = .ok r) ↔ ∃ f fs, Consists (f :: fs) content) ∧
    (∀ e, openLog content speedup now = .error e → e = .driverError) := by
  rcases openLog_cases content speedup now with ⟨h1, h2⟩ | ⟨h1, h2⟩
  · refine ⟨⟨fun _ => h2, fun _ => h1⟩, fun e he => ?_⟩
    obtain ⟨r, h1⟩ := h1
    rw [h1] at he
    cases he
  · refine ⟨⟨fun ⟨r, h⟩ => ?_, fun h => absurd h h2⟩, fun e he => ?_⟩
    · rw [h1] at h; cases h
    · rw [h1] at he; injection he with he; exact he.symm

/-- However `receive` is called after opening: it does not raise, returns the frames of the log in their order, none left
out, and all of them before it reports the end; after that the driver stays as it is. -/
theorem C118_replay (content : List Byte) (speedup now : Rat) (r : Reader) (h : openLog content speedup now = .ok r)
    (hs : speedup ≠ 0) (fs : List CANFrame) (hc : Consists fs content) (start : Option Rat) (calls : List (Rat × Option Rat)) :
    NoErrors (receives calls (setStart start r)).1 ∧
    delivered (receives calls (setStart start r)).1 <+: fs ∧
    (endOfStream (receives calls (setStart start r)).2 = true → delivered (receives calls (setStart start r)).1 = fs ∧
      ∀ t timeout, receive t timeout (receives calls (setStart start r)).2 = (.ok none, (receives calls (setStart start r)).2)) := by
  have hh := holds_open content speedup now r h start fs hc
  obtain ⟨a1, rest, a2, a3⟩ := receives_holds calls _ fs hh (by
    rw [show (setStart start r).speedup = r.speedup from rfl, (openLog_state content speedup now r h).2.2.2.2]; exact hs)
  refine ⟨a1, ⟨rest, a2.symm⟩, fun he => ⟨?_, fun t timeout => ?_⟩⟩
  · have := (a3.eof he).2
    rw [this, List.append_nil] at a2
    exact a2.symm
  · unfold receive
    exact if_pos he

/-- Replayed without waiting (`speedup=-1`), each call returns a frame until there are no more, and at most two further
calls report the end. -/
theorem C118_unpaced (content : List Byte) (now : Rat) (r : Reader) (h : openLog content (-1) now = .ok r)
    (fs : List CANFrame) (hc : Consists fs content) (start : Option Rat) (calls : List (Rat × Option Rat)) :
    (fs.length ≤ calls.length → delivered (receives calls (setStart start r)).1 = fs) ∧
    (fs.length + 2 ≤ calls.length → endOfStream (receives calls (setStart start r)).2 = true) := by
  have hh := holds_open content (-1) now r h start fs hc
  have hsp : (setStart start r).speedup = -1 := (openLog_state content (-1) now r h).2.2.2.2
  obtain ⟨a1, a2, -⟩ := receives_live (fun r => r.speedup = -1) (fun _ => True)
    (fun r c hr _ => (receive_keeps c.1 c.2 r).2.2.1.trans hr) (fun r c x hr _ _ => .inl hr) calls _ fs hh
    (by rw [hsp]; decide) hsp (fun _ _ => trivial)
  exact ⟨a1, a2⟩

/-- At any positive speed, and whatever calls were made before: there is a time after which every call returns a frame
until there are no more, and at most two further calls report the end. -/
theorem C118_paced (content : List Byte) (speedup now : Rat) (r : Reader) (h : openLog content speedup now = .ok r)
    (hs : 0 < speedup) (fs : List CANFrame) (hc : Consists fs content) (start : Option Rat)
    (before : List (Rat × Option Rat)) (hb : start.isSome ∨ before ≠ []) :
    ∃ T, ∀ calls : List (Rat × Option Rat), (∀ c ∈ calls, T ≤ c.1) → fs.length + 2 ≤ calls.length →
      delivered (receives (before ++ calls) (setStart start r)).1 = fs ∧
      endOfStream (receives (before ++ calls) (setStart start r)).2 = true := by
  have hh := holds_open content speedup now r h start fs hc
  obtain ⟨o1, o2, o3, o4, o5⟩ := openLog_state content speedup now r h
  have hsp : (setStart start r).speedup ≠ 0 := by
    rw [show (setStart start r).speedup = speedup from o5]; exact Rat.ne_of_gt hs
  obtain ⟨-, rest, a2, a3⟩ := receives_holds before _ fs hh hsp
  have hst := receives_start before (setStart start r) o4 hb
  obtain ⟨k1, k2, k3, -⟩ := receives_keeps before (setStart start r)
  simp only [receives_append, delivered_append]
  generalize (receives before (setStart start r)).2 = r1 at *
  generalize delivered (receives before (setStart start r)).1 = done at *
  obtain ⟨s, hs1⟩ := Option.isSome_iff_exists.1 hst
  obtain ⟨T, hT0, hT1⟩ := bound (stampAt r1.content s r1.startFile) r1.content.length
    (match r1.curr with | some x => x.ts | none => 0)
  refine ⟨T, fun calls hcalls hl => ?_⟩
  have hpast : Past T r1 := by
    refine ⟨by rw [k3, show (setStart start r).speedup = speedup from o5]; exact hs, ⟨s, hs1, hT1⟩, fun x hx => ?_⟩
    rw [hx] at hT0
    exact hT0
  have hkeep : ∀ (r : Reader) (c : Rat × Option Rat), Past T r → T ≤ c.1 → Past T (receive c.1 c.2 r).2 := by
    intro r c hp hT
    obtain ⟨m1, -, m3, m4, m5, m6⟩ := receive_keeps c.1 c.2 r
    obtain ⟨q1, ⟨s, q2, q3⟩, q4⟩ := id hp
    refine ⟨by rw [m3]; exact q1, ⟨s, m5 s q2, by rw [m1, m6]; exact q3⟩, fun x hx => ?_⟩
    rcases past_receive T r hp c.1 c.2 hT with h | h
    · rw [h] at hx; cases hx
    · rw [m4 h] at hx; exact q4 x hx
  have hrest : rest.length ≤ fs.length := by rw [a2, List.length_append]; omega
  obtain ⟨b1, b2, -⟩ := receives_live (Past T) (fun c => T ≤ c.1) hkeep (fun r c x hp hT hx => by
      rcases past_receive T r hp c.1 c.2 hT with h | h
      · rw [h] at hx; cases hx
      · rw [(receive_keeps c.1 c.2 r).2.2.2.1 h] at hx
        exact C72_past r.speedup c.1 hp.1 c.2 x (Rat.le_trans (hp.2.2 x hx) hT)) calls r1 rest a3
    (Rat.ne_of_gt hpast.1) hpast hcalls
  exact ⟨by rw [b1 (by omega), ← a2], b2 (by omega)⟩

/-- `stream_progress` does not raise. It starts at 0, never goes back, stays within 100, and is 100 at the end. -/
theorem C118_progress (content : List Byte) (speedup now : Rat) (r : Reader) (h : openLog content speedup now = .ok r)
    (hs : speedup ≠ 0) (start : Option Rat) (calls more : List (Rat × Option Rat)) :
    streamProgress (setStart start r) = .ok 0 ∧
    ∃ a b, streamProgress (receives calls (setStart start r)).2 = .ok a ∧
      streamProgress (receives (calls ++ more) (setStart start r)).2 = .ok b ∧ 0 ≤ a ∧ a ≤ b ∧ b ≤ 100 ∧
      (endOfStream (receives calls (setStart start r)).2 = true → a = 100) := by
  obtain ⟨f, fs, hc⟩ := (C118_open content speedup now).1.1 ⟨r, h⟩
  have hh := holds_open content speedup now r h start _ hc
  obtain ⟨o1, o2, o3, o4, o5⟩ := openLog_state content speedup now r h
  have hn : r.content.length ≠ 0 := by
    rw [o1]
    cases hc with
    | record hr _ => have := hr.length; rw [List.length_append]; omega
  have hsp : (setStart start r).speedup ≠ 0 := by rw [show (setStart start r).speedup = speedup from o5]; exact hs
  refine ⟨?_, ?_⟩
  · simp only [streamProgress, setStart, o4, hn, o2, Bool.false_eq_true, if_false]
    rw [show ((0 : Nat) : Rat) / (r.content.length : Rat) = 0 by rw [Rat.div_def]; exact Rat.zero_mul _, fl_zero, Rat.zero_mul,
      fl_zero]
  obtain ⟨-, rest, -, a3⟩ := receives_holds calls _ _ hh hsp
  obtain ⟨k1, k2, k3, -⟩ := receives_keeps calls (setStart start r)
  simp only [receives_append]
  generalize (receives calls (setStart start r)).2 = r1 at *
  obtain ⟨-, rest2, -, b3⟩ := receives_holds more r1 rest a3 (by rw [k3]; exact hsp)
  obtain ⟨m1, m2, m3, m4⟩ := receives_keeps more r1
  generalize (receives more r1).2 = r2 at *
  have hn1 : r1.content.length ≠ 0 := by rw [k1]; exact hn
  have hle2 := b3.le
  rw [m1] at hle2
  obtain ⟨p1, p2, p3⟩ := progress_mono hn1 m2 hle2
  unfold streamProgress endOfStream
  rw [m1, if_neg hn1, if_neg hn1]
  by_cases h1 : r1.eof = true
  · rw [if_pos h1, if_pos (m4 h1)]
    exact ⟨100, 100, rfl, rfl, by decide, Rat.le_refl, Rat.le_refl, fun _ => rfl⟩
  · rw [if_neg h1]
    by_cases h2 : r2.eof = true
    · rw [if_pos h2]
      exact ⟨_, 100, rfl, rfl, p1, Rat.le_trans p2 p3, Rat.le_refl, fun h => absurd h h1⟩
    · rw [if_neg h2]
      exact ⟨_, _, rfl, rfl, p1, p2, p3, fun h => absurd h h1⟩

/-! ## Examples -/

/-- Two records and three more bytes. -/
def shortLog : List Byte :=
  [0x34, 0x29, 0, 0, 0, 0, 0, 0, 0, 0, 0xFF, 0xFF, 0, 0, 1, 0, 5, 0, 0, 0x80] ++
    ([0x34, 0x29, 64, 66, 15, 0, 0, 0, 0, 0, 0xFF, 0xFF, 0, 0, 0, 0, 6, 0, 0, 0] ++ [1, 2, 3])

example : Consists [⟨5, [], true, true⟩, ⟨6, [], false, false⟩] shortLog := by
  refine .record ⟨[0x34, 0x29], [0, 0, 0, 0, 0, 0, 0, 0], [0xFF, 0xFF], [0, 0], [1, 0], [5, 0, 0, 0x80], ?_⟩
    (.record ⟨[0x34, 0x29], [64, 66, 15, 0, 0, 0, 0, 0], [0xFF, 0xFF], [0, 0], [0, 0], [6, 0, 0, 0], ?_⟩ (.done _ (by decide)))
  all_goals decide +kernel

/-- Half way through after the first frame; the end after four calls. -/
example : (match openLog shortLog (-1) 100 with
    | .error _ => false
    | .ok r =>
      decide (delivered (receives [(101, none), (101, none)] (setStart none r)).1 = [⟨5, [], true, true⟩, ⟨6, [], false, false⟩]) &&
      !endOfStream (receives [(101, none), (101, none), (101, none)] (setStart none r)).2 &&
      endOfStream (receives [(101, none), (101, none), (101, none), (101, none)] (setStart none r)).2 &&
      (match streamProgress (receives [(101, none)] (setStart none r)).2 with
       | .ok a => decide (46 < a ∧ a < 47)
       | .error _ => false)) = true := by decide +kernel

end LogFile
end Dronecan
