import Verif.Proofs.Struct
import Verif.Proofs.Double

/-!
# Reading any log file: only frames that are in it, at the right time (C71, C72)
-/

namespace Dronecan
namespace LogFile
open Can

/-! ## Specification -/

/-- A number, least significant byte first. -/
def num : List Byte → Nat
  | [] => 0
  | b :: bs => b.toNat + 256 * num bs

/-- `bytes` is a record of the frame `f`: magic number, time stamp, CRC of the data, length of the data, flags,
identifier, data. -/
def IsRecord (bytes : List Byte) (f : CANFrame) : Prop :=
  ∃ magic stamp crc len flags id : List Byte,
    bytes = magic ++ stamp ++ crc ++ len ++ flags ++ id ++ f.data ∧
    magic.length = 2 ∧ stamp.length = 8 ∧ crc.length = 2 ∧ len.length = 2 ∧ flags.length = 2 ∧ id.length = 4 ∧
    num magic = 0x2934 ∧ num crc = (crc16 0xFFFF f.data).toNat ∧ num len = f.data.length ∧
    f.canfd = decide (num flags % 2 = 1) ∧ f.extended = decide (num id / 2 ^ 31 % 2 = 1) ∧ f.canId = (num id % 2 ^ 29 : Nat)

/-- The content consists of records of the frames, in this order, and anything between and after them. -/
inductive Within : List CANFrame → List Byte → Prop
  | nil (bytes : List Byte) : Within [] bytes
  | skip (junk : List Byte) {fs : List CANFrame} {bytes : List Byte} : Within fs bytes → Within fs (junk ++ bytes)
  | record {r : List Byte} {f : CANFrame} {fs : List CANFrame} {bytes : List Byte} :
      IsRecord r f → Within fs bytes → Within (f :: fs) (r ++ bytes)

/-- The frames among the results of `receive`. -/
def delivered : List (Except Err (Option RxFrame)) → List CANFrame
  | [] => []
  | .ok (some x) :: rs => x.frame :: delivered rs
  | _ :: rs => delivered rs

/-! ## Proofs -/

theorem num_eq (bs : List Byte) : num bs = unpackLE bs := by
  induction bs with
  | nil => rfl
  | cons b bs ih => simp only [num, unpackLE, ih]

/-- What `_read_frame` returns is a record at the position. -/
theorem readFrame_sound (now : Rat) (r r' : Reader) (x : RxFrame) (ts : Rat)
    (h : readFrame now r = (.ok (some (x, ts)), r')) :
    r'.content = r.content ∧ ∃ bytes, IsRecord bytes x.frame ∧ r.content.drop r.pos = bytes ++ r.content.drop r'.pos := by
  unfold readFrame at h
  split at h
  · cases h
  · dsimp only at h
    generalize hh : (r.content.drop r.pos).take 20 = header at h
    split at h
    · cases h
    · rename_i hlen
      have hl20 : header.length = 20 := by
        have : header.length ≤ 20 := by rw [← hh, List.length_take]; omega
        omega
      split at h
      · cases h
      · rename_i hmagic
        generalize hd : (r.content.drop (r.pos + header.length)).take (unpackLE ((header.drop 12).take 2)) = data at h
        split at h
        · cases h
        · rename_i hdl
          have hdl' : data.length = unpackLE ((header.drop 12).take 2) := by
            have : data.length ≤ unpackLE ((header.drop 12).take 2) := by rw [← hd, List.length_take]; omega
            omega
          split at h
          · cases h
          · rename_i hcrc
            split at h
            · cases h
            · simp only [Prod.mk.injEq, Except.ok.injEq, Option.some.injEq] at h
              obtain ⟨⟨hx, -⟩, hr⟩ := h
              subst hr
              refine ⟨rfl, header ++ data, ?_, ?_⟩
              · subst hx
                refine ⟨header.take 2, (header.drop 2).take 8, (header.drop 10).take 2, (header.drop 12).take 2,
                  (header.drop 14).take 2, (header.drop 16).take 4, ?_, ?_⟩
                · have h1 : ∀ (a n : Nat), header.drop a = (header.drop a).take n ++ header.drop (a + n) := by
                    intro a n
                    rw [← List.drop_drop, List.take_append_drop]
                  have h2 : header = header.take 2 ++ (header.drop 2).take 8 ++ (header.drop 10).take 2 ++
                      (header.drop 12).take 2 ++ (header.drop 14).take 2 ++ (header.drop 16).take 4 := by
                    conv => lhs; rw [← List.take_append_drop 2 header, h1 2 8, h1 10 2, h1 12 2, h1 14 2, h1 16 4,
                      List.drop_eq_nil_of_le (show header.length ≤ 16 + 4 by omega)]
                    simp only [List.append_assoc, List.append_nil]
                  exact congrArg (· ++ data) h2
                · simp only [num_eq, List.length_take, List.length_drop, hl20]
                  refine ⟨rfl, rfl, rfl, rfl, rfl, rfl, ?_, ?_, hdl'.symm, ?_, ?_, ?_⟩
                  · exact Classical.byContradiction hmagic
                  · exact Classical.byContradiction hcrc
                  · rw [Nat.testBit_eq_decide_div_mod_eq]; simp
                  · rw [Nat.testBit_eq_decide_div_mod_eq]
                  · rw [show (0x1FFFFFFF : Nat) = 2 ^ 29 - 1 from rfl, Nat.and_two_pow_sub_one_eq_mod]
              · have h3 : r.content.drop r.pos = header ++ r.content.drop (r.pos + header.length) := by
                  conv => lhs; rw [← List.take_append_drop 20 (r.content.drop r.pos), hh, List.drop_drop]
                  rw [hl20]
                have h4 : r.content.drop (r.pos + header.length) =
                    data ++ r.content.drop (r.pos + header.length + data.length) := by
                  conv => lhs; rw [← List.take_append_drop (unpackLE ((header.drop 12).take 2))
                    (r.content.drop (r.pos + header.length)), hd, List.drop_drop]
                  rw [hdl']
                rw [h3, h4, List.append_assoc]

/-- Whatever happens, the position does not go back. -/
theorem readFrame_pos (now : Rat) (r : Reader) : (readFrame now r).2.content = r.content ∧ r.pos ≤ (readFrame now r).2.pos ∧
    (readFrame now r).2.curr = r.curr ∧ (readFrame now r).2.speedup = r.speedup := by
  unfold readFrame
  split
  · exact ⟨rfl, Nat.le_refl _, rfl, rfl⟩
  · dsimp only
    split
    · exact ⟨rfl, Nat.le_add_right _ _, rfl, rfl⟩
    · split
      · exact ⟨rfl, Nat.le_add_right _ _, rfl, rfl⟩
      · split
        · exact ⟨rfl, by simp only; omega, rfl, rfl⟩
        · split
          · exact ⟨rfl, by simp only; omega, rfl, rfl⟩
          · split <;> exact ⟨rfl, by simp only; omega, rfl, rfl⟩

/-- What may still be delivered. -/
def Pending (r : Reader) (fs : List CANFrame) : Prop :=
  match r.curr with
  | none => Within fs (r.content.drop r.pos)
  | some x => fs = [] ∨ ∃ fs', fs = x.frame :: fs' ∧ Within fs' (r.content.drop r.pos)

theorem within_skip {fs : List CANFrame} {content : List Byte} {a b : Nat} (hab : a ≤ b) (h : Within fs (content.drop b)) :
    Within fs (content.drop a) := by
  have : content.drop a = (content.drop a).take (b - a) ++ content.drop b := by
    conv => lhs; rw [← List.take_append_drop (b - a) (content.drop a), List.drop_drop, Nat.add_sub_cancel' hab]
  rw [this]
  exact .skip _ h

theorem deliver_cases (now : Rat) (timeout : Option Rat) (x : RxFrame) (r : Reader) :
    deliver now timeout x r = (.ok (some x), { r with curr := none }) ∨
      ((deliver now timeout x r).2 = r ∧ ∀ y, (deliver now timeout x r).1 ≠ .ok (some y)) := by
  unfold deliver
  dsimp only
  split
  · exact .inl rfl
  · split
    · exact .inr ⟨rfl, by simp⟩
    · split
      · split
        · exact .inr ⟨rfl, by simp⟩
        · split
          · exact .inl rfl
          · exact .inr ⟨rfl, by simp⟩
      · exact .inl rfl

theorem delivered_ne {a : Except Err (Option RxFrame)} (h : ∀ y, a ≠ .ok (some y)) (rs : List (Except Err (Option RxFrame))) :
    delivered (a :: rs) = delivered rs := by
  match a, h with
  | .ok (some y), h => exact absurd rfl (h y)
  | .ok none, _ => rfl
  | .error _, _ => rfl

theorem deliver_pending (now : Rat) (timeout : Option Rat) (x : RxFrame) (r : Reader) (hc : r.curr = some x)
    (rs : List (Except Err (Option RxFrame))) (h : Pending (deliver now timeout x r).2 (delivered rs)) :
    Pending r (delivered ((deliver now timeout x r).1 :: rs)) := by
  rcases deliver_cases now timeout x r with hd | ⟨h1, h2⟩
  · rw [hd] at h ⊢
    simp only [Pending, hc, delivered] at h ⊢
    exact .inr ⟨_, rfl, h⟩
  · rw [delivered_ne h2]
    rwa [h1] at h

theorem receive_pending (now : Rat) (timeout : Option Rat) (r : Reader)
    (rs : List (Except Err (Option RxFrame))) (h : Pending (receive now timeout r).2 (delivered rs)) :
    Pending r (delivered ((receive now timeout r).1 :: rs)) := by
  unfold receive at h ⊢
  split at h
  · rename_i he
    rw [if_pos he]
    exact h
  · rename_i he
    rw [if_neg he]
    dsimp only at h ⊢
    split at h
    · rename_i x hx
      have := deliver_pending now timeout x { r with start := some (r.start.getD now) } hx rs h
      simpa only [Pending] using this
    · rename_i hx
      have hp := readFrame_pos now { r with start := some (r.start.getD now) }
      split at h
      · rename_i e r1 hr
        rw [hr] at hp
        obtain ⟨p1, p2, p3, -⟩ := hp
        rw [delivered_ne (by simp)]
        simp only [Pending, hx] at p1 p2 p3 h ⊢
        rw [p3] at h
        rw [p1] at h
        exact within_skip p2 h
      · rename_i r1 hr
        rw [hr] at hp
        obtain ⟨p1, p2, p3, -⟩ := hp
        rw [delivered_ne (by simp)]
        simp only [Pending, hx] at p1 p2 p3 h ⊢
        rw [p1] at h
        exact within_skip p2 h
      · rename_i x r1 hr
        obtain ⟨x, ts⟩ := x
        obtain ⟨s1, bytes, s2, s3⟩ := readFrame_sound now _ r1 x ts hr
        have := deliver_pending now timeout x { r1 with curr := some x } rfl rs h
        simp only [Pending, hx] at s1 s3 this ⊢
        rcases this with h0 | ⟨fs', h0, h1⟩
        · rw [h0]; exact .nil _
        · rw [h0, s3]
          rw [s1] at h1
          exact .record s2 h1

theorem receives_pending (calls : List (Rat × Option Rat)) : ∀ r, Pending r (delivered (receives calls r).1) := by
  induction calls with
  | nil =>
    intro r
    simp only [receives, delivered, Pending]
    cases r.curr with
    | none => exact .nil _
    | some x => exact .inl trivial
  | cons c cs ih =>
    intro r
    exact receive_pending c.1 c.2 r _ (ih (receive c.1 c.2 r).2)

/-! ## C71 -/

/-- Whatever a file contains: all frames that the calls of `receive` return are in it, one record each, in this order.
In particular the CRC of each is right. -/
theorem C71_sound (content : List Byte) (speedup now : Rat) (r : Reader) (h : openLog content speedup now = .ok r)
    (start : Option Rat) (calls : List (Rat × Option Rat)) :
    Within (delivered (receives calls (setStart start r)).1) content := by
  have hr : r.content = content ∧ r.pos = 0 ∧ r.curr = none := by
    unfold openLog at h
    split at h
    · cases h
    · cases h
    · rename_i x r1 h1
      have p1 := readFrame_pos now { content := content, start := some now, speedup := speedup }
      rw [h1] at p1
      have hl : ∀ n r, (lastLoop now n r).2.content = r.content ∧ (lastLoop now n r).2.curr = r.curr := by
        intro n
        induction n with
        | zero => intro r; exact ⟨rfl, rfl⟩
        | succ n ih =>
          intro r
          have hp := readFrame_pos now r
          unfold lastLoop
          split
          · rename_i hf; rw [hf] at hp; exact ⟨hp.1, hp.2.2.1⟩
          · rename_i hf; rw [hf] at hp; exact ⟨hp.1, hp.2.2.1⟩
          · rename_i x r2 hf
            rw [hf] at hp
            obtain ⟨a, b⟩ := ih { r2 with last := some x.2 }
            exact ⟨a.trans hp.1, b.trans hp.2.2.1⟩
      have p2 := hl (content.length + 1) { r1 with startFile := x.2 }
      split at h
      · cases h
      · rename_i r2 h2
        rw [h2] at p2
        injection h with h
        subst h
        exact ⟨p2.1.trans p1.1, rfl, p2.2.trans p1.2.2.1⟩
  have := receives_pending calls (setStart start r)
  have hc : (setStart start r).curr = none := hr.2.2
  unfold Pending at this
  rw [hc, show (setStart start r).content = content from hr.1, show (setStart start r).pos = 0 from hr.2.1] at this
  exact this

/-- A record whose CRC is wrong is reported, by an exception of the driver. -/
theorem C71_corrupt (now : Rat) (r : Reader) (magic stamp crc len rest data tail : List Byte)
    (hpos : r.pos ≤ r.content.length)
    (h : r.content.drop r.pos = magic ++ stamp ++ crc ++ len ++ rest ++ data ++ tail)
    (h1 : magic.length = 2) (h2 : stamp.length = 8) (h3 : crc.length = 2) (h4 : len.length = 2) (h5 : rest.length = 6)
    (hl : num len = data.length) (hm : num magic = 0x2934) (hc : num crc ≠ (crc16 0xFFFF data).toNat) :
    (readFrame now r).1 = .error .driverError := by
  have hlen : r.content.length = r.pos + (20 + data.length + tail.length) := by
    have := congrArg List.length h
    simp only [List.length_drop, List.length_append] at this
    omega
  have hhead : (r.content.drop r.pos).take 20 = magic ++ stamp ++ crc ++ len ++ rest := by
    rw [h, List.append_assoc _ data tail, List.take_append_of_le_length (by simp only [List.length_append]; omega),
      List.take_of_length_le (by simp only [List.length_append]; omega)]
  have hhl : (magic ++ stamp ++ crc ++ len ++ rest).length = 20 := by simp only [List.length_append]; omega
  have f1 : (magic ++ stamp ++ crc ++ len ++ rest).take 2 = magic := by
    simp only [List.append_assoc]; rw [← h1, List.take_left]
  have f2 : ((magic ++ stamp ++ crc ++ len ++ rest).drop 10).take 2 = crc := by
    have : magic ++ stamp ++ crc ++ len ++ rest = (magic ++ stamp) ++ (crc ++ (len ++ rest)) := by simp
    rw [this, List.drop_left' (by simp only [List.length_append]; omega), ← h3, List.take_left]
  have f3 : ((magic ++ stamp ++ crc ++ len ++ rest).drop 12).take 2 = len := by
    have : magic ++ stamp ++ crc ++ len ++ rest = (magic ++ stamp ++ crc) ++ (len ++ rest) := by simp
    rw [this, List.drop_left' (by simp only [List.length_append]; omega), ← h4, List.take_left]
  have f4 : (r.content.drop (r.pos + 20)).take data.length = data := by
    rw [← List.drop_drop, h, List.append_assoc _ data tail, List.drop_left' hhl, List.take_left]
  unfold readFrame
  rw [if_neg (by omega)]
  dsimp only
  rw [hhead, hhl, if_neg (by omega), f1, ← num_eq, hm, if_neg (by simp), f3, ← num_eq len, hl, f4,
    if_neg (by omega), f2, ← num_eq, if_pos hc]

/-! ## C72 -/

/-- The frame that `receive` would return next: the current one, or the next one in the file. -/
def nextFrame (now : Rat) (r : Reader) : Option RxFrame :=
  match r.curr with
  | some x => some x
  | none =>
    match (readFrame now { r with start := some (r.start.getD now) }).1 with
    | .ok (some x) => some x.1
    | _ => none

/-- Is the frame due, at the time `now`, or so soon that the timeout allows to wait for it? -/
def Due (speedup now : Rat) (timeout : Option Rat) (x : RxFrame) : Prop :=
  speedup = -1 ∨ (speedup ≠ 0 ∧ (fl (fl (x.ts - now) / speedup) ≤ 0 ∨ ∃ t, timeout = some t ∧ fl (fl (x.ts - now) / speedup) ≤ t))

theorem deliver_due (now : Rat) (timeout : Option Rat) (x : RxFrame) (r : Reader) (hs : r.speedup ≠ 0) :
    (Due r.speedup now timeout x → deliver now timeout x r = (.ok (some x), { r with curr := none })) ∧
    (¬ Due r.speedup now timeout x → deliver now timeout x r = (.ok none, r)) := by
  unfold deliver Due
  dsimp only
  split
  · rename_i h1
    exact ⟨fun _ => rfl, fun h => absurd (.inl h1) h⟩
  · rename_i h1
    split
    · rename_i hw
      cases timeout with
      | none =>
        refine ⟨fun h => ?_, fun _ => rfl⟩
        rcases h with h | ⟨-, h | ⟨t, h, -⟩⟩
        · exact absurd h h1
        · exact absurd hw (Rat.not_lt.2 h)
        · cases h
      | some t =>
        dsimp only
        split
        · rename_i ht
          exact ⟨fun _ => rfl, fun h => absurd (.inr ⟨hs, .inr ⟨t, rfl, ht⟩⟩) h⟩
        · rename_i ht
          refine ⟨fun h => ?_, fun _ => rfl⟩
          rcases h with h | ⟨-, h | ⟨t', h, h'⟩⟩
          · exact absurd h h1
          · exact absurd hw (Rat.not_lt.2 h)
          · injection h with h; subst h; exact absurd h' ht
    · rename_i hw
      exact ⟨fun _ => rfl, fun h => absurd (.inr ⟨hs, .inl (Rat.not_lt.1 hw)⟩) h⟩

/-- `receive` returns the next frame if it is due, and otherwise returns nothing and keeps it as the next frame. -/
theorem C72_pacing (now : Rat) (timeout : Option Rat) (r : Reader) (hs : r.speedup ≠ 0) (he : r.eof = false) (x : RxFrame)
    (hx : nextFrame now r = some x) :
    (Due r.speedup now timeout x → (receive now timeout r).1 = .ok (some x) ∧ (receive now timeout r).2.curr = none) ∧
    (¬ Due r.speedup now timeout x → (receive now timeout r).1 = .ok none ∧
      ∀ now', nextFrame now' (receive now timeout r).2 = some x) := by
  obtain ⟨content, pos, eof, curr, start, startFile, last, speedup⟩ := r
  simp only at hs he
  subst he
  unfold receive
  simp only [Bool.false_eq_true, if_false]
  cases curr with
  | some y =>
    simp only [nextFrame, Option.some.injEq] at hx
    subst hx
    obtain ⟨h1, h2⟩ := deliver_due now timeout y ⟨content, pos, false, some y, some (start.getD now), startFile, last, speedup⟩ hs
    refine ⟨fun h => ?_, fun h => ?_⟩
    · simp only [h1 h]; exact ⟨trivial, trivial⟩
    · simp only [h2 h]; exact ⟨trivial, fun now' => rfl⟩
  | none =>
    simp only [nextFrame] at hx
    have hp := (readFrame_pos now ⟨content, pos, false, none, some (start.getD now), startFile, last, speedup⟩).2.2.2
    dsimp only
    generalize readFrame now ⟨content, pos, false, none, some (start.getD now), startFile, last, speedup⟩ = out at hx hp
    obtain ⟨res, r1⟩ := out
    simp only at hx hp
    match res, hx with
    | .ok (some z), hx =>
      injection hx with hx
      subst hx
      subst hp
      obtain ⟨h1, h2⟩ := deliver_due now timeout z.1 { r1 with curr := some z.1 } hs
      refine ⟨fun h => ?_, fun h => ?_⟩
      · dsimp only; rw [h1 h]; exact ⟨rfl, rfl⟩
      · dsimp only; rw [h2 h]; exact ⟨rfl, fun now' => rfl⟩

theorem roundHalfEven_nonpos (m : Rat) (h : m ≤ 0) : roundHalfEven m ≤ 0 := by
  have h1 : (m.floor : Rat) ≤ m := Rat.floor_le m
  have h2 : m.floor ≤ 0 := by exact_mod_cast Rat.le_trans h1 h
  unfold roundHalfEven
  dsimp only
  by_cases h3 : m.floor = 0
  · rw [h3] at h1 ⊢
    have : m = 0 := Rat.le_antisymm h (by exact_mod_cast h1)
    subst this
    decide +kernel
  · repeat' split
    all_goals omega

theorem fl_nonpos (q : Rat) (h : q ≤ 0) : fl q ≤ 0 := by
  unfold fl
  split
  · exact Rat.le_refl
  · have hu : (0 : Rat) < (2 : Rat) ^ (binExp q - 52) := Rat.zpow_pos (by decide)
    generalize (2 : Rat) ^ (binExp q - 52) = u at *
    have h1 : q / u ≤ 0 := by
      rw [Rat.div_def]
      have := Rat.mul_le_mul_of_nonneg_right h (Rat.le_of_lt (Rat.inv_pos.2 hu))
      rwa [Rat.zero_mul] at this
    have h2 : (roundHalfEven (q / u) : Rat) ≤ 0 := by exact_mod_cast roundHalfEven_nonpos _ h1
    have := Rat.mul_le_mul_of_nonneg_right h2 (Rat.le_of_lt hu)
    rwa [Rat.zero_mul] at this

/-- With a positive speed, a frame whose time has come is due, whatever the timeout. -/
theorem C72_past (speedup now : Rat) (hs : 0 < speedup) (timeout : Option Rat) (x : RxFrame) (h : x.ts ≤ now) :
    Due speedup now timeout x := by
  refine .inr ⟨Rat.ne_of_gt hs, .inl (fl_nonpos _ ?_)⟩
  have h1 : fl (x.ts - now) ≤ 0 := fl_nonpos _ (by grind)
  rw [Rat.div_def]
  have := Rat.mul_le_mul_of_nonneg_right h1 (Rat.le_of_lt (Rat.inv_pos.2 hs))
  rwa [Rat.zero_mul] at this

/-- With a positive speed, a frame is due only if its time has come or, with a timeout, comes within the timeout (up to
the rounding of floats). -/
theorem C72_future (speedup now : Rat) (hs : 0 < speedup) (timeout : Option Rat) (x : RxFrame)
    (h : Due speedup now timeout x) :
    x.ts ≤ now ∨ ∃ t, timeout = some t ∧ (x.ts - now) / speedup * (1 - 1 / 2 ^ 53) ^ 2 ≤ t := by
  by_cases hn : x.ts ≤ now
  · exact .inl hn
  · right
    have hd : 0 < x.ts - now := by have := Rat.not_le.1 hn; grind
    obtain ⟨-, e1⟩ := fl_error (x.ts - now) hd
    unfold Due at h
    generalize x.ts - now = d at *
    have hd1 : d * (1 - 1 / 2 ^ 53) ≤ fl d := by grind
    have hpos : 0 < fl d := by grind
    have hi := Rat.inv_pos.2 hs
    have hq : 0 < fl d / speedup := by rw [Rat.div_def]; exact Rat.mul_pos hpos hi
    obtain ⟨-, e2⟩ := fl_error (fl d / speedup) hq
    have hle : d / speedup * (1 - 1 / 2 ^ 53) ≤ fl d / speedup := by
      have := Rat.mul_le_mul_of_nonneg_right hd1 (Rat.le_of_lt hi)
      rw [Rat.div_def, Rat.div_def]
      grind
    have hfin : d / speedup * (1 - 1 / 2 ^ 53) ^ 2 ≤ fl (fl d / speedup) := by grind
    have hp2 : 0 < fl (fl d / speedup) := by grind
    rcases h with h | ⟨-, h | ⟨t, h1, h2⟩⟩
    · rw [h] at hs; exact absurd hs (by decide)
    · exact absurd hp2 (Rat.not_lt.2 h)
    · exact ⟨t, h1, Rat.le_trans hfin h2⟩

/-- Two records with something between them, and a third one with a wrong CRC. -/
def strangeLog : List Byte :=
  [0x34, 0x29, 0, 0, 0, 0, 0, 0, 0, 0, 0xFF, 0xFF, 0, 0, 1, 0, 5, 0, 0, 0x80] ++ List.replicate 20 7 ++
    [0x34, 0x29, 64, 66, 15, 0, 0, 0, 0, 0, 0xFF, 0xFF, 0, 0, 0, 0, 6, 0, 0, 0] ++
    [0x34, 0x29, 64, 66, 15, 0, 0, 0, 0, 0, 0xFE, 0xFF, 0, 0, 0, 0, 7, 0, 0, 0]

example : (match (readFrame 0 { content := strangeLog, start := some 0 }).1 with
    | .ok (some x) => x.1.frame == ⟨5, [], true, true⟩
    | _ => false) = true := by decide +kernel

example : (readFrame 0 { content := strangeLog, start := some 0, pos := 60 }).1 = .error .driverError := by decide +kernel

/-- Opened at 100, at half speed: the second frame is due at 102. -/
def replay : Reader := { content := strangeLog, start := some 100, pos := 40, speedup := 1 / 2 }

example : nextFrame 100 replay = some ⟨⟨6, [], false, false⟩, 101⟩ ∧ replay.speedup ≠ 0 ∧ replay.eof = false ∧
    (receive 100 (some 1) replay).1 = .ok none ∧ (receive 100 (some 2) replay).1 = .ok (some ⟨⟨6, [], false, false⟩, 101⟩) := by
  decide +kernel

end LogFile
end Dronecan
