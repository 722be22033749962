import Verif.Proofs.Double
import Verif.Proofs.Struct

/-!
# Log files (C49, C50)
-/

namespace Dronecan
namespace LogFile
open Can

/-! ## Specification -/

/-- A frame within the limits of CAN, with a time stamp that a log can hold. -/
structure Valid (w : CANFrame × Rat) : Prop where
  id0 : 0 ≤ w.1.canId
  id1 : w.1.canId < 2 ^ 29
  len : w.1.data.length ≤ 64
  ts0 : 0 ≤ micros w.2
  ts1 : micros w.2 < 2 ^ 64

/-- The time stamp that a log keeps: whole microseconds. -/
def kept (ts : Rat) : Rat := fl ((micros ts : Rat) / 1000000)

/-- The frame read for a frame written, when the log, whose first frame was at `ts0`, is replayed from `start`: the same
frame, and the time stamp shifted. (A time stamp that comes out as zero is replaced by the current time.) -/
def Matches (start ts0 : Rat) (w : CANFrame × Rat) (x : RxFrame) : Prop :=
  x.frame = w.1 ∧ (fl (fl (start + kept w.2) - kept ts0) ≠ 0 → x.ts = fl (fl (start + kept w.2) - kept ts0))

/-- The frames read are the first ones of those written, in order. -/
def Agree (start ts0 : Rat) : List (CANFrame × Rat) → List RxFrame → Prop
  | _, [] => True
  | [], _ :: _ => False
  | w :: ws, x :: xs => Matches start ts0 w x ∧ Agree start ts0 ws xs

/-- The frames among the results of the calls of `receive`. -/
def framesOf : List (Except Err (Option RxFrame)) → List RxFrame
  | [] => []
  | .ok (some x) :: rest => x :: framesOf rest
  | _ :: rest => framesOf rest

/-- No call raised. -/
def NoErrors (rs : List (Except Err (Option RxFrame))) : Prop := ∀ e, .error e ∉ rs

/-! ## Lemmas -/

/-- The bytes of one frame. -/
def enc (w : CANFrame × Rat) : List Byte :=
  packLE 2 0x2934 ++ packLE 8 (micros w.2).toNat ++ packLE 2 (crc16 0xFFFF w.1.data).toNat ++ packLE 2 w.1.data.length ++
    packLE 2 (flagsOf w.1) ++ packLE 4 (messageId w.1).toNat ++ w.1.data

theorem length_enc (w : CANFrame × Rat) : (enc w).length = 20 + w.1.data.length := by
  simp [enc]
  omega

theorem writeFrame_valid (w : CANFrame × Rat) (h : Valid w) : writeFrame w.1 w.2 = .ok (enc w) := by
  unfold writeFrame
  have h1 : fits 8 (micros w.2) = true := by
    have := h.ts0
    have := h.ts1
    simp only [fits, Bool.and_eq_true, decide_eq_true_eq]
    omega
  have h2 : fits 2 (w.1.data.length : Int) = true := by
    have := h.len
    simp only [fits, Bool.and_eq_true, decide_eq_true_eq]
    omega
  rw [h1, h2, (messageId_spec w.1 h.id0 h.id1).1]
  rfl

theorem writeAll_valid (ws : List (CANFrame × Rat)) (h : ∀ w ∈ ws, Valid w) : writeAll ws = .ok (ws.flatMap enc) := by
  induction ws with
  | nil => rfl
  | cons w ws ih =>
    have h1 := writeFrame_valid w (h w List.mem_cons_self)
    have h2 := ih (fun x hx => h x (List.mem_cons_of_mem _ hx))
    unfold writeAll
    rw [h1]
    dsimp only
    rw [h2, List.flatMap_cons]

/-- What the header of a frame says. -/
theorem header_fields (w : CANFrame × Rat) (h : Valid w) (rest : List Byte) :
    let header := (enc w ++ rest).take 20
    header.length = 20 ∧ unpackLE (header.take 2) = 0x2934 ∧
    (unpackLE ((header.drop 2).take 8) : Int) = micros w.2 ∧
    unpackLE ((header.drop 10).take 2) = (crc16 0xFFFF w.1.data).toNat ∧
    unpackLE ((header.drop 12).take 2) = w.1.data.length ∧
    unpackLE ((header.drop 14).take 2) = flagsOf w.1 ∧
    unpackLE ((header.drop 16).take 4) = (messageId w.1).toNat ∧
    (enc w ++ rest).drop 20 = w.1.data ++ rest := by
  have e : enc w ++ rest = (packLE 2 0x2934 ++ (packLE 8 (micros w.2).toNat ++ (packLE 2 (crc16 0xFFFF w.1.data).toNat ++
      (packLE 2 w.1.data.length ++ (packLE 2 (flagsOf w.1) ++ packLE 4 (messageId w.1).toNat))))) ++ (w.1.data ++ rest) := by
    simp [enc]
  have hts := h.ts0
  have hts1 := h.ts1
  have hlen := h.len
  intro header
  have hh : header = packLE 2 0x2934 ++ (packLE 8 (micros w.2).toNat ++ (packLE 2 (crc16 0xFFFF w.1.data).toNat ++
      (packLE 2 w.1.data.length ++ (packLE 2 (flagsOf w.1) ++ packLE 4 (messageId w.1).toNat)))) := by
    show (enc w ++ rest).take 20 = _
    rw [e, List.take_left' (by simp)]
  have hd : ∀ (n : Nat) (a b : List Byte), a.length = n → (a ++ b).drop n = b := fun n a b h => List.drop_left' h
  have ht : ∀ (n : Nat) (a b : List Byte), a.length = n → (a ++ b).take n = a := fun n a b h => List.take_left' h
  have d2 := hd 2 (packLE 2 0x2934) (packLE 8 (micros w.2).toNat ++ (packLE 2 (crc16 0xFFFF w.1.data).toNat ++
      (packLE 2 w.1.data.length ++ (packLE 2 (flagsOf w.1) ++ packLE 4 (messageId w.1).toNat)))) (by simp)
  rw [← hh] at d2
  have d10 : header.drop 10 = packLE 2 (crc16 0xFFFF w.1.data).toNat ++
      (packLE 2 w.1.data.length ++ (packLE 2 (flagsOf w.1) ++ packLE 4 (messageId w.1).toNat)) := by
    rw [show 10 = 2 + 8 from rfl, ← List.drop_drop, d2, hd 8 _ _ (by simp)]
  have d12 : header.drop 12 = packLE 2 w.1.data.length ++ (packLE 2 (flagsOf w.1) ++ packLE 4 (messageId w.1).toNat) := by
    rw [show 12 = 10 + 2 from rfl, ← List.drop_drop, d10, hd 2 _ _ (by simp)]
  have d14 : header.drop 14 = packLE 2 (flagsOf w.1) ++ packLE 4 (messageId w.1).toNat := by
    rw [show 14 = 12 + 2 from rfl, ← List.drop_drop, d12, hd 2 _ _ (by simp)]
  have d16 : header.drop 16 = packLE 4 (messageId w.1).toNat := by
    rw [show 16 = 14 + 2 from rfl, ← List.drop_drop, d14, hd 2 _ _ (by simp)]
  refine ⟨by rw [hh]; simp, ?_, ?_, ?_, ?_, ?_, ?_, ?_⟩
  · rw [hh, ht 2 _ _ (by simp)]; decide +kernel
  · rw [d2, ht 8 _ _ (by simp), unpackLE_packLE_lt _ _ (by omega)]; omega
  · rw [d10, ht 2 _ _ (by simp), unpackLE_packLE_lt _ _ (by have := (crc16 0xFFFF w.1.data).isLt; omega)]
  · rw [d12, ht 2 _ _ (by simp), unpackLE_packLE_lt _ _ (by omega)]
  · rw [d14, ht 2 _ _ (by simp), unpackLE_packLE_lt _ _ (flagsOf_spec w.1).1]
  · rw [d16, List.take_of_length_le (by simp), unpackLE_packLE_lt _ _ (messageId_spec w.1 h.id0 h.id1).2.1]
  · rw [e, hd 20 _ _ (by simp)]

/-- Reading where a whole frame follows. -/
theorem readFrame_enc (now : Rat) (r : Reader) (w : CANFrame × Rat) (h : Valid w) (rest : List Byte)
    (hc : r.content.drop r.pos = enc w ++ rest) (start : Rat) (hs : r.start = some start) :
    ∃ x, readFrame now r = (.ok (some (x, kept w.2)), { r with pos := r.pos + (enc w).length }) ∧ x.frame = w.1 ∧
      (fl (fl (start + kept w.2) - r.startFile) ≠ 0 → x.ts = fl (fl (start + kept w.2) - r.startFile)) := by
  obtain ⟨f0, f1, f2, f3, f4, f5, f6, f7⟩ := header_fields w h rest
  have hpos : ¬ r.content.length ≤ r.pos := by
    intro hle
    rw [List.drop_eq_nil_of_le hle] at hc
    have := congrArg List.length hc
    rw [List.length_append, length_enc] at this
    simp at this
    omega
  have hdata : ((r.content.drop (r.pos + 20)).take w.1.data.length) = w.1.data := by
    rw [← List.drop_drop, hc, f7, List.take_left' rfl]
  have hts : fl ((unpackLE ((((enc w ++ rest).take 20).drop 2).take 8) : Rat) / 1000000) = kept w.2 := by
    unfold kept
    rw [← f2]
    rfl
  obtain ⟨m1, m2, m3, m4⟩ := messageId_spec w.1 h.id0 h.id1
  refine ⟨⟨w.1, if fl (fl (start + kept w.2) - r.startFile) = 0 then now else fl (fl (start + kept w.2) - r.startFile)⟩, ?_, rfl, ?_⟩
  · unfold readFrame
    rw [if_neg hpos]
    simp only [hc, f0, f1, f3, f4, f5, f6, hts, hdata, hs, m3, m4, (flagsOf_spec w.1).2, Nat.lt_irrefl, if_false, ne_eq,
      not_true_eq_false, length_enc, Nat.add_assoc]
  · intro hne
    simp only [if_neg hne]

/-- What may follow the last whole frame of a log that was cut off. -/
def Cut (tl : List Byte) : Prop := tl = [] ∨ ∃ w, Valid w ∧ ∃ m, m < (enc w).length ∧ tl = (enc w).take m

/-- Reading at a cut. -/
theorem readFrame_cut (now : Rat) (r : Reader) (tl : List Byte) (ht : Cut tl) (hp : r.pos ≤ r.content.length)
    (hc : r.content.drop r.pos = tl) :
    (tl = [] ∧ readFrame now r = (.ok none, { r with eof := true })) ∨
    (tl ≠ [] ∧ tl.length < 20 ∧ readFrame now r = (.ok none, { r with pos := r.content.length })) ∨
    (20 ≤ tl.length ∧ ∃ r', readFrame now r = (.error .driverError, r')) := by
  have hlen : r.content.length - r.pos = tl.length := by rw [← hc, List.length_drop]
  by_cases he : tl = []
  · left
    refine ⟨he, ?_⟩
    unfold readFrame
    rw [he] at hlen
    simp only [List.length_nil] at hlen
    rw [if_pos (by omega)]
  · right
    have hpos : ¬ r.content.length ≤ r.pos := by
      intro hle
      rw [List.drop_eq_nil_of_le hle] at hc
      exact he hc.symm
    by_cases hl : tl.length < 20
    · left
      refine ⟨he, hl, ?_⟩
      unfold readFrame
      rw [if_neg hpos]
      have h1 : (tl.take 20).length = tl.length := by rw [List.take_of_length_le (by omega)]
      simp only [hc, h1, hl, if_true]
      congr 2
      omega
    · right
      refine ⟨by omega, ?_⟩
      obtain h | ⟨w, hw, m, hm, htl⟩ := ht
      · exact absurd h he
      · have hm20 : tl.length = m := by rw [htl, List.length_take]; omega
        obtain ⟨f0, f1, f2, f3, f4, f5, f6, f7⟩ := header_fields w hw []
        simp only [List.append_nil] at f0 f1 f2 f3 f4 f5 f6 f7
        have ht20 : tl.take 20 = (enc w).take 20 := by rw [htl, List.take_take, Nat.min_eq_left (by omega)]
        have hdata : ((r.content.drop (r.pos + 20)).take w.1.data.length).length < w.1.data.length := by
          rw [← List.drop_drop, hc, List.length_take, List.length_drop]
          rw [length_enc] at hm
          omega
        unfold readFrame
        rw [if_neg hpos]
        simp only [hc, ht20, f0, f1, f4, Nat.lt_irrefl, if_false, ne_eq, not_true_eq_false, hdata, if_true]
        exact ⟨_, rfl⟩

/-- A log cut off at any byte consists of the first whole frames and a cut. -/
theorem take_log (ws : List (CANFrame × Rat)) (h : ∀ w ∈ ws, Valid w) (n : Nat) :
    ∃ k, ∃ tl, Cut tl ∧ (ws.flatMap enc).take n = (ws.take k).flatMap enc ++ tl := by
  induction ws generalizing n with
  | nil => exact ⟨0, [], .inl rfl, by simp⟩
  | cons w ws ih =>
    by_cases hn : n < (enc w).length
    · refine ⟨0, (enc w).take n, .inr ⟨w, h w List.mem_cons_self, n, hn, rfl⟩, ?_⟩
      simp only [List.flatMap_cons, List.take_zero, List.flatMap_nil, List.nil_append]
      rw [List.take_append_of_le_length (by omega)]
    · obtain ⟨k, tl, ht, e⟩ := ih (fun x hx => h x (List.mem_cons_of_mem _ hx)) (n - (enc w).length)
      refine ⟨k + 1, tl, ht, ?_⟩
      simp only [List.flatMap_cons, List.take_succ_cons, List.append_assoc]
      rw [List.take_append, e, List.take_of_length_le (by omega)]

/-- The driver is before `ws` and a cut. -/
structure At (r : Reader) (ws : List (CANFrame × Rat)) (tl : List Byte) : Prop where
  le : r.pos ≤ r.content.length
  eq : r.content.drop r.pos = ws.flatMap enc ++ tl

theorem At.next {r : Reader} {w : CANFrame × Rat} {ws : List (CANFrame × Rat)} {tl : List Byte} (h : At r (w :: ws) tl) :
    At { r with pos := r.pos + (enc w).length } ws tl := by
  have e := h.eq
  rw [List.flatMap_cons, List.append_assoc] at e
  refine ⟨?_, ?_⟩
  · have := congrArg List.length e
    rw [List.length_drop, List.length_append] at this
    have := h.le
    show r.pos + (enc w).length ≤ r.content.length
    omega
  · show r.content.drop (r.pos + (enc w).length) = _
    rw [← List.drop_drop, e, List.drop_left' rfl]

/-- The loop that looks for the last time stamp. -/
theorem lastLoop_spec (now : Rat) (tl : List Byte) (ht : Cut tl) (ws : List (CANFrame × Rat)) (hv : ∀ w ∈ ws, Valid w) :
    ∀ (n : Nat) (r : Reader), ws.length < n → At r ws tl → (∃ s, r.start = some s) →
    (tl.length < 20 ∧ ∃ r', lastLoop now n r = (.ok (), r') ∧ r'.content = r.content ∧ r'.start = r.start ∧
      r'.startFile = r.startFile ∧ r'.curr = r.curr ∧ r'.speedup = r.speedup ∧ r'.last = none) ∨
    (20 ≤ tl.length ∧ ∃ r', lastLoop now n r = (.error .driverError, r')) := by
  induction ws with
  | nil =>
    intro n r hn hat hs
    cases n with
    | zero => simp at hn
    | succ n =>
      have e := hat.eq
      simp only [List.flatMap_nil, List.nil_append] at e
      rcases readFrame_cut now r tl ht hat.le e with ⟨h1, h2⟩ | ⟨h1, h2, h3⟩ | ⟨h1, r', h2⟩
      · left
        exact ⟨by simp [h1], { r with
            eof := true
            last := none }, by simp only [lastLoop, h2], rfl, rfl, rfl, rfl, rfl, rfl⟩
      · left
        exact ⟨h2, { r with
            pos := r.content.length
            last := none }, by simp only [lastLoop, h3], rfl, rfl, rfl, rfl, rfl, rfl⟩
      · right
        exact ⟨h1, r', by simp only [lastLoop, h2]⟩
  | cons w ws ih =>
    intro n r hn hat hs
    cases n with
    | zero => simp at hn
    | succ n =>
      obtain ⟨s, hs⟩ := hs
      have e := hat.eq
      rw [List.flatMap_cons, List.append_assoc] at e
      obtain ⟨x, hx, -, -⟩ := readFrame_enc now r w (hv w List.mem_cons_self) _ e s hs
      have hnext := hat.next
      simp only [List.length_cons] at hn
      have := ih (fun x hx => hv x (List.mem_cons_of_mem _ hx)) n
        { r with
          pos := r.pos + (enc w).length
          last := some (kept w.2) } (by omega) ⟨hnext.le, hnext.eq⟩ ⟨s, hs⟩
      simpa only [lastLoop, hx] using this

theorem flatMap_enc_length (ws : List (CANFrame × Rat)) : ws.length ≤ (ws.flatMap enc).length := by
  induction ws with
  | nil => simp
  | cons w ws ih => simp only [List.flatMap_cons, List.length_append, List.length_cons, length_enc]; omega

/-- Opening a log that consists of whole frames and a cut. -/
theorem openLog_spec (ws : List (CANFrame × Rat)) (hv : ∀ w ∈ ws, Valid w) (tl : List Byte) (ht : Cut tl) (speedup now : Rat) :
    (∃ w0 rest r, ws = w0 :: rest ∧ tl.length < 20 ∧ openLog (ws.flatMap enc ++ tl) speedup now = .ok r ∧ At r ws tl ∧
      r.eof = false ∧ r.curr = none ∧ r.start = some now ∧ r.startFile = kept w0.2 ∧ r.speedup = speedup ∧ r.last = none) ∨
    openLog (ws.flatMap enc ++ tl) speedup now = .error .driverError := by
  unfold openLog
  generalize hr0 : ({ content := ws.flatMap enc ++ tl, start := some now, speedup := speedup } : Reader) = r0
  have hat : At r0 ws tl := by subst hr0; exact ⟨by simp, by simp⟩
  cases ws with
  | nil =>
    right
    have e := hat.eq
    simp only [List.flatMap_nil, List.nil_append] at e
    rcases readFrame_cut now r0 tl ht hat.le e with ⟨h1, h2⟩ | ⟨h1, h2, h3⟩ | ⟨h1, r', h2⟩
    · rw [h2]
    · rw [h3]
    · rw [h2]
  | cons w ws =>
    have e := hat.eq
    rw [List.flatMap_cons, List.append_assoc] at e
    obtain ⟨x, hx, -, -⟩ := readFrame_enc now r0 w (hv w List.mem_cons_self) _ e now (by subst hr0; rfl)
    have hnext := hat.next
    have hl := flatMap_enc_length ws
    rcases lastLoop_spec now tl ht ws (fun x hx => hv x (List.mem_cons_of_mem _ hx)) (((w :: ws).flatMap enc ++ tl).length + 1)
        { r0 with
          pos := r0.pos + (enc w).length
          startFile := kept w.2 } (by simp only [List.flatMap_cons, List.length_append]; omega) ⟨hnext.le, hnext.eq⟩
        ⟨now, by subst hr0; rfl⟩ with ⟨h1, r', h2, h3, h4, h5, h6, h7, h8⟩ | ⟨h1, r', h2⟩
    · left
      refine ⟨w, ws, { r' with
          eof := false
          pos := 0 }, rfl, h1, ?_, ⟨by simp, ?_⟩, rfl, ?_, ?_, h5, ?_, h8⟩
      · rw [hx]
        simp only [h2]
      · show r'.content.drop 0 = _
        rw [h3, List.drop_zero]
        subst hr0
        rfl
      · exact h6.trans (by subst hr0; rfl)
      · exact h4.trans (by subst hr0; rfl)
      · exact h7.trans (by subst hr0; rfl)
    · right
      rw [hx]
      simp only [h2]

/-- The driver while it is replayed: it is before `ws`, perhaps with a current frame, which is that of the first of them.  -/
structure Inv (t0 ts0 : Rat) (r : Reader) (ws : List (CANFrame × Rat)) (tl : List Byte) : Prop where
  start : r.start = some t0
  file : r.startFile = kept ts0
  speed : r.speedup ≠ 0
  eof : r.eof = true → ws = [] ∧ r.curr = none
  here : (r.curr = none ∧ (At r ws tl ∨ (ws = [] ∧ r.pos = r.content.length))) ∨
    ∃ x w ws', r.curr = some x ∧ ws = w :: ws' ∧ Matches t0 ts0 w x ∧ At r ws' tl

theorem deliver_spec (start ts0 : Rat) (now : Rat) (timeout : Option Rat) (r : Reader) (x : RxFrame) (w : CANFrame × Rat)
    (ws : List (CANFrame × Rat)) (tl : List Byte) (hs : r.start = some start) (hf : r.startFile = kept ts0) (hsp : r.speedup ≠ 0)
    (he : r.eof = false) (hcur : r.curr = some x) (hm : Matches start ts0 w x) (hat : At r ws tl) :
    (deliver now timeout x r = (.ok (some x), { r with curr := none }) ∧ Inv start ts0 { r with curr := none } ws tl) ∨
    (deliver now timeout x r = (.ok none, r) ∧ Inv start ts0 r (w :: ws) tl ∧ r.speedup ≠ -1) := by
  have i1 : Inv start ts0 { r with curr := none } ws tl :=
    ⟨hs, hf, hsp, fun h => by simp [he] at h, .inl ⟨rfl, .inl ⟨hat.le, hat.eq⟩⟩⟩
  have i2 : Inv start ts0 r (w :: ws) tl := ⟨hs, hf, hsp, fun h => by simp [he] at h, .inr ⟨x, w, ws, hcur, rfl, hm, hat⟩⟩
  unfold deliver
  by_cases h1 : r.speedup = -1
  · left
    exact ⟨by simp [h1], i1⟩
  · simp only [if_neg h1, if_neg hsp]
    split
    · split
      · exact .inr ⟨rfl, i2, h1⟩
      · split
        · exact .inl ⟨rfl, i1⟩
        · exact .inr ⟨rfl, i2, h1⟩
    · exact .inl ⟨rfl, i1⟩

/-- One call of `receive`. -/
theorem receive_spec (start ts0 : Rat) (now : Rat) (timeout : Option Rat) (r : Reader) (ws : List (CANFrame × Rat))
    (hv : ∀ w ∈ ws, Valid w) (tl : List Byte) (ht : Cut tl) (htl : tl.length < 20) (h : Inv start ts0 r ws tl) :
    (∃ x w ws' r', ws = w :: ws' ∧ receive now timeout r = (.ok (some x), r') ∧ Matches start ts0 w x ∧
      Inv start ts0 r' ws' tl ∧ r'.speedup = r.speedup) ∨
    (∃ r', receive now timeout r = (.ok none, r') ∧ Inv start ts0 r' ws tl ∧ r'.speedup = r.speedup ∧
      (r.speedup = -1 → ws = [])) := by
  unfold receive
  by_cases heof : r.eof = true
  · right
    rw [if_pos heof]
    exact ⟨r, rfl, h, rfl, fun _ => (h.eof heof).1⟩
  · rw [if_neg heof]
    have hr : ({ r with start := some (r.start.getD now) } : Reader) = r := by
      have := h.start
      cases r
      simp only at this
      subst this
      rfl
    simp only [hr]
    rcases h.here with ⟨hc, hat⟩ | ⟨x, w, ws', hc, hws, hm, hat⟩
    · simp only [hc]
      rcases hat with hat | ⟨hws, hpos⟩
      · cases ws with
        | nil =>
          right
          have e := hat.eq
          simp only [List.flatMap_nil, List.nil_append] at e
          rcases readFrame_cut now r tl ht hat.le e with ⟨h1, h2⟩ | ⟨h1, h2, h3⟩ | ⟨h1, r', h2⟩
          · rw [h2]
            refine ⟨_, rfl, ⟨h.start, h.file, h.speed, fun _ => ⟨rfl, rfl⟩, .inl ⟨rfl, .inl ⟨hat.le, hat.eq⟩⟩⟩, rfl, fun _ => rfl⟩
          · rw [h3]
            refine ⟨_, rfl, ⟨h.start, h.file, h.speed, fun _ => ⟨rfl, rfl⟩, .inl ⟨rfl, .inr ⟨rfl, rfl⟩⟩⟩, rfl, fun _ => rfl⟩
          · omega
        | cons w ws =>
          have e := hat.eq
          rw [List.flatMap_cons, List.append_assoc] at e
          obtain ⟨x, hx, hx1, hx2⟩ := readFrame_enc now r w (hv w List.mem_cons_self) _ e start h.start
          rw [hx]
          have hm : Matches start ts0 w x := ⟨hx1, by rw [h.file] at hx2; exact hx2⟩
          have hn := hat.next
          rcases deliver_spec start ts0 now timeout
            { r with
              pos := r.pos + (enc w).length
              curr := some x } x w ws tl h.start h.file h.speed (by simpa using heof) rfl hm ⟨hn.le, hn.eq⟩ with ⟨d1, d2⟩ | ⟨d1, d2, d3⟩
          · left
            exact ⟨x, w, ws, _, rfl, d1, hm, d2, rfl⟩
          · right
            exact ⟨_, d1, d2, rfl, fun h => absurd h d3⟩
      · right
        have hrd : readFrame now r = (.ok none, { r with eof := true }) := by
          unfold readFrame
          rw [if_pos (by omega)]
        rw [hrd]
        exact ⟨_, rfl, ⟨h.start, h.file, h.speed, fun _ => ⟨hws, rfl⟩, .inl ⟨rfl, .inr ⟨hws, hpos⟩⟩⟩, rfl, fun _ => hws⟩
    · simp only [hc]
      rcases deliver_spec start ts0 now timeout r x w ws' tl h.start h.file h.speed (by simpa using heof) hc hm hat with
        ⟨d1, d2⟩ | ⟨d1, d2, d3⟩
      · left
        exact ⟨x, w, ws', _, hws, d1, hm, d2, rfl⟩
      · right
        exact ⟨r, d1, hws ▸ d2, rfl, fun h => absurd h d3⟩

/-- Any calls of `receive`. -/
theorem receives_spec (start ts0 : Rat) (tl : List Byte) (ht : Cut tl) (htl : tl.length < 20) (calls : List (Rat × Option Rat)) :
    ∀ (r : Reader) (ws : List (CANFrame × Rat)), (∀ w ∈ ws, Valid w) → Inv start ts0 r ws tl →
    NoErrors (receives calls r).1 ∧ Agree start ts0 ws (framesOf (receives calls r).1) ∧
    ((receives calls r).2.eof = true → (framesOf (receives calls r).1).length = ws.length) ∧
    (r.speedup = -1 → ws.length ≤ calls.length → (framesOf (receives calls r).1).length = ws.length) := by
  induction calls with
  | nil =>
    intro r ws _ h
    refine ⟨by simp [NoErrors, receives], by simp [receives, framesOf, Agree], ?_, ?_⟩
    · intro he
      simp [receives, framesOf, (h.eof he).1]
    · intro _ hl
      simp only [List.length_nil, Nat.le_zero] at hl
      simp [receives, framesOf, hl]
  | cons c calls ih =>
    intro r ws hv h
    rcases receive_spec start ts0 c.1 c.2 r ws hv tl ht htl h with ⟨x, w, ws', r', e1, e2, e3, e4, e5⟩ | ⟨r', e2, e4, e5, e6⟩
    · subst e1
      obtain ⟨a1, a2, a3, a4⟩ := ih r' ws' (fun y hy => hv y (List.mem_cons_of_mem _ hy)) e4
      simp only [receives, e2, framesOf, List.length_cons]
      refine ⟨?_, ⟨e3, a2⟩, fun he => by rw [a3 he], fun hs hl => by rw [a4 (e5.trans hs) (by omega)]⟩
      intro e he
      simp only [List.mem_cons, reduceCtorEq, false_or] at he
      exact a1 e he
    · obtain ⟨a1, a2, a3, a4⟩ := ih r' ws hv e4
      simp only [receives, e2, framesOf, List.length_cons]
      refine ⟨?_, a2, a3, ?_⟩
      · intro e he
        simp only [List.mem_cons, reduceCtorEq, false_or] at he
        exact a1 e he
      · intro hs _
        have hnil := e6 hs
        subst hnil
        exact a4 (e5.trans hs) (by simp)

/-! ## C49 -/

/-- Reading back a log yields exactly the frames written, in order: writing succeeds, the log can be opened at any time
`now`, and however `receive` is called, it never raises and delivers the frames in order; once the end is reported all have
been delivered, and so they have if the log is replayed without waiting and there were enough calls. Partial: time
stamps are kept to the microsecond, see `C49_stamp_partial`. -/
theorem C49_roundtrip_partial (w0 : CANFrame × Rat) (rest : List (CANFrame × Rat)) (hv : ∀ w ∈ w0 :: rest, Valid w)
    (speedup now : Rat) (hs : speedup ≠ 0) :
    ∃ bytes r, writeAll (w0 :: rest) = .ok bytes ∧ openLog bytes speedup now = .ok r ∧ ∀ calls,
      NoErrors (receives calls r).1 ∧ Agree now w0.2 (w0 :: rest) (framesOf (receives calls r).1) ∧
      ((receives calls r).2.eof = true → (framesOf (receives calls r).1).length = (w0 :: rest).length) ∧
      (speedup = -1 → (w0 :: rest).length ≤ calls.length →
        (framesOf (receives calls r).1).length = (w0 :: rest).length) := by
  have ho := openLog_spec (w0 :: rest) hv [] (.inl rfl) speedup now
  rw [List.append_nil] at ho
  rcases ho with ⟨w, ws, r, h1, h2, h3, h4, h5, h6, h7, h8, h9, -⟩ | h
  · refine ⟨_, r, writeAll_valid _ hv, h3, fun calls => ?_⟩
    injection h1 with h1a h1b
    subst h1a
    have hi : Inv now w0.2 r (w0 :: rest) [] := ⟨h7, h8, by rw [h9]; exact hs, fun h => by simp [h5] at h, .inl ⟨h6, .inl h4⟩⟩
    obtain ⟨a1, a2, a3, a4⟩ := receives_spec now w0.2 [] (.inl rfl) (by simp) calls r (w0 :: rest) hv hi
    exact ⟨a1, a2, a3, fun h => a4 (h9.trans h)⟩
  · exfalso
    revert h
    unfold openLog
    generalize hr0 : ({ content := (w0 :: rest).flatMap enc, start := some now, speedup := speedup } : Reader) = r0
    have hat : At r0 (w0 :: rest) [] := by subst hr0; exact ⟨by simp, by simp⟩
    have e := hat.eq
    rw [List.flatMap_cons, List.append_assoc] at e
    obtain ⟨x, hx, -, -⟩ := readFrame_enc now r0 w0 (hv w0 List.mem_cons_self) _ e now (by subst hr0; rfl)
    have hnext := hat.next
    have hl := flatMap_enc_length rest
    rcases lastLoop_spec now [] (.inl rfl) rest (fun x hx => hv x (List.mem_cons_of_mem _ hx)) (((w0 :: rest).flatMap enc).length + 1)
        { r0 with
          pos := r0.pos + (enc w0).length
          startFile := kept w0.2 } (by simp only [List.flatMap_cons, List.length_append]; omega) ⟨hnext.le, hnext.eq⟩
        ⟨now, by subst hr0; rfl⟩ with ⟨h1, r', h2, -⟩ | ⟨h1, -⟩
    · rw [hx]
      simp only [h2]
      simp
    · simp at h1

/-- A log cut off at any byte: opening it raises `DriverError`, or however `receive` is called, it never raises and delivers
the first frames, in order; once the end is reported, these are all that are complete. Never a wrong frame. -/
theorem C49_truncated_partial (w0 : CANFrame × Rat) (rest : List (CANFrame × Rat)) (hv : ∀ w ∈ w0 :: rest, Valid w)
    (bytes : List Byte) (hw : writeAll (w0 :: rest) = .ok bytes) (n : Nat) (speedup now : Rat) (hs : speedup ≠ 0) :
    openLog (bytes.take n) speedup now = .error .driverError ∨
    ∃ r, openLog (bytes.take n) speedup now = .ok r ∧ ∃ k, ∃ whole, writeAll ((w0 :: rest).take k) = .ok whole ∧
      whole <+: bytes.take n ∧ (bytes.take n).length - whole.length < 20 ∧ ∀ calls,
      NoErrors (receives calls r).1 ∧ Agree now w0.2 ((w0 :: rest).take k) (framesOf (receives calls r).1) ∧
      ((receives calls r).2.eof = true → (framesOf (receives calls r).1).length = ((w0 :: rest).take k).length) := by
  rw [writeAll_valid _ hv] at hw
  injection hw with hw
  obtain ⟨k, tl, ht, e⟩ := take_log (w0 :: rest) hv n
  rw [← hw, e]
  have hv' : ∀ w ∈ (w0 :: rest).take k, Valid w := fun w hw => hv w (List.mem_of_mem_take hw)
  rcases openLog_spec ((w0 :: rest).take k) hv' tl ht speedup now with ⟨w, ws, r, h1, h2, h3, h4, h5, h6, h7, h8, h9, -⟩ | h
  · right
    refine ⟨r, h3, k, _, writeAll_valid _ hv', List.prefix_append _ _, by simp; omega, fun calls => ?_⟩
    have hw0 : w = w0 := by
      cases k with
      | zero => simp at h1
      | succ k =>
        rw [List.take_succ_cons] at h1
        injection h1 with h1 _
        exact h1.symm
    subst hw0
    have hi : Inv now w.2 r ((w :: rest).take k) tl :=
      ⟨h7, h8, by rw [h9]; exact hs, fun h => by simp [h5] at h, .inl ⟨h6, .inl h4⟩⟩
    obtain ⟨a1, a2, a3, -⟩ := receives_spec now w.2 tl ht h2 calls r _ hv' hi
    exact ⟨a1, a2, a3⟩
  · exact .inl h

/-- The time stamp kept is that of the frame in whole microseconds, rounded down, up to the rounding of a
float multiplication: a relative error of 2⁻⁵³. -/
theorem C49_stamp_partial (ts : Rat) (h : 0 < ts) :
    (micros ts : Rat) ≤ ts * 1000000 * (1 + 1 / 2 ^ 53) ∧ ts * 1000000 * (1 - 1 / 2 ^ 53) < (micros ts : Rat) + 1 := by
  have hq : (0 : Rat) < ts * 1000000 := by grind
  obtain ⟨h1, h2⟩ := fl_error (ts * 1000000) hq
  unfold micros truncRat
  have h3 := Rat.floor_le (fl (ts * 1000000))
  have h4 := Rat.lt_floor_add_one (fl (ts * 1000000))
  rw [Rat.intCast_add] at h4
  generalize ts * 1000000 = q at *
  have hpos : ¬ fl q < 0 := by grind
  rw [if_neg hpos]
  grind

/-- `send_frame` raises `struct.error`, and nothing is written, just if the format has no room for the frame: the time stamp has to be at least 0 and less than
2⁶⁴ microseconds, the identifier at least 0 and less than 2³², and there can be no more than 65535 bytes of data. -/
theorem C49_refused (f : CANFrame) (ts : Rat) :
    (∀ e, writeFrame f ts = .error e → e = .structError) ∧
    ((∃ bytes, writeFrame f ts = .ok bytes) ↔ (0 ≤ micros ts ∧ micros ts < 2 ^ 64) ∧ f.data.length ≤ 65535 ∧ 0 ≤ f.canId ∧ f.canId < 2 ^ 32) := by
  have hm : fits 4 (messageId f) = true ↔ 0 ≤ f.canId ∧ f.canId < 2 ^ 32 := by
    simp only [fits, Bool.and_eq_true, decide_eq_true_eq]
    unfold messageId
    by_cases hn : f.canId < 0
    · rw [if_pos hn]; omega
    · rw [if_neg hn]
      have key : ∀ b : Nat, b < 2 ^ 32 → ((f.canId.toNat ||| b : Nat) < 2 ^ 32 ↔ f.canId.toNat < 2 ^ 32) := by
        intro b hb
        exact ⟨fun h => Nat.lt_of_le_of_lt Nat.left_le_or h, fun h => Nat.or_lt_two_pow h hb⟩
      have := key (if f.extended then 2 ^ 31 else 0) (by split <;> decide)
      omega
  have h8 : fits 8 (micros ts) = true ↔ 0 ≤ micros ts ∧ micros ts < 2 ^ 64 := by
    simp only [fits, Bool.and_eq_true, decide_eq_true_eq]; omega
  have h2 : fits 2 (f.data.length : Int) = true ↔ f.data.length ≤ 65535 := by
    simp only [fits, Bool.and_eq_true, decide_eq_true_eq]; omega
  rw [← hm, ← h8, ← h2]
  unfold writeFrame
  constructor
  · intro e
    split
    · intro h; cases h
    · intro h; cases h; rfl
  · split
    · rename_i h
      simp only [Bool.and_eq_true] at h
      exact ⟨fun _ => ⟨h.1.1, h.1.2, h.2⟩, fun _ => ⟨_, rfl⟩⟩
    · rename_i h
      simp only [Bool.and_eq_true] at h
      exact ⟨(fun ⟨_, hh⟩ => nomatch hh), fun ⟨a, b, c⟩ => absurd ⟨⟨a, b⟩, c⟩ h⟩

/-- C49 in full: frames with time stamps that are whole microseconds, which is what the format can hold, are read back
with the same time stamps. -/
def C49_statement : Prop :=
  ∀ (ws : List (CANFrame × Rat)) (bytes : List Byte) (r : Reader) (now : Rat),
    (∀ w ∈ ws, Valid w ∧ ∃ k : Nat, w.2 = fl ((k : Rat) / 1000000)) → writeAll ws = .ok bytes →
    openLog bytes 1 now = .ok r → some r.startFile = ws.head?.map (·.2)

/-- The time stamp 0.000249 is read back as 0.000248: as floats, `0.000249*1e6` is less than 249. So a log that is read and
written again has different time stamps. -/
theorem C49_counterexample : ¬ C49_statement := by
  intro h
  have hv : Valid (⟨1, [0xAA], true, false⟩, fl (249 / 1000000)) := by
    constructor <;> decide +kernel
  have hw := writeAll_valid [(⟨1, [0xAA], true, false⟩, fl (249 / 1000000))] (by simpa using hv)
  rcases openLog_spec [(⟨1, [0xAA], true, false⟩, fl (249 / 1000000))] (by simpa using hv) [] (.inl rfl) 1 5 with
    ⟨w, ws, r, h1, h2, h3, h4, h5, h6, h7, h8, h9, -⟩ | ho
  · rw [List.append_nil] at h3
    have := h _ _ r 5 (by
      intro w hw
      simp only [List.mem_singleton] at hw
      subst hw
      exact ⟨hv, 249, rfl⟩) hw h3
    injection h1 with h1 _
    subst h1
    rw [h8] at this
    revert this
    decide +kernel
  · obtain ⟨b, r, e1, e2, -⟩ := C49_roundtrip_partial (⟨1, [0xAA], true, false⟩, fl (249 / 1000000)) [] (by simpa using hv) 1 5
      (by decide)
    rw [hw] at e1
    injection e1 with e1
    rw [List.append_nil, e1, e2] at ho
    simp at ho

/-! ## C50 -/

/-- C50 in full. -/
def C50_statement : Prop :=
  ∀ (ws : List (CANFrame × Rat)) (bytes : List Byte) (r : Reader) (now : Rat), (∀ w ∈ ws, Valid w) → writeAll ws = .ok bytes →
    openLog bytes 1 now = .ok r → r.last = ws.getLast?.map fun w => kept w.2

theorem lastLoop_none (now : Rat) (n : Nat) : ∀ r r', lastLoop now n r = (.ok (), r') → r'.last = none := by
  induction n with
  | zero => intro r r' h; simp [lastLoop] at h
  | succ n ih =>
    intro r r' h
    simp only [lastLoop] at h
    split at h
    · simp at h
    · injection h with _ h
      rw [← h]
    · exact ih _ _ h

/-- In fact `get_last_timestamp` returns `None` for every file that can be opened. -/
theorem C50_none (content : List Byte) (speedup now : Rat) (r : Reader) (h : openLog content speedup now = .ok r) :
    r.last = none := by
  unfold openLog at h
  split at h
  · simp at h
  · simp at h
  · split at h
    · simp at h
    · rename_i r' hl
      injection h with h
      have : r'.last = none := lastLoop_none now _ _ r' hl
      rw [← h]
      exact this

theorem C50_counterexample : ¬ C50_statement := by
  intro h
  have hv : Valid (⟨1, [], true, false⟩, 1) := by
    constructor <;> decide +kernel
  have hr := C49_roundtrip_partial (⟨1, [], true, false⟩, 1) [] (by simpa using hv) 1 5 (by decide)
  obtain ⟨bytes, r, h1, h2, -⟩ := hr
  have := h _ bytes r 5 (by simpa using hv) h1 h2
  rw [C50_none _ _ _ _ h2] at this
  simp at this

/-- The time stamp of the first frame, on the other hand, is reported. -/
theorem C50_start_partial (w0 : CANFrame × Rat) (rest : List (CANFrame × Rat)) (hv : ∀ w ∈ w0 :: rest, Valid w)
    (bytes : List Byte) (hw : writeAll (w0 :: rest) = .ok bytes) (speedup now : Rat) (r : Reader)
    (ho : openLog bytes speedup now = .ok r) : r.startFile = kept w0.2 := by
  rw [writeAll_valid _ hv] at hw
  injection hw with hw
  have := openLog_spec (w0 :: rest) hv [] (.inl rfl) speedup now
  rw [List.append_nil, hw, ho] at this
  rcases this with ⟨w, ws, r', h1, h2, h3, h4, h5, h6, h7, h8, h9, -⟩ | h
  · injection h1 with h1 _
    injection h3 with h3
    rw [h3, h8, h1]
  · simp at h

/-! ## Examples -/

/-- Two frames; replaying them without waiting; and what is left when the last byte is missing or the second header is cut. -/
def twoFrames : List (CANFrame × Rat) := [(⟨0x123, [1, 2, 3], true, false⟩, 5), (⟨0x1FFFFFFF, [], false, true⟩, 6)]

example : ∀ w ∈ twoFrames, Valid w := by
  intro w hw
  simp only [twoFrames, List.mem_cons, List.not_mem_nil, or_false] at hw
  rcases hw with rfl | rfl <;> constructor <;> decide +kernel

example : (match writeAll twoFrames with
    | .ok b =>
      match openLog b (-1) 100 with
      | .ok r => framesOf (receives [(0, none), (0, none), (0, none)] r).1
      | _ => []
    | _ => []) = [⟨⟨0x123, [1, 2, 3], true, false⟩, 100⟩, ⟨⟨0x1FFFFFFF, [], false, true⟩, 101⟩] := by decide +kernel

example : (match writeAll twoFrames with
    | .ok b =>
      match openLog (b.take 42) (-1) 100 with
      | .ok r => framesOf (receives [(0, none), (0, none), (0, none)] r).1
      | _ => []
    | _ => []) = [⟨⟨0x123, [1, 2, 3], true, false⟩, 100⟩] := by decide +kernel

end LogFile
end Dronecan
