import Verif.Model.TransferManager
import Verif.Proofs.Dict
import Verif.Proofs.Transfer

/-!
# C20, C21, C22: reassembly of transfers

The specification side describes what should be returned directly in terms of the history of received frames.
-/

namespace Dronecan

abbrev Key := Nat × Option Byte

/-- The frames of one (CAN ID, transfer ID) in a history. -/
def ofKey (k : Key) (hist : List Frame) : List Frame := hist.filter fun f => f.key = k

/-- `p` starts with a start-of-transfer frame and contains no other one. -/
def StartsOnce (p : List Frame) : Prop :=
  ∃ g rest, p = g :: rest ∧ g.sot = true ∧ ∀ x ∈ rest, x.sot = false

/-- `p` is what has been received of `frames` since the most recent start-of-transfer frame, including it. -/
def SinceLastStart (frames p : List Frame) : Prop := (∃ pre, frames = pre ++ p) ∧ StartsOnce p

/-- `p` is the transfer completed by the last of `frames`: all frames since the most recent start, the last one
being the only one with end-of-transfer. -/
def Completed (frames p : List Frame) : Prop :=
  SinceLastStart frames p ∧ ∃ init last, p = init ++ [last] ∧ last.eot = true ∧ ∀ x ∈ init, x.eot = false

/-- `p` is a transfer in progress: all frames since the most recent start, none with end-of-transfer. -/
def InProgress (frames p : List Frame) : Prop := SinceLastStart frames p ∧ ∀ x ∈ p, x.eot = false

theorem sinceLastStart_snoc (l : List Frame) (f : Frame) (p : List Frame) :
    SinceLastStart (l ++ [f]) p ↔
      (f.sot = true ∧ p = [f]) ∨ (f.sot = false ∧ ∃ q, SinceLastStart l q ∧ p = q ++ [f]) := by
  constructor
  · rintro ⟨⟨pre, hpre⟩, g, rest, rfl, hg, hrest⟩
    rcases List.eq_nil_or_concat rest with rfl | ⟨init, last, rfl⟩
    · left
      have := List.append_inj_right' hpre rfl
      have e : f = g := by simpa using this
      subst e
      exact ⟨hg, rfl⟩
    · right
      have hpre' : l ++ [f] = (pre ++ g :: init) ++ [last] := by simpa using hpre
      have h1 := List.append_inj_left' hpre' rfl
      have h2 : f = last := by simpa using List.append_inj_right' hpre' rfl
      subst h2
      refine ⟨hrest f (by simp), g :: init, ⟨⟨pre, h1⟩, g, init, rfl, hg, fun x hx => hrest x (by simp [hx])⟩, by simp⟩
  · rintro (⟨hf, rfl⟩ | ⟨hf, q, ⟨⟨pre, rfl⟩, g, rest, rfl, hg, hrest⟩, rfl⟩)
    · exact ⟨⟨l, rfl⟩, f, [], rfl, hf, by simp⟩
    · refine ⟨⟨pre, by simp⟩, g, rest ++ [f], by simp, hg, ?_⟩
      intro x hx
      rcases List.mem_append.1 hx with h | h
      · exact hrest x h
      · rw [List.mem_singleton.1 h]; exact hf

theorem inProgress_snoc (l : List Frame) (f : Frame) (p : List Frame) :
    InProgress (l ++ [f]) p ↔ f.eot = false ∧
      ((f.sot = true ∧ p = [f]) ∨ (f.sot = false ∧ ∃ q, InProgress l q ∧ p = q ++ [f])) := by
  unfold InProgress
  rw [sinceLastStart_snoc]
  constructor
  · rintro ⟨⟨h1, rfl⟩ | ⟨h1, q, h2, rfl⟩, he⟩
    · exact ⟨he f (by simp), Or.inl ⟨h1, rfl⟩⟩
    · exact ⟨he f (by simp), Or.inr ⟨h1, q, ⟨h2, fun x hx => he x (by simp [hx])⟩, rfl⟩⟩
  · rintro ⟨he, ⟨h1, rfl⟩ | ⟨h1, q, ⟨h2, h3⟩, rfl⟩⟩
    · exact ⟨Or.inl ⟨h1, rfl⟩, by simpa using he⟩
    · refine ⟨Or.inr ⟨h1, q, h2, rfl⟩, fun x hx => ?_⟩
      rcases List.mem_append.1 hx with h | h
      · exact h3 x h
      · rw [List.mem_singleton.1 h]; exact he

theorem completed_snoc (l : List Frame) (f : Frame) (p : List Frame) :
    Completed (l ++ [f]) p ↔ f.eot = true ∧
      ((f.sot = true ∧ p = [f]) ∨ (f.sot = false ∧ ∃ q, InProgress l q ∧ p = q ++ [f])) := by
  unfold Completed InProgress
  rw [sinceLastStart_snoc]
  constructor
  · rintro ⟨⟨h1, rfl⟩ | ⟨h1, q, h2, rfl⟩, init, last, e, hl, hi⟩
    · have : f = last := by
        have := List.append_inj_right' (s₁ := []) (t₁ := [f]) e rfl
        simpa using this
      subst this
      exact ⟨hl, Or.inl ⟨h1, rfl⟩⟩
    · have e1 : q = init := List.append_inj_left' e rfl
      have e2 : f = last := by simpa using List.append_inj_right' e rfl
      subst e1; subst e2
      exact ⟨hl, Or.inr ⟨h1, q, ⟨h2, hi⟩, rfl⟩⟩
  · rintro ⟨he, ⟨h1, rfl⟩ | ⟨h1, q, ⟨h2, h3⟩, rfl⟩⟩
    · exact ⟨Or.inl ⟨h1, rfl⟩, [], f, rfl, he, by simp⟩
    · exact ⟨Or.inr ⟨h1, q, h2, rfl⟩, q, f, rfl, he, h3⟩

theorem ofKey_snoc (k : Key) (hist : List Frame) (f : Frame) :
    ofKey k (hist ++ [f]) = if f.key = k then ofKey k hist ++ [f] else ofKey k hist := by
  simp only [ofKey, List.filter_append, List.filter_cons, List.filter_nil, decide_eq_true_eq]
  split <;> simp

/-- The manager's state agrees with the history: the stored partial transfers are exactly the ones in progress. -/
def Agrees (s : TmState) (hist : List Frame) : Prop :=
  s.Ok ∧ ∀ k p, (∃ t, s.get? k = some (p, t)) ↔ InProgress (ofKey k hist) p

theorem agrees_nil : Agrees [] [] := by
  refine ⟨Dict.ok_nil, fun k p => ?_⟩
  simp only [Dict.get?, reduceCtorEq, exists_const, false_iff]
  rintro ⟨⟨⟨pre, h⟩, g, rest, rfl, _⟩, _⟩
  simp [ofKey] at h

theorem receive_step (s : TmState) (hist : List Frame) (now : Int) (f : Frame) (h : Agrees s hist) :
    Agrees (receiveFrame s now f).1 (hist ++ [f]) ∧
    ∀ p, (receiveFrame s now f).2 = some p ↔ Completed (ofKey f.key (hist ++ [f])) p := by
  obtain ⟨hok, hag⟩ := h
  -- the frames accumulated if the frame is taken
  have hkf : ofKey f.key (hist ++ [f]) = ofKey f.key hist ++ [f] := by rw [ofKey_snoc, if_pos rfl]
  have hother : ∀ k, k ≠ f.key → ofKey k (hist ++ [f]) = ofKey k hist := by
    intro k hk; rw [ofKey_snoc, if_neg (fun e => hk e.symm)]
  -- describe `frames`
  by_cases hin : (s.contains f.key || f.sot) = true
  · have hacc : ∃ q : List Frame, (if f.sot then [] else ((s.get? f.key).map (·.1)).getD []) = q ∧
        ∀ p, ((f.sot = true ∧ p = [f]) ∨ (f.sot = false ∧ ∃ q, InProgress (ofKey f.key hist) q ∧ p = q ++ [f])) ↔
          p = q ++ [f] := by
      cases hs : f.sot with
      | true => exact ⟨[], by simp, by simp⟩
      | false =>
        rw [hs, Bool.or_false, Dict.contains] at hin
        obtain ⟨⟨q, t⟩, hq⟩ := Option.isSome_iff_exists.1 hin
        refine ⟨q, by simp [hq], fun p => ?_⟩
        simp only [Bool.false_eq_true, false_and, false_or, true_and]
        constructor
        · rintro ⟨q', hq', rfl⟩
          obtain ⟨t', ht'⟩ := (hag f.key q').2 hq'
          rw [hq] at ht'
          have : q = q' := by simpa using congrArg (fun o => o.map Prod.fst) ht'
          rw [this]
        · rintro rfl
          exact ⟨q, (hag f.key q).1 ⟨t, hq⟩, rfl⟩
    obtain ⟨q, hq, hchar⟩ := hacc
    have hres : receiveFrame s now f =
        if f.eot then ((s.set f.key (q ++ [f], now)).del f.key, some (q ++ [f]))
        else (s.set f.key (q ++ [f], now), none) := by
      simp only [receiveFrame, hin, if_true, hq]
    cases he : f.eot with
    | true =>
      rw [hres, he, if_pos rfl]
      have hok' := Dict.ok_set hok f.key (q ++ [f], now)
      refine ⟨⟨Dict.ok_del hok' _, fun k p => ?_⟩, fun p => ?_⟩
      · rw [Dict.get?_del hok']
        by_cases hk : f.key = k
        · subst hk
          rw [if_pos rfl, hkf, inProgress_snoc, he]
          simp
        · rw [if_neg hk, Dict.get?_set_ne _ _ hk, hother k (fun e => hk e.symm)]
          exact hag k p
      · rw [hkf, completed_snoc, hchar, he]
        simp [eq_comm]
    | false =>
      rw [hres, he, if_neg (by simp)]
      refine ⟨⟨Dict.ok_set hok _ _, fun k p => ?_⟩, fun p => ?_⟩
      · by_cases hk : f.key = k
        · subst hk
          rw [Dict.get?_set_self, hkf, inProgress_snoc, hchar, he]
          simp [eq_comm]
        · rw [Dict.get?_set_ne _ _ hk, hother k (fun e => hk e.symm)]
          exact hag k p
      · rw [hkf, completed_snoc, he]
        simp
  · have hin' : (s.contains f.key || f.sot) = false := by simpa using hin
    have hs : f.sot = false := by
      cases h : f.sot
      · rfl
      · rw [h] at hin'; simp at hin'
    have hg : s.get? f.key = none := by
      rw [hs, Bool.or_false, Dict.contains] at hin'
      simpa using hin'
    have hres : receiveFrame s now f = (s, none) := by
      simp only [receiveFrame, hin', Bool.false_eq_true, if_false]
    have hno : ∀ q, ¬ InProgress (ofKey f.key hist) q := by
      intro q hq
      obtain ⟨t, ht⟩ := (hag f.key q).2 hq
      rw [hg] at ht; simp at ht
    rw [hres]
    refine ⟨⟨hok, fun k p => ?_⟩, fun p => ?_⟩
    · by_cases hk : f.key = k
      · subst hk
        rw [hkf, inProgress_snoc, hg, hs]
        simp [hno]
      · rw [hother k (fun e => hk e.symm)]
        exact hag k p
    · rw [hkf, completed_snoc, hs]
      simp [hno]

theorem runManager_append (s : TmState) (l l' : List (Int × Frame)) :
    runManager s (l ++ l') =
      ((runManager (runManager s l).1 l').1, (runManager s l).2 ++ (runManager (runManager s l).1 l').2) := by
  induction l generalizing s with
  | nil => simp [runManager]
  | cons a l ih =>
    obtain ⟨now, f⟩ := a
    simp only [List.cons_append, runManager, ih]

theorem agrees_run (hist : List (Int × Frame)) : Agrees (runManager [] hist).1 (hist.map (·.2)) := by
  suffices ∀ (s : TmState) (pre : List Frame), Agrees s pre →
      Agrees (runManager s hist).1 (pre ++ hist.map (·.2)) by
    simpa using this [] [] agrees_nil
  induction hist with
  | nil => intro s pre h; simpa [runManager] using h
  | cons a hist ih =>
    obtain ⟨now, f⟩ := a
    intro s pre h
    have h1 := (receive_step s pre now f h).1
    have := ih _ _ h1
    simpa [runManager] using this

/-- C21: after any history of frames, receiving frame `f` returns the list `p` exactly if `p` consists of all the frames
with the key of `f` received since, and including, the most recent start-of-transfer frame, up to `f`, and `f` is the
only one with end-of-transfer. Otherwise nothing is returned. -/
theorem C21_reassembled_iff (hist : List (Int × Frame)) (now : Int) (f : Frame) (p : List Frame) :
    (receiveFrame (runManager [] hist).1 now f).2 = some p ↔ Completed (ofKey f.key (hist.map (·.2) ++ [f])) p :=
  (receive_step _ _ now f (agrees_run hist)).2 p

/-- C21: what the manager keeps after any history is exactly the transfers in progress: nothing of a finished transfer
remains. -/
theorem C21_kept_iff (hist : List (Int × Frame)) (k : Key) (p : List Frame) :
    (∃ t, (runManager [] hist).1.get? k = some (p, t)) ↔ InProgress (ofKey k (hist.map (·.2))) p :=
  (agrees_run hist).2 k p

/-- C21: frames without a tail byte are ignored entirely. -/
theorem C21_empty_frame_ignored (hist : List (Int × Frame)) (now : Int) (f : Frame) (hf : f.bytes = []) :
    receiveFrame (runManager [] hist).1 now f = ((runManager [] hist).1, none) := by
  have hs : f.sot = false := by simp [Frame.sot, hf]
  have hinv : ∀ k p, InProgress (ofKey k (hist.map (·.2))) p → k.2 ≠ none := by
    intro k p h hk
    obtain ⟨⟨⟨pre, hpre⟩, g, rest, rfl, hg, _⟩, _⟩ := h
    have hm : g ∈ ofKey k (hist.map (·.2)) := by rw [hpre]; simp
    have hgk : g.key = k := by simpa [ofKey] using (List.mem_filter.1 hm).2
    have : g.bytes = [] := by
      have := congrArg Prod.snd hgk
      rw [hk] at this
      simpa [Frame.key] using this
    rw [show g.sot = false by simp [Frame.sot, this]] at hg
    simp at hg
  have hnone : (runManager [] hist).1.get? f.key = none := by
    cases hg : (runManager [] hist).1.get? f.key with
    | none => rfl
    | some pt =>
      obtain ⟨p, t⟩ := pt
      have := hinv f.key p ((C21_kept_iff hist f.key p).1 ⟨t, hg⟩)
      simp [Frame.key, hf] at this
  simp [receiveFrame, Dict.contains, hnone, hs]

/-- C21: what the words used in its statement mean on the wire. Two frames have the same key iff they have the same CAN
identifier and the same transfer ID in the low five bits of their last byte (frames without data form a key of their own);
start-of-transfer and end-of-transfer are bits 7 and 6 of the last byte. -/
theorem C21_key_and_flags (f g : Frame) :
    (f.key = g.key ↔ f.id = g.id ∧ (f.bytes = [] ↔ g.bytes = []) ∧ f.tail.toNat % 32 = g.tail.toNat % 32) ∧
    (f.sot = true ↔ f.bytes ≠ [] ∧ f.tail.getLsbD 7 = true) ∧
    (f.eot = true ↔ f.bytes ≠ [] ∧ f.tail.getLsbD 6 = true) ∧
    (f.toggle = true ↔ f.bytes ≠ [] ∧ f.tail.getLsbD 5 = true) := by
  have hflag : ∀ f : Frame, (f.sot = true ↔ f.bytes ≠ [] ∧ f.tail.getLsbD 7 = true) ∧
      (f.eot = true ↔ f.bytes ≠ [] ∧ f.tail.getLsbD 6 = true) ∧
      (f.toggle = true ↔ f.bytes ≠ [] ∧ f.tail.getLsbD 5 = true) := by
    intro f
    cases hb : f.bytes.getLast? with
    | none =>
      have : f.bytes = [] := by simpa using hb
      simp [Frame.sot, Frame.eot, Frame.toggle, this]
    | some t =>
      have hne := bytes_ne_of_getLast? hb
      simp only [Frame.sot, Frame.eot, Frame.toggle, hb, tail_of_getLast? hb, bne_iff_ne]
      rw [and_80, and_40]
      refine ⟨by simp [hne], by simp [hne], ?_⟩
      rw [and_20]
      cases t.getLsbD 5 <;> simp [hne]
  refine ⟨?_, hflag f⟩
  simp only [Frame.key, Prod.mk.injEq, and_congr_right_iff]
  intro _
  cases hf : f.bytes.getLast? with
  | none =>
    have hf' : f.bytes = [] := by simpa using hf
    cases hg : g.bytes.getLast? with
    | none =>
      have : g.bytes = [] := by simpa using hg
      simp [Frame.tail, hf', this]
    | some u =>
      have := bytes_ne_of_getLast? hg
      simp [hf', this]
  | some t =>
    have hf' := bytes_ne_of_getLast? hf
    cases hg : g.bytes.getLast? with
    | none =>
      have : g.bytes = [] := by simpa using hg
      simp [hf', this]
    | some u =>
      have hg' := bytes_ne_of_getLast? hg
      simp only [Option.map_some, Option.some.injEq, tail_of_getLast? hf, tail_of_getLast? hg, hf', hg', true_and]
      constructor
      · intro h
        rw [← and_1F, ← and_1F, h]
      · intro h
        apply BitVec.eq_of_toNat_eq
        rw [and_1F, and_1F, h]

/-! ## C20 -/

theorem receive_same_key (s s' : TmState) (now : Int) (f : Frame) (h : s.Ok) (h' : s'.Ok)
    (hg : s.get? f.key = s'.get? f.key) :
    (receiveFrame s now f).2 = (receiveFrame s' now f).2 ∧
    (receiveFrame s now f).1.get? f.key = (receiveFrame s' now f).1.get? f.key := by
  simp only [receiveFrame, Dict.contains, hg]
  by_cases c : ((s'.get? f.key).isSome || f.sot) = true
  · simp only [c, if_true]
    by_cases e : f.eot = true
    · simp only [e, if_true, true_and]
      rw [Dict.get?_del (Dict.ok_set h _ _), Dict.get?_del (Dict.ok_set h' _ _)]; simp
    · simp only [e, if_false]
      exact ⟨rfl, by simp⟩
  · simp only [c, if_false]
    exact ⟨rfl, hg⟩

theorem receive_other_key (s : TmState) (now : Int) (f : Frame) (k : Key) (hk : f.key ≠ k) :
    (receiveFrame s now f).1.get? k = s.get? k := by
  simp only [receiveFrame]
  split
  · split
    · rw [Dict.get?_del_ne _ hk, Dict.get?_set_ne _ _ hk]
    · rw [Dict.get?_set_ne _ _ hk]
  · rfl

theorem receive_ok (s : TmState) (now : Int) (f : Frame) (h : s.Ok) : (receiveFrame s now f).1.Ok := by
  simp only [receiveFrame]
  split
  · split
    · exact Dict.ok_del (Dict.ok_set h _ _) _
    · exact Dict.ok_set h _ _
  · exact h

/-- C20: whatever else is interleaved, the results returned for the frames of one (CAN ID, transfer ID) are those
returned when only these frames are received (at the same times). -/
theorem C20_non_interference (hist : List (Int × Frame)) (k : Key) :
    (runManager [] hist).2.filter (fun r => r.1.key = k) =
      (runManager [] (hist.filter fun e => e.2.key = k)).2 := by
  suffices ∀ (s s' : TmState), s.Ok → s'.Ok → s.get? k = s'.get? k →
      (runManager s hist).2.filter (fun r => r.1.key = k) =
        (runManager s' (hist.filter fun e => e.2.key = k)).2 from
    this [] [] Dict.ok_nil Dict.ok_nil rfl
  induction hist with
  | nil => intro s s' _ _ _; simp [runManager]
  | cons a hist ih =>
    obtain ⟨now, f⟩ := a
    intro s s' h h' hg
    by_cases hk : f.key = k
    · subst hk
      obtain ⟨e1, e2⟩ := receive_same_key s s' now f h h' hg
      simp only [List.filter_cons, decide_true, if_true, runManager]
      rw [ih _ _ (receive_ok s now f h) (receive_ok s' now f h') e2, e1]
    · simp only [List.filter_cons, hk, decide_false, Bool.false_eq_true, if_false, runManager]
      exact ih _ _ (receive_ok s now f h) h' (by rw [receive_other_key s now f k hk]; exact hg)

/-- A non-trivial interleaving: two 2-frame transfers with different keys, both reassembled. -/
def exampleHist : List (Int × Frame) :=
  [(1, { id := 5, bytes := [1#8, 0x81#8] }), (2, { id := 9, bytes := [2#8, 0x81#8] }),
   (3, { id := 5, bytes := [3#8, 0x61#8] }), (4, { id := 9, bytes := [4#8, 0x61#8] })]

example : (runManager [] exampleHist).2.map (·.2) =
    [none, none, some [{ id := 5, bytes := [1#8, 0x81#8] }, { id := 5, bytes := [3#8, 0x61#8] }],
      some [{ id := 9, bytes := [2#8, 0x81#8] }, { id := 9, bytes := [4#8, 0x61#8] }]] := by decide +kernel

/-! ## C22 -/

/-- Full statement of C22. -/
def C22_statement : Prop :=
  ∀ (s : TmState) (t timeout : Int), s.Ok →
    removeInactive s t timeout = (s.filter (fun e => ¬ t - e.2.2 > timeout), .ok ())

/-- C22 is false of the code: with two stale transfers, only one is removed and `RuntimeError` is raised. -/
theorem C22_counterexample : ¬ C22_statement := by
  intro h
  have := h [((1, none), ([], 0)), ((2, none), ([], 0))] 10 1 (by unfold Dict.Ok; decide)
  revert this
  decide

theorem removeLoop_spec (t timeout : Int) (s l : TmState) :
    (l.all (fun e => decide (t - e.2.2 ≤ timeout)) = true → removeInactiveLoop t timeout s l = (s, .ok ())) ∧
    (∀ pre e post, l = pre ++ e :: post → pre.all (fun e => decide (t - e.2.2 ≤ timeout)) = true →
      t - e.2.2 > timeout → removeInactiveLoop t timeout s l = (s.del e.1, .error .runtimeError)) := by
  induction l with
  | nil =>
    refine ⟨fun _ => rfl, fun pre e post h => ?_⟩
    simp at h
  | cons a l ih =>
    obtain ⟨k, fr, ts⟩ := a
    constructor
    · intro hall
      simp only [List.all_cons, Bool.and_eq_true, decide_eq_true_eq] at hall
      rw [removeInactiveLoop, if_neg (by omega)]
      exact ih.1 hall.2
    · intro pre e post hl hpre hst
      cases pre with
      | nil =>
        simp only [List.nil_append, List.cons.injEq] at hl
        rw [← hl.1] at hst ⊢
        rw [removeInactiveLoop, if_pos hst]
      | cons b pre =>
        simp only [List.cons_append, List.cons.injEq] at hl
        simp only [List.all_cons, Bool.and_eq_true, decide_eq_true_eq] at hpre
        rw [← hl.1] at hpre
        rw [removeInactiveLoop, if_neg (by have := hpre.1; simp only at this; omega)]
        exact ih.2 pre e post hl.2 hpre.2 hst

theorem del_middle (pre : TmState) (e : Key × (List Frame × Int)) (post : TmState) (h : Dict.Ok (pre ++ e :: post)) :
    Dict.del (pre ++ e :: post) e.1 = pre ++ post := by
  induction pre with
  | nil => obtain ⟨a, b⟩ := e; simp [Dict.del]
  | cons b pre ih =>
    obtain ⟨x, y⟩ := b
    have hd : x ∉ Dict.keys (pre ++ e :: post) ∧ Dict.Ok (pre ++ e :: post) := by simpa [Dict.Ok, Dict.keys] using h
    have hx : x ≠ e.1 := by
      intro hh
      apply hd.1
      simp [Dict.keys, hh]
    simp only [List.cons_append, Dict.del, if_neg hx, ih hd.2]

/-- C22, proved part 1: if nothing is stale, the call returns normally and changes nothing. -/
theorem C22_nothing_stale_partial (s : TmState) (t timeout : Int) (h : ∀ e ∈ s, t - e.2.2 ≤ timeout) :
    removeInactive s t timeout = (s, .ok ()) :=
  (removeLoop_spec t timeout s s).1 (by simpa using h)

/-- C22, proved part 2: if something is stale, exactly the first stale transfer is removed (fresh ones are never
touched) and `RuntimeError` is raised. Missing: removal of the remaining stale transfers and a normal return. -/
theorem C22_first_stale_partial (pre post : TmState) (e : Key × (List Frame × Int)) (t timeout : Int)
    (hok : Dict.Ok (pre ++ e :: post)) (hpre : ∀ x ∈ pre, t - x.2.2 ≤ timeout) (he : t - e.2.2 > timeout) :
    removeInactive (pre ++ e :: post) t timeout = (pre ++ post, .error .runtimeError) := by
  rw [removeInactive, (removeLoop_spec t timeout _ _).2 pre e post rfl (by simpa using hpre) he, del_middle _ _ _ hok]

/-- Call `remove_inactive_transfers` (catching the exception) until it returns normally, at most `n` times. -/
def purge : Nat → TmState → Int → Int → TmState
  | 0, s, _, _ => s
  | n + 1, s, t, timeout =>
    match removeInactive s t timeout with
    | (s, .ok ()) => s
    | (s, .error _) => purge n s t timeout

/-- C22, proved part 3: repeating the call, ignoring the exception, purges exactly the stale transfers after as many
calls as there are entries. -/
theorem C22_repeated_partial (s : TmState) (t timeout : Int) (n : Nat) (hn : s.length ≤ n) (hok : s.Ok) :
    purge n s t timeout = s.filter (fun e => decide (t - e.2.2 ≤ timeout)) := by
  induction n generalizing s with
  | zero =>
    have : s = [] := List.length_eq_zero_iff.1 (by omega)
    subst this; rfl
  | succ n ih =>
    by_cases hall : ∀ e ∈ s, t - e.2.2 ≤ timeout
    · rw [purge, C22_nothing_stale_partial s t timeout hall, eq_comm, List.filter_eq_self]
      simpa using hall
    · have hex : ∃ pre e post, s = pre ++ e :: post ∧ (∀ x ∈ pre, t - x.2.2 ≤ timeout) ∧ t - e.2.2 > timeout := by
        clear ih hok hn
        induction s with
        | nil => exact absurd (by simp) hall
        | cons a s ih =>
          by_cases ha : t - a.2.2 ≤ timeout
          · obtain ⟨pre, e, post, rfl, h1, h2⟩ := ih (fun h => hall (by
              intro e he
              rcases List.mem_cons.1 he with rfl | he
              · exact ha
              · exact h e he))
            refine ⟨a :: pre, e, post, rfl, ?_, h2⟩
            intro x hx
            rcases List.mem_cons.1 hx with rfl | hx
            · exact ha
            · exact h1 x hx
          · exact ⟨[], a, s, rfl, by simp, by omega⟩
      obtain ⟨pre, e, post, rfl, h1, h2⟩ := hex
      rw [purge, C22_first_stale_partial pre post e t timeout hok h1 h2]
      have hok' : Dict.Ok (pre ++ post) := by
        rw [← del_middle pre e post hok]; exact Dict.ok_del hok _
      simp only
      rw [ih _ (by simp at hn ⊢; omega) hok']
      simp only [List.filter_append, List.filter_cons]
      rw [if_neg (by simp; omega)]

example : Dict.Ok ([((1, none), ([], 0)), ((2, some 3#8), ([], 95)), ((3, none), ([], 20))] : TmState) ∧
    removeInactive [((1, none), ([], 0)), ((2, some 3#8), ([], 95)), ((3, none), ([], 20))] 100 10
      = ([((2, some 3#8), ([], 95)), ((3, none), ([], 20))], .error .runtimeError) := by
  constructor
  · unfold Dict.Ok; decide
  · decide

end Dronecan
