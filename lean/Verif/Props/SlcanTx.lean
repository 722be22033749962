import Verif.Props.SlcanDriver
import Verif.Props.Slcan

/-!
# What the SLCAN driver writes to its port (C101)
-/

namespace Dronecan
namespace SlcanDriver
open Can Slcan

variable {σ : Type} (env : REnv σ)

/-! ## Specification -/

/-- What `send_frame` and `execute_cli_command` have accepted, in order. -/
def offered (t : List Ev) : List TxItem := t.filterMap fun
  | .sent f => some (.frame f)
  | .asked c _ => some (.command c)
  | _ => none

/-- What has become of an item. -/
inductive Outcome where
  | written (bytes : List Byte)
  | refused (e : Err)
  | portFailed (e : Err)
deriving DecidableEq

/-- What has become of the items taken by the TX worker, in order. -/
def outcomes (t : List Ev) : List Outcome := t.filterMap fun
  | .wrote b => some (.written b)
  | .unencodable e => some (.refused e)
  | .portError e => some (.portFailed e)
  | _ => none

/-- What may become of an item: a frame is written as a line that an RX worker reads as the same frame; a command is written with its end of line; a
standard frame is refused with a `TypeError`, a command that is not ASCII with a `UnicodeEncodeError` (a `ValueError`); the port may fail. -/
def Fits : TxItem → Outcome → Prop
  | .frame f, .written b => f.extended = true ∧ (InLimits f → (linesOf [] b).map frameOf = [some f])
  | .frame f, .refused e => f.extended = false ∧ e = .typeError
  | .command c, .written b => b = c.text ++ [CR, LF]
  | .command c, .refused e => e = .valueError ∧ ∃ b ∈ c.text, 128 ≤ b.toNat
  | .stop, _ => False
  | _, .portFailed _ => True

/-- The exceptions that the application is to get for the items not written. -/
def Outcome.error : Outcome → Option Item
  | .written _ => none
  | .refused e => some (.failure e)
  | .portFailed e => some (.failure e)

/-- What the TX worker has reported to the application. -/
def byTx (t : List Ev) : List Item := t.filterMap fun
  | .put true (.item i) => some i
  | _ => none

/-- The frames for which the I/O hooks were called. -/
def hooked (incoming : Bool) (t : List Ev) : List CANFrame := t.filterMap fun
  | .hooks b f => if b = incoming then some f else none
  | _ => none

/-- The frames that `send_frame` has accepted. -/
def sentFrames (t : List Ev) : List CANFrame := t.filterMap fun
  | .sent f => some f
  | _ => none

/-- The frames on the line: those of the lines written. -/
def onLine (t : List Ev) : List CANFrame := (t.filterMap fun
  | .wrote b => some ((linesOf [] b).filterMap frameOf)
  | _ => none).flatten

/-- C101 in full: when everything has been written and the port has not failed, the frames written are the frames accepted, in order. -/
def C101_statement : Prop :=
  ∀ (σ : Type) (env : REnv σ) (s : Drv σ) (hist : List Step), Fresh s → (steps env s hist).tx = [] → (steps env s hist).writing = none →
    (∀ e, .portError e ∉ (steps env s hist).trace) → asked (steps env s hist).trace = [] →
    (∀ f ∈ sentFrames (steps env s hist).trace, InLimits f) →
    onLine (steps env s hist).trace = sentFrames (steps env s hist).trace

/-! ## Proofs -/

/-- The items of the transmission queue that are not the request to stop. -/
def live (l : List TxItem) : List TxItem := l.filter (· != .stop)

structure TxInv (s : Drv σ) : Prop where
  items : ∃ done cur, offered s.trace = done ++ cur ++ live s.tx ∧ done.length = (outcomes s.trace).length ∧
    (∀ p ∈ done.zip (outcomes s.trace), Fits p.1 p.2) ∧
    (match s.writing with
    | none => cur = []
    | some b => ∃ i, cur = [i] ∧ Fits i (.written b))
  errors : byTx s.trace = (outcomes s.trace).filterMap Outcome.error
  outgoing : hooked false s.trace = sentFrames s.trace
  incoming : hooked true s.trace = framesOf (handed s.trace)

theorem TxInv.congr {s s' : Drv σ} (h : TxInv s) (h1 : s'.trace = s.trace) (h2 : live s'.tx = live s.tx) (h3 : s'.writing = s.writing) :
    TxInv s' := by
  constructor
  · rw [h1, h2, h3]; exact h.items
  · rw [h1]; exact h.errors
  · rw [h1]; exact h.outgoing
  · rw [h1]; exact h.incoming

/-- The events that the invariant does not speak of. -/
def silent : Ev → Bool
  | .sent _ | .asked _ _ | .wrote _ | .unencodable _ | .portError _ | .put true (.item _) | .hooks _ _ | .frame _ _ => false
  | _ => true

theorem framesOf_handed_snoc (t : List Ev) (e : Ev) (he : silent e = true) : framesOf (handed (t ++ [e])) = framesOf (handed t) := by
  cases e <;> simp_all [handed, framesOf, silent, itemFrame]

theorem TxInv.silent {s : Drv σ} (h : TxInv s) (e : Ev) (he : silent e = true) : TxInv (emit e s) := by
  have h1 : offered (emit e s).trace = offered s.trace := by cases e <;> simp_all [offered, emit, SlcanDriver.silent]
  have h2 : outcomes (emit e s).trace = outcomes s.trace := by cases e <;> simp_all [outcomes, emit, SlcanDriver.silent]
  have h3 : byTx (emit e s).trace = byTx s.trace := by
    cases e with
    | put b m =>
      cases b <;> cases m <;> simp_all [byTx, emit, SlcanDriver.silent]
    | _ => simp_all [byTx, emit, SlcanDriver.silent]
  have h4 : ∀ b, hooked b (emit e s).trace = hooked b s.trace := by
    intro b
    cases e <;> simp_all [hooked, emit, SlcanDriver.silent]
  have h5 : sentFrames (emit e s).trace = sentFrames s.trace := by cases e <;> simp_all [sentFrames, emit, SlcanDriver.silent]
  constructor
  · rw [h1, h2]; exact h.items
  · rw [h2, h3]; exact h.errors
  · rw [h4, h5]; exact h.outgoing
  · rw [h4]
    have := framesOf_handed_snoc s.trace e he
    simp only [emit]
    rw [this]
    exact h.incoming

theorem live_append (a b : List TxItem) : live (a ++ b) = live a ++ live b := by simp [live]

theorem TxInv.call {s : Drv σ} (h : TxInv s) (c : Call) : TxInv (call c s) := by
  unfold SlcanDriver.call
  split
  · rename_i f
    split
    · exact h.silent _ rfl
    · split
      · exact h.silent _ rfl
      · obtain ⟨done, cur, h1, h2, h3, h4⟩ := h.items
        constructor
        · refine ⟨done, cur, ?_, ?_, ?_, h4⟩
          · simp only [emit, offered, List.filterMap_append, List.filterMap_cons, List.filterMap_nil, List.append_nil] at h1 ⊢
            rw [h1, live_append]
            simp [live]
          · simpa [emit, outcomes] using h2
          · simpa [emit, outcomes] using h3
        · simpa [emit, byTx, outcomes] using h.errors
        · simpa [emit, hooked, sentFrames] using h.outgoing
        · simpa [emit, hooked, handed] using h.incoming
  · split
    · exact h.silent _ rfl
    · split
      · split
        · exact h
        · exact h.silent _ rfl
      · obtain ⟨done, cur, h1, h2, h3, h4⟩ := h.items
        constructor
        · refine ⟨done, cur, ?_, ?_, ?_, h4⟩
          · simp only [emit, offered, List.filterMap_append, List.filterMap_cons, List.filterMap_nil] at h1 ⊢
            rw [h1, live_append]
            simp [live]
          · simpa [emit, outcomes] using h2
          · simpa [emit, outcomes] using h3
        · simpa [emit, byTx, outcomes] using h.errors
        · simpa [emit, hooked, sentFrames] using h.outgoing
        · simpa [emit, hooked, handed] using h.incoming
  · split
    · exact h
    · split
      · exact h
      · exact h.congr rfl (by simp [live]) rfl

theorem TxInv.calls (acts : List Call) : ∀ {s : Drv σ}, TxInv s → TxInv (acts.foldl (fun s c => SlcanDriver.call c s) s) := by
  induction acts with
  | nil => exact fun h => h
  | cons c cs ih => exact fun h => ih (h.call c)

theorem TxInv.mismatches (l : List Nat) : ∀ {s : Drv σ}, TxInv s → TxInv (l.foldl (fun s cb => emit (.mismatch cb) s) s) := by
  induction l with
  | nil => exact fun h => h
  | cons c cs ih => exact fun h => ih (h.silent _ rfl)

theorem TxInv.again {s : Drv σ} (h : TxInv s) (timeUp : Bool) : TxInv (again timeUp s) := by
  unfold SlcanDriver.again
  have h' : TxInv (emit .nothing { s with receiving := none }) := by
    refine TxInv.silent ?_ _ rfl
    exact h.congr rfl rfl rfl
  repeat' split
  all_goals first | exact h | exact h'

theorem TxInv.answer {s : Drv σ} (h : TxInv s) (timeUp : Bool) (acts : List Call) (raises : Bool) (cmd : List Byte)
    (lines : List (List Byte)) (expired : Bool) : TxInv (answer timeUp acts raises cmd lines expired s) := by
  unfold SlcanDriver.answer
  simp only
  have h1 := TxInv.mismatches (lookup cmd s.reqs).1 h
  split
  · refine TxInv.again ?_ timeUp
    refine TxInv.silent ?_ _ rfl
    exact h1.congr rfl rfl rfl
  · rename_i cb rest _
    have h2 : TxInv (acts.foldl (fun s c => SlcanDriver.call c s) (emit (.called cb cmd lines expired)
        { (lookup cmd s.reqs).1.foldl (fun s cb => emit (.mismatch cb) s) s with reqs := rest })) := by
      refine TxInv.calls acts ?_
      refine TxInv.silent ?_ _ rfl
      exact h1.congr rfl rfl rfl
    split
    · refine TxInv.silent ?_ _ rfl
      exact h2.congr rfl rfl rfl
    · exact h2.again timeUp

theorem TxInv.round {s : Drv σ} (h : TxInv s) (timeUp : Bool) (acts : List Call) (raises : Bool) : TxInv (round timeUp acts raises s) := by
  unfold SlcanDriver.round
  split
  · exact h
  · simp only
    split
    · constructor
      · simpa [emit, offered, outcomes] using h.items
      · simpa [emit, byTx, outcomes] using h.errors
      · simpa [emit, hooked, sentFrames] using h.outgoing
      · have := h.incoming
        simp only [emit, hooked, handed, framesOf, List.filterMap_append, List.filterMap_cons, List.filterMap_nil,
          List.append_nil, if_true, itemFrame] at this ⊢
        rw [this]
    · refine TxInv.silent ?_ _ rfl
      exact h.congr rfl rfl rfl
    · refine TxInv.answer ?_ _ _ _ _ _ _
      exact h.congr rfl rfl rfl
    · refine TxInv.silent ?_ _ rfl
      exact h.congr rfl rfl rfl

theorem TxInv.construct {s : Drv σ} (h : TxInv s) : TxInv (construct s) := by
  unfold SlcanDriver.construct
  split
  · exact h
  · rename_i m rest _
    have h1 : TxInv (emit (.swallowed m) { s with rx := rest }) := by
      refine TxInv.silent ?_ _ rfl
      exact h.congr rfl rfl rfl
    simp only
    split
    · refine TxInv.silent ?_ _ rfl
      exact h1.congr rfl rfl rfl
    · refine TxInv.silent ?_ _ rfl
      exact h1.congr rfl (by simp [live, emit]) rfl
    · exact h1

theorem linesOf_end (l : List Byte) (h : CR ∉ l) : ∀ acc, linesOf acc (l ++ [CR]) = [acc ++ l] := by
  induction l with
  | nil => intro acc; simp [linesOf, CR]
  | cons c l ih =>
    intro acc
    have hc : c ≠ 13 := fun e => h (by simp [e, CR])
    simp only [List.cons_append, linesOf, if_neg hc]
    rw [ih (fun hm => h (by simp [hm]))]
    simp

/-- What is written for an extended frame. -/
theorem fits_frame (f : CANFrame) (line : List Byte) (h : sendFrame f = .ok line) : Fits (.frame f) (.written line) := by
  have hx : f.extended = true := by
    cases hx : f.extended with
    | true => rfl
    | false => simp [sendFrame, hx] at h
  refine ⟨hx, fun hl => ?_⟩
  obtain ⟨l, h1, h2, h3⟩ := C47_extended_partial f [] hl hx (.inl rfl)
  rw [h1] at h
  cases h
  rw [linesOf_end l h2]
  rw [List.append_nil] at h3
  simp [frameOf, h3]

theorem zip_snoc {α β : Type} (a : List α) (b : List β) (h : a.length = b.length) (x : α) (y : β) :
    (a ++ [x]).zip (b ++ [y]) = a.zip b ++ [(x, y)] := by
  rw [List.zip_append h]
  rfl

theorem TxInv.take {s : Drv σ} (h : TxInv s) (hw : s.writing = none) : TxInv (take s) := by
  unfold SlcanDriver.take
  split
  · exact h
  · rename_i i rest htx
    obtain ⟨done, cur, h1, h2, h3, h4⟩ := h.items
    rw [hw] at h4
    simp only at h4
    rw [h4, htx, List.append_nil] at h1
    -- the item is written
    have writes : ∀ (b : List Byte) (s' : Drv σ), i ≠ .stop → Fits i (.written b) → s'.trace = s.trace ++ [.taken i] → s'.tx = rest →
        s'.writing = some b → TxInv s' := by
      intro b s' hi hf e1 e2 e3
      constructor
      · refine ⟨done, [i], ?_, ?_, ?_, ?_⟩
        · rw [e1, e2]
          simp only [offered, live, List.filterMap_append, List.filterMap_cons, List.filterMap_nil, List.append_nil] at h1 ⊢
          rw [h1, List.filter_cons, if_pos (by simpa using hi), List.append_assoc]
          rfl
        · rw [e1]; simpa [outcomes] using h2
        · rw [e1]; simpa [outcomes] using h3
        · rw [e3]; exact ⟨i, rfl, hf⟩
      · rw [e1]; simpa [byTx, outcomes] using h.errors
      · rw [e1]; simpa [hooked, sentFrames] using h.outgoing
      · rw [e1]; simpa [hooked, handed] using h.incoming
    -- the item is refused
    have refuses : ∀ (e : Err) (s' : Drv σ), i ≠ .stop → Fits i (.refused e) →
        s'.trace = s.trace ++ [.taken i, .unencodable e, .put true (.item (.failure e))] → s'.tx = rest → s'.writing = none → TxInv s' := by
      intro e s' hi hf e1 e2 e3
      constructor
      · refine ⟨done ++ [i], [], ?_, ?_, ?_, ?_⟩
        · rw [e1, e2]
          simp only [offered, live, List.filterMap_append, List.filterMap_cons, List.filterMap_nil, List.append_nil] at h1 ⊢
          rw [h1, List.filter_cons, if_pos (by simpa using hi), List.append_assoc]
          rfl
        · rw [e1]; simpa [outcomes] using h2
        · rw [e1]
          have : outcomes (s.trace ++ [Ev.taken i, .unencodable e, .put true (.item (.failure e))]) = outcomes s.trace ++ [.refused e] := by
            simp [outcomes]
          rw [this, zip_snoc _ _ h2]
          intro p hp
          rcases List.mem_append.1 hp with hp | hp
          · exact h3 p hp
          · rw [List.mem_singleton.1 hp]; exact hf
        · rw [e3]
      · rw [e1]
        have := h.errors
        simp only [byTx, outcomes, List.filterMap_append, List.filterMap_cons, List.filterMap_nil, Outcome.error] at this ⊢
        rw [this]
      · rw [e1]; simpa [hooked, sentFrames] using h.outgoing
      · rw [e1]; simpa [hooked, handed] using h.incoming
    simp only
    split
    · rename_i f
      split
      · rename_i line hl
        exact writes line _ (fun h => nomatch h) (fits_frame f line hl) rfl rfl rfl
      · rename_i e he
        refine refuses e _ (fun h => nomatch h) ?_ (by simp [put, emit]) rfl hw
        cases hx : f.extended with
        | true => simp [sendFrame, hx] at he
        | false =>
          simp only [sendFrame, hx] at he
          cases he
          exact ⟨hx, rfl⟩
    · rename_i c
      split
      · exact writes _ _ (fun h => nomatch h) rfl rfl rfl rfl
      · rename_i ha
        refine refuses .valueError _ (fun h => nomatch h) ?_ (by simp [put, emit]) rfl hw
        refine ⟨rfl, ?_⟩
        simpa [isAscii] using ha
    · constructor
      · refine ⟨done, [], ?_, ?_, ?_, ?_⟩
        · simpa [emit, offered, live] using h1
        · simpa [emit, outcomes] using h2
        · simpa [emit, outcomes] using h3
        · simp only [emit]; rw [hw]; trivial
      · simpa [emit, byTx, outcomes] using h.errors
      · simpa [emit, hooked, sentFrames] using h.outgoing
      · simpa [emit, hooked, handed] using h.incoming

theorem fits_failed {i : TxItem} {b : List Byte} (h : Fits i (.written b)) (e : Err) : Fits i (.portFailed e) := by
  cases i with
  | stop => exact h.elim
  | frame f => trivial
  | command c => trivial

theorem TxInv.write {s : Drv σ} (h : TxInv s) (error : Option Err) : TxInv (write error s) := by
  unfold SlcanDriver.write
  split
  · exact h
  · rename_i b hw
    obtain ⟨done, cur, h1, h2, h3, h4⟩ := h.items
    rw [hw] at h4
    obtain ⟨i, hc, hf⟩ := h4
    rw [hc] at h1
    split
    · constructor
      · refine ⟨done ++ [i], [], ?_, ?_, ?_, rfl⟩
        · simpa [emit, offered] using h1
        · simpa [emit, outcomes] using h2
        · have : outcomes (s.trace ++ [Ev.wrote b]) = outcomes s.trace ++ [.written b] := by simp [outcomes]
          simp only [emit]
          rw [this, zip_snoc _ _ h2]
          intro p hp
          rcases List.mem_append.1 hp with hp | hp
          · exact h3 p hp
          · rw [List.mem_singleton.1 hp]; exact hf
      · have := h.errors
        simp only [emit, byTx, outcomes, List.filterMap_append, List.filterMap_cons, List.filterMap_nil, Outcome.error,
          List.append_nil] at this ⊢
        exact this
      · simpa [emit, hooked, sentFrames] using h.outgoing
      · simpa [emit, hooked, handed] using h.incoming
    · rename_i e
      constructor
      · refine ⟨done ++ [i], [], ?_, ?_, ?_, rfl⟩
        · simpa [put, emit, offered] using h1
        · simpa [put, emit, outcomes] using h2
        · have : outcomes (s.trace ++ [Ev.portError e] ++ [.put true (.item (.failure e))]) = outcomes s.trace ++ [.portFailed e] := by
            simp [outcomes]
          simp only [put, emit]
          rw [this, zip_snoc _ _ h2]
          intro p hp
          rcases List.mem_append.1 hp with hp | hp
          · exact h3 p hp
          · rw [List.mem_singleton.1 hp]; exact fits_failed hf e
      · have := h.errors
        simp only [put, emit, byTx, outcomes, List.filterMap_append, List.filterMap_cons, List.filterMap_nil, Outcome.error,
          List.append_nil] at this ⊢
        rw [this]
      · simpa [put, emit, hooked, sentFrames] using h.outgoing
      · simpa [put, emit, hooked, handed] using h.incoming

theorem TxInv.puts (items : List Item) : ∀ {s : Drv σ}, TxInv s → TxInv (items.foldl (fun s i => put false (.item i) s) s) := by
  induction items with
  | nil => exact fun h => h
  | cons i is ih =>
    intro s h
    refine ih ?_
    refine TxInv.silent ?_ _ rfl
    exact h.congr rfl rfl rfl

theorem TxInv.step {s : Drv σ} (h : TxInv s) (x : Step) : TxInv (step env s x) := by
  cases x with
  | call c =>
    simp only [SlcanDriver.step]
    split
    · exact h.call c
    · exact h
  | receive m =>
    simp only [SlcanDriver.step]
    split
    · split
      · exact h.congr rfl rfl rfl
      · exact h.silent _ rfl
    · exact h
  | round timeUp acts raises =>
    simp only [SlcanDriver.step]
    split
    · exact h
    · exact h.round timeUp acts raises
  | empty =>
    simp only [SlcanDriver.step]
    split
    · exact h
    · refine TxInv.silent ?_ _ rfl
      exact h.congr rfl rfl rfl
  | construct =>
    simp only [SlcanDriver.step]
    split
    · exact h.construct
    · exact h
  | constructTimeout =>
    simp only [SlcanDriver.step]
    split
    · refine TxInv.silent ?_ _ rfl
      exact h.congr rfl (by simp [live]) rfl
    · exact h
  | announce =>
    simp only [SlcanDriver.step]
    split
    · refine TxInv.silent ?_ _ rfl
      exact h.congr rfl rfl rfl
    · exact h
  | take =>
    simp only [SlcanDriver.step]
    split
    · rename_i hc; exact h.take hc.2.2.2
    · exact h
  | write error =>
    simp only [SlcanDriver.step]
    split
    · exact h.write error
    · exact h
  | read new ts now =>
    simp only [SlcanDriver.step]
    split
    · refine TxInv.puts _ ?_
      refine TxInv.silent ?_ _ rfl
      exact h.congr rfl rfl rfl
    · exact h
  | giveUp =>
    simp only [SlcanDriver.step]
    split
    · exact h.congr rfl rfl rfl
    · exact h
  | exit =>
    simp only [SlcanDriver.step]
    split
    · refine TxInv.silent ?_ _ rfl
      refine TxInv.silent ?_ _ rfl
      exact h.congr rfl rfl rfl
    · exact h
  | die =>
    simp only [SlcanDriver.step]
    split
    · refine TxInv.silent ?_ _ rfl
      exact h.congr rfl rfl rfl
    · exact h

theorem TxInv.steps {s : Drv σ} (h0 : Fresh s) (hist : List Step) : TxInv (steps env s hist) := by
  have key : ∀ (hist : List Step) (s' : Drv σ), TxInv s' → TxInv (SlcanDriver.steps env s' hist) := by
    intro hist
    induction hist with
    | nil => exact fun s' h => h
    | cons x xs ih => exact fun s' h => ih _ (h.step env x)
  refine key hist s ⟨⟨[], [], ?_⟩, ?_, ?_, ?_⟩
  · rw [h0.trace, h0.tx, h0.writing]
    exact ⟨rfl, rfl, by simp, rfl⟩
  · simp [h0.trace, byTx, outcomes]
  · simp [h0.trace, hooked, sentFrames]
  · simp [h0.trace, hooked, handed, framesOf]

/-! ## C101 -/

/-- What `send_frame` and `execute_cli_command` accept is taken in order, each item once, and written as it should be, or refused, or lost to a
failure of the port; at most one more is about to be written, and the rest is in the queue. -/
theorem C101_order (s : Drv σ) (h : Fresh s) (hist : List Step) :
    ∃ done cur, offered (steps env s hist).trace = done ++ cur ++ (steps env s hist).tx.filter (· != .stop) ∧
      done.length = (outcomes (steps env s hist).trace).length ∧ cur.length = (steps env s hist).writing.toList.length ∧
      ∀ (i : Nat) x o, done[i]? = some x → (outcomes (steps env s hist).trace)[i]? = some o → Fits x o := by
  obtain ⟨done, cur, h1, h2, h3, h4⟩ := (TxInv.steps env h hist).items
  refine ⟨done, cur, h1, h2, ?_, ?_⟩
  · cases hw : (steps env s hist).writing with
    | none => rw [hw] at h4; simp only at h4; rw [h4]; rfl
    | some b => rw [hw] at h4; obtain ⟨i, hi, -⟩ := h4; rw [hi]; rfl
  · intro i x o hx ho
    refine h3 (x, o) ?_
    exact List.mem_of_getElem? (List.getElem?_zip_eq_some.2 ⟨hx, ho⟩)

/-- For each item that is not written the application is sent the exception, and nothing else is reported by the TX worker. -/
theorem C101_errors (s : Drv σ) (h : Fresh s) (hist : List Step) :
    byTx (steps env s hist).trace = (outcomes (steps env s hist).trace).filterMap Outcome.error :=
  (TxInv.steps env h hist).errors

/-- The I/O hooks are called for the frames accepted and for the frames returned by `receive`, each once, in order. -/
theorem C101_hooks (s : Drv σ) (h : Fresh s) (hist : List Step) :
    hooked false (steps env s hist).trace = sentFrames (steps env s hist).trace ∧
      hooked true (steps env s hist).trace = framesOf (handed (steps env s hist).trace) :=
  ⟨(TxInv.steps env h hist).outgoing, (TxInv.steps env h hist).incoming⟩

theorem sentFrames_offered (t : List Ev) (h : asked t = []) : offered t = (sentFrames t).map .frame := by
  induction t with
  | nil => rfl
  | cons e t ih => cases e <;> simp_all [offered, sentFrames, asked]

theorem onLine_outcomes (t : List Ev) : onLine t = (outcomes t).flatMap fun
    | .written b => (linesOf [] b).filterMap frameOf
    | _ => [] := by
  induction t with
  | nil => rfl
  | cons e t ih => cases e <;> simp_all [onLine, outcomes]

theorem portFailed_event (t : List Ev) (e : Err) (h : .portFailed e ∈ outcomes t) : .portError e ∈ t := by
  obtain ⟨ev, hev, hm⟩ := List.mem_filterMap.1 h
  cases ev <;> simp at hm
  subst hm
  exact hev

theorem all_written (fs : List CANFrame) : ∀ os : List Outcome, fs.length = os.length →
    (∀ p ∈ (fs.map TxItem.frame).zip os, Fits p.1 p.2) → (∀ e, .portFailed e ∉ os) → (∀ f ∈ fs, InLimits f ∧ f.extended = true) →
    (os.flatMap fun
      | .written b => (linesOf [] b).filterMap frameOf
      | _ => []) = fs := by
  induction fs with
  | nil =>
    intro os h _ _ _
    rw [List.length_nil] at h
    rw [List.length_eq_zero_iff.1 h.symm]
    rfl
  | cons f fs ih =>
    intro os h1 h2 h3 h4
    match os, h1 with
    | o :: os, h1 =>
      have hf : Fits (.frame f) o := h2 (.frame f, o) (by simp)
      obtain ⟨hl, hx⟩ := h4 f (by simp)
      rw [List.flatMap_cons, ih os (by simpa using h1) (fun p hp => h2 p (by simp only [List.map_cons, List.zip_cons_cons]; exact List.mem_cons_of_mem _ hp))
        (fun e he => h3 e (List.mem_cons_of_mem _ he)) (fun f hf => h4 f (List.mem_cons_of_mem _ hf))]
      match o, hf with
      | .written b, hf =>
        have := hf.2 hl
        show (linesOf [] b).filterMap frameOf ++ fs = f :: fs
        have h5 : (linesOf [] b).filterMap frameOf = [f] := by
          have h6 : ((linesOf [] b).map frameOf).filterMap id = [f] := by rw [this]; rfl
          rw [List.filterMap_map] at h6
          exact h6
        rw [h5]
        rfl
      | .refused e, hf =>
        have h5 := hf.1
        rw [hx] at h5
        cases h5
      | .portFailed e, _ => exact (h3 e (by simp)).elim

/-- C101 for extended frames: when everything has been written and the port has not failed, the frames written are the frames accepted, in order.
(Missing: standard frames, which are refused, see `C101_counterexample`.) -/
theorem C101_partial (s : Drv σ) (hist : List Step) (h : Fresh s) (htx : (steps env s hist).tx = []) (hw : (steps env s hist).writing = none)
    (hp : ∀ e, .portError e ∉ (steps env s hist).trace) (hc : asked (steps env s hist).trace = [])
    (hl : ∀ f ∈ sentFrames (steps env s hist).trace, InLimits f ∧ f.extended = true) :
    onLine (steps env s hist).trace = sentFrames (steps env s hist).trace := by
  obtain ⟨done, cur, h1, h2, h3, h4⟩ := (TxInv.steps env h hist).items
  rw [hw] at h4
  simp only at h4
  rw [h4, htx] at h1
  have hd : done = (sentFrames (steps env s hist).trace).map .frame := by
    rw [← sentFrames_offered _ hc, h1]
    simp [live]
  rw [onLine_outcomes]
  refine all_written _ _ ?_ ?_ ?_ hl
  · rw [← h2, hd, List.length_map]
  · rw [← hd]; exact h3
  · exact fun e he => hp e (portFailed_event _ e he)

/-- While the I/O process works, the queue is emptied: when the TX worker has gone through as many iterations as there are items, nothing is left in
the queue or about to be written. -/
theorem C101_written (env : REnv σ) (s : Drv σ) (ha : s.alive = true) (hn : s.announced = true) (hs : s.stopping = false) (hq : .stop ∉ s.tx)
    (e : Option Err) (es : List (Option Err)) (hl : s.tx.length ≤ es.length) :
    (steps env s (.write e :: es.flatMap fun e => [.take, .write e])).tx = [] ∧
      (steps env s (.write e :: es.flatMap fun e => [.take, .write e])).writing = none := by
  have hw : ∀ (t : Drv σ) (e : Option Err), t.alive = true → (step env t (.write e)).writing = none ∧ (step env t (.write e)).tx = t.tx ∧
      (step env t (.write e)).alive = true ∧ (step env t (.write e)).announced = t.announced ∧ (step env t (.write e)).stopping = t.stopping := by
    intro t e ha
    simp only [step, ha, if_true]
    cases hb : t.writing with
    | none => simp [write, hb, ha]
    | some b => cases e <;> simp [write, hb, emit, put, ha]
  obtain ⟨w₁, w₂, w₃, w₄, w₅⟩ := hw s e ha
  show (steps env (step env s (.write e)) _).tx = [] ∧ (steps env (step env s (.write e)) _).writing = none
  rw [hn] at w₄
  rw [hs] at w₅
  rw [← w₂] at hl hq
  generalize step env s (.write e) = t at hl hq w₁ w₃ w₄ w₅ ⊢
  induction es generalizing t with
  | nil =>
    simp only [List.length_nil, Nat.le_zero] at hl
    exact ⟨List.length_eq_zero_iff.1 hl, w₁⟩
  | cons e es ih =>
    show (steps env (step env (step env t .take) (.write e)) _).tx = [] ∧ (steps env (step env (step env t .take) (.write e)) _).writing = none
    have ht : (step env t .take).alive = true ∧ (step env t .take).announced = true ∧ (step env t .take).stopping = false ∧
        (step env t .take).tx = t.tx.tail := by
      simp only [step, w₁, w₃, w₄, w₅]
      simp only [true_and, Bool.false_eq_true, not_false_eq_true, and_self, if_true, take]
      cases hx : t.tx with
      | nil => exact ⟨w₃, w₄, w₅, by rw [hx]; rfl⟩
      | cons i rest =>
        cases i with
        | frame f =>
          simp only
          cases sendFrame f with
          | ok line => exact ⟨w₃, w₄, w₅, rfl⟩
          | error e => exact ⟨w₃, w₄, w₅, rfl⟩
        | command c =>
          simp only
          split
          · exact ⟨w₃, w₄, w₅, rfl⟩
          · exact ⟨w₃, w₄, w₅, rfl⟩
        | stop => rw [hx] at hq; exact absurd (List.mem_cons_self ..) hq
    obtain ⟨t₁, t₂, t₃, t₄⟩ := ht
    obtain ⟨v₁, v₂, v₃, v₄, v₅⟩ := hw (step env t .take) e t₁
    refine ih _ ?_ ?_ v₁ v₃ (v₄.trans t₂) (v₅.trans t₃)
    · rw [v₂, t₄, List.length_tail]
      simp only [List.length_cons] at hl
      omega
    · rw [v₂, t₄]
      exact fun hm => hq (List.mem_of_mem_tail hm)

/-- The process stays dead, and no more is written. -/
def StillDead (s t : Drv σ) : Prop := s.alive = false → t.alive = false ∧ outcomes t.trace = outcomes s.trace

theorem StillDead.refl (s : Drv σ) : StillDead s s := fun h => ⟨h, rfl⟩

theorem StillDead.trans {s t u : Drv σ} (h : StillDead s t) (h' : StillDead t u) : StillDead s u := fun ha =>
  ⟨(h' (h ha).1).1, (h' (h ha).1).2.trans (h ha).2⟩

theorem stillDead_call (c : Call) (s : Drv σ) : StillDead s (call c s) := by
  intro ha
  cases c <;> simp [call, ha, emit, outcomes]

theorem stillDead_foldl {α : Type} (f : Drv σ → α → Drv σ) (hf : ∀ s x, StillDead s (f s x)) (l : List α) (s : Drv σ) : StillDead s (l.foldl f s) := by
  induction l generalizing s with
  | nil => exact .refl s
  | cons x l ih => exact (hf s x).trans (ih _)

theorem stillDead_again (b : Bool) (s : Drv σ) : StillDead s (again b s) := by
  intro ha
  unfold again
  repeat' split
  all_goals first | exact ⟨ha, rfl⟩ | exact ⟨ha, by simp [emit, outcomes]⟩

theorem stillDead_answer (b : Bool) (acts : List Call) (r : Bool) (cmd : List Byte) (lines : List (List Byte)) (ex : Bool) (s : Drv σ) :
    StillDead s (answer b acts r cmd lines ex s) := by
  have h₁ := stillDead_foldl (fun s cb => emit (.mismatch cb) s) (fun s x ha => ⟨ha, by simp [emit, outcomes]⟩) (lookup cmd s.reqs).1 s
  simp only [answer]
  generalize (lookup cmd s.reqs).1.foldl (fun s cb => emit (.mismatch cb) s) s = s' at *
  cases (lookup cmd s.reqs).2 with
  | none =>
    have h₂ : StillDead s' (emit (.orphan cmd lines ex) { s' with reqs := [] }) := fun ha => ⟨ha, by simp [emit, outcomes]⟩
    exact h₁.trans (h₂.trans (stillDead_again b _))
  | some p =>
    have h₀ : StillDead s' (emit (.called p.1 cmd lines ex) { s' with reqs := p.2 }) := fun ha => ⟨ha, by simp [emit, outcomes]⟩
    have h₂ := h₁.trans (h₀.trans (stillDead_foldl (fun s c => call c s) (fun s c => stillDead_call c s) acts _))
    simp only
    split
    · exact h₂.trans (fun ha => ⟨ha, by simp [emit, outcomes]⟩)
    · exact h₂.trans (stillDead_again b _)

theorem stillDead_round (b : Bool) (acts : List Call) (r : Bool) (s : Drv σ) : StillDead s (round b acts r s) := by
  unfold round
  cases hr : s.rx with
  | nil => exact .refl s
  | cons m rest =>
    match m with
    | .item (.frame f ts) => exact fun ha => ⟨ha, by simp [emit, outcomes]⟩
    | .item (.failure e) => exact fun ha => ⟨ha, by simp [emit, outcomes]⟩
    | .item (.response cmd lines ex) => exact StillDead.trans (fun ha => ⟨ha, rfl⟩) (stillDead_answer b acts r cmd lines ex { s with rx := rest })
    | .initOk => exact fun ha => ⟨ha, by simp [emit, outcomes]⟩

theorem stillDead_construct (s : Drv σ) : StillDead s (construct s) := by
  unfold construct
  cases hr : s.rx with
  | nil => exact .refl s
  | cons m rest =>
    match m with
    | .item (.frame f ts) => exact fun ha => ⟨ha, by simp [emit, outcomes]⟩
    | .item (.failure e) => exact fun ha => ⟨ha, by simp [emit, outcomes]⟩
    | .item (.response cmd lines ex) => exact fun ha => ⟨ha, by simp [emit, outcomes]⟩
    | .initOk => exact fun ha => ⟨ha, by simp [emit, outcomes]⟩

/-- A dead I/O process takes and writes nothing. -/
theorem C101_dead (env : REnv σ) (s : Drv σ) (ha : s.alive = false) (hist : List Step) :
    (steps env s hist).alive = false ∧ outcomes (steps env s hist).trace = outcomes s.trace := by
  refine stillDead_foldl (step env) (fun s x => ?_) hist s ha
  cases x with
  | call c =>
    simp only [step]
    split
    · exact stillDead_call c s
    · exact .refl s
  | round b acts r =>
    simp only [step]
    split
    · exact .refl s
    · exact stillDead_round b acts r s
  | construct =>
    simp only [step]
    split
    · exact stillDead_construct s
    · exact .refl s
  | _ =>
    intro ha
    simp only [step, ha]
    repeat' split
    all_goals first | exact ⟨ha, rfl⟩ | (refine ⟨?_, ?_⟩ <;> simp_all [emit, outcomes]) | simp_all

/-- The white space of ASCII, as `str.lstrip` sees it: tab, line feed, vertical tab, form feed, carriage return, the four separators, space. -/
def whitespace : List Byte := [9, 10, 11, 12, 13, 28, 29, 30, 31, 32]

/-- A command that is accepted is the one given without the white space in front of it; its deadline is the timeout from now, or a second. -/
theorem C101_command (command : List Byte) (cb : Nat) (timeout : Option Int) (now : Int) (s : Drv σ) (ha : s.alive = true)
    (hq : s.tx.length < 1000) :
    ∃ c space, (call (.execute command cb timeout now) s).trace = s.trace ++ [.asked c cb] ∧
      (call (.execute command cb timeout now) s).tx = s.tx ++ [.command c] ∧
      command = space ++ c.text ∧ (∀ b ∈ space, b ∈ whitespace) ∧ (∀ b ∈ c.text.head?, b ∉ whitespace) ∧
      (∀ t, timeout = some t → t ≠ 0 → c.deadline = now + t) ∧ (timeout = none ∨ timeout = some 0 → c.deadline = now + 1000000) := by
  have hsp : ∀ b : Byte, isSpace b = true ↔ b ∈ whitespace := by decide +kernel
  have hq' : ¬ queueSize ≤ s.tx.length := by have : queueSize = 1000 := rfl; omega
  refine ⟨request command timeout now, command.takeWhile isSpace, ?_, ?_, ?_, ?_, ?_, ?_, ?_⟩
  · simp [call, ha, hq', emit]
  · simp [call, ha, hq', emit]
  · exact (List.takeWhile_append_dropWhile ..).symm
  · intro b hb
    refine (hsp b).1 ?_
    have : (command.takeWhile isSpace).all isSpace = true := List.all_takeWhile
    exact List.all_eq_true.1 this b hb
  · intro b hb hm
    have := List.head?_dropWhile_not isSpace command
    simp only [request] at hb
    rw [Option.mem_def.1 hb] at this
    simp only [(hsp b).2 hm] at this
    exact nomatch this
  · intro t ht h0
    simp [request, ht, h0]
  · intro ht
    rcases ht with ht | ht <;> simp [request, ht]

/-! ## Examples -/

def fresh : Drv Unit := { worker := { est := () } }

theorem fresh_fresh : Fresh fresh := ⟨rfl, rfl, rfl, rfl, rfl, ⟨rfl, rfl, rfl, rfl, rfl⟩, rfl, rfl, rfl, rfl, rfl, rfl⟩

/-- A standard frame is accepted and never written. -/
theorem C101_counterexample : ¬ C101_statement := by
  intro h
  have := h Unit exampleEnv fresh [.announce, .construct, .call (.send ⟨5, [1], false, false⟩), .take, .write none] fresh_fresh
    (by decide +kernel) (by decide +kernel) (by
      have : ∀ e ∈ (steps exampleEnv fresh [.announce, .construct, .call (.send ⟨5, [1], false, false⟩), .take, .write none]).trace,
          (match e with
          | .portError _ => false
          | _ => true) = true := by decide +kernel
      intro e he
      exact absurd (this _ he) (by simp))
    (by decide +kernel) (by
      intro f hf
      have e : sentFrames (steps exampleEnv fresh
          [.announce, .construct, .call (.send ⟨5, [1], false, false⟩), .take, .write none]).trace = [⟨5, [1], false, false⟩] := by
        decide +kernel
      rw [e, List.mem_singleton] at hf
      subst hf
      exact ⟨by decide, by decide, by decide⟩)
  exact absurd this (by decide +kernel)

/-- A frame is sent; a command is executed while the answer to another one is being read; a frame arrives early and is lost, another is
received. -/
def exampleHistory : List Step :=
  [.read ("T0000000112A\r".toList.map ch) ⟨0, 0⟩ 0, .announce, .construct, .construct,
    .call (.send ⟨0x123, [0xAB], true, false⟩), .call (.execute ("  a".toList.map ch) 7 none 0), .call (.execute ("b".toList.map ch) 8 none 0),
    .take, .write none, .take, .write none, .take, .write none,
    .read ("a\r\nT000000021FF\rok\r\n\x03\r\nb\r".toList.map ch) ⟨1, 1⟩ 10,
    .read ("\nno".toList.map ch) ⟨2, 2⟩ 2000000, .receive .timed, .round false [] false, .receive .block,
    .round false [.send ⟨0x124, [], true, false⟩] false, .round false [] true]

example : (outcomes (steps exampleEnv fresh exampleHistory).trace = [.written ("T000001231ab\r".toList.map ch), .written ("a\r\n".toList.map ch),
      .written ("b\r\n".toList.map ch)]) ∧
    onLine (steps exampleEnv fresh exampleHistory).trace = [⟨0x123, [0xAB], true, false⟩] ∧
    swallowed (steps exampleEnv fresh exampleHistory).trace = [.item (.frame ⟨1, [0x2A], true, false⟩ ⟨0, 0⟩), .initOk] ∧
    handed (steps exampleEnv fresh exampleHistory).trace = [.frame ⟨2, [0xFF], true, false⟩ ⟨1, 1⟩,
      .response ("a".toList.map ch) ["ok".toList.map ch] false, .response ("b".toList.map ch) [] true] ∧
    called (steps exampleEnv fresh exampleHistory).trace = [("a".toList.map ch, 7), ("b".toList.map ch, 8)] ∧
    (steps exampleEnv fresh exampleHistory).tx = [.frame ⟨0x124, [], true, false⟩] ∧
    .constructed ∈ (steps exampleEnv fresh exampleHistory).trace := by
  decide +kernel

example : (steps exampleEnv fresh ([.announce, .construct, .call (.send ⟨0x123, [0xAB], true, false⟩), .call (.send ⟨5, [1], false, false⟩),
    .write none] ++ [none, none].flatMap fun e => [.take, .write e])).tx = [] := by decide +kernel

end SlcanDriver
end Dronecan
