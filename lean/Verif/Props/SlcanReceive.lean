import Verif.Props.SlcanTx

/-!
# The SLCAN driver: every call of `receive` returns once (C100); limits of the queue (C101)
-/

namespace Dronecan
namespace SlcanDriver
open Can Slcan

variable {σ : Type} (env : REnv σ)

/-! ## Specification -/

/-- `receive` has returned or raised. -/
def returns : Ev → Bool
  | .frame _ _ | .raised _ | .nothing | .callbackRaised => true
  | _ => false

/-- How many calls of `receive` have ended. -/
def finished (t : List Ev) : Nat := t.countP returns

/-- Is a call of `receive` in progress? -/
def pendingReceive (s : Drv σ) : Nat := s.receiving.isSome.toNat

/-- The step is the beginning of a call of `receive`. -/
def begins (s : Drv σ) : Step → Nat
  | .receive _ => (s.phase == .ready && s.receiving.isNone && s.alive).toNat
  | _ => 0

/-- The calls of `receive` begun in a history. -/
def begun (s : Drv σ) : List Step → Nat
  | [] => 0
  | x :: hist => begins s x + begun (step env s x) hist

/-! ## Proofs -/

def balance (s : Drv σ) : Nat := finished s.trace + pendingReceive s

theorem finished_emit (e : Ev) (s : Drv σ) : finished (emit e s).trace = finished s.trace + (returns e).toNat := by
  simp only [finished, emit, List.countP_append, List.countP_singleton]
  cases returns e <;> rfl

theorem balance_emit (e : Ev) (s : Drv σ) (h : returns e = false) : balance (emit e s) = balance s := by
  have := finished_emit e s
  rw [h] at this
  simp only [balance, this]
  rfl

theorem balance_return (e : Ev) (s s' : Drv σ) (h : returns e = true) (hr : s.receiving ≠ none) (ht : s'.trace = s.trace)
    (hn : s'.receiving = none) : balance (emit e s') = balance s := by
  have := finished_emit e s'
  rw [h, ht] at this
  have hp : pendingReceive s = 1 := by
    unfold pendingReceive
    cases h' : s.receiving with
    | none => exact absurd h' hr
    | some m => rfl
  have hp' : pendingReceive (emit e s') = 0 := by
    show s'.receiving.isSome.toNat = 0
    rw [hn]
    rfl
  simp only [balance, this, hp, hp']
  rfl

theorem balance_set {s s' : Drv σ} (ht : s'.trace = s.trace) (hr : s'.receiving = s.receiving) : balance s' = balance s := by
  simp only [balance, pendingReceive, ht, hr]

theorem balance_call (c : Call) (s : Drv σ) : balance (call c s) = balance s := by
  unfold call
  repeat' split
  all_goals first
    | rfl
    | exact balance_emit _ s rfl
    | exact balance_set rfl rfl
    | exact (balance_emit _ _ rfl).trans (balance_set rfl rfl)
    | exact ((balance_emit _ _ rfl).trans (balance_emit _ _ rfl)).trans (balance_set rfl rfl)

theorem balance_calls (acts : List Call) : ∀ s : Drv σ, balance (acts.foldl (fun s c => call c s) s) = balance s ∧
    (acts.foldl (fun s c => call c s) s).receiving = s.receiving := by
  induction acts with
  | nil => exact fun s => ⟨rfl, rfl⟩
  | cons c cs ih => exact fun s => ⟨(ih _).1.trans (balance_call c s), (ih _).2.trans (call_phase c s).2.1⟩

theorem balance_mismatches (l : List Nat) : ∀ s : Drv σ, balance (l.foldl (fun s cb => emit (.mismatch cb) s) s) = balance s ∧
    (l.foldl (fun s cb => emit (.mismatch cb) s) s).receiving = s.receiving := by
  induction l with
  | nil => exact fun s => ⟨rfl, rfl⟩
  | cons c cs ih => exact fun s => ⟨(ih _).1.trans (balance_emit _ s rfl), (ih _).2⟩

theorem balance_again (timeUp : Bool) (s : Drv σ) : balance (again timeUp s) = balance s := by
  unfold again
  split
  · rename_i h
    exact balance_return _ s _ rfl (by rw [h]; exact fun h => nomatch h) rfl rfl
  · rename_i h
    split
    · exact balance_return _ s _ rfl (by rw [h]; exact fun h => nomatch h) rfl rfl
    · rfl
  · rfl

theorem balance_answer (timeUp : Bool) (acts : List Call) (raises : Bool) (cmd : List Byte) (lines : List (List Byte)) (expired : Bool)
    (s : Drv σ) (hr : s.receiving ≠ none) : balance (answer timeUp acts raises cmd lines expired s) = balance s := by
  unfold answer
  simp only
  obtain ⟨h1, h2⟩ := balance_mismatches (lookup cmd s.reqs).1 s
  split
  · rw [balance_again, balance_emit _ _ rfl]
    exact (balance_set rfl rfl).trans h1
  · rename_i cb rest _
    obtain ⟨h3, h4⟩ := balance_calls acts (emit (.called cb cmd lines expired)
        { (lookup cmd s.reqs).1.foldl (fun s cb => emit (.mismatch cb) s) s with reqs := rest })
    have h5 : balance (emit (.called cb cmd lines expired)
        { (lookup cmd s.reqs).1.foldl (fun s cb => emit (.mismatch cb) s) s with reqs := rest }) = balance s :=
      ((balance_emit _ _ rfl).trans (balance_set rfl rfl)).trans h1
    split
    · rw [← h5, ← h3]
      refine balance_return _ _ _ rfl ?_ rfl rfl
      rw [h4]
      show ((lookup cmd s.reqs).1.foldl (fun s cb => emit (.mismatch cb) s) s).receiving ≠ none
      rw [h2]
      exact hr
    · rw [balance_again, h3, h5]

theorem balance_round (timeUp : Bool) (acts : List Call) (raises : Bool) (s : Drv σ) (hr : s.receiving ≠ none) :
    balance (round timeUp acts raises s) = balance s := by
  unfold round
  split
  · rfl
  · rename_i m rest _
    simp only
    split
    · rename_i _ f ts _
      have h : balance (emit (.hooks true f) { s with rx := rest }) = balance s := (balance_emit _ _ rfl).trans (balance_set rfl rfl)
      rw [← h]
      exact balance_return _ (emit (.hooks true f) { s with rx := rest }) _ rfl hr rfl rfl
    · exact balance_return _ s _ rfl hr rfl rfl
    · rw [balance_answer _ _ _ _ _ _ _ (by exact hr)]
      exact balance_set rfl rfl
    · exact balance_return _ s _ rfl hr rfl rfl

theorem balance_puts (items : List Item) : ∀ s : Drv σ, balance (items.foldl (fun s i => put false (.item i) s) s) = balance s := by
  induction items with
  | nil => exact fun s => rfl
  | cons i is ih => exact fun s => (ih _).trans ((balance_emit _ _ rfl).trans (balance_set rfl rfl))

theorem balance_take (s : Drv σ) : balance (take s) = balance s := by
  unfold take
  split
  · rfl
  · rename_i i rest _
    have h : balance (emit (.taken i) { s with tx := rest }) = balance s := (balance_emit _ _ rfl).trans (balance_set rfl rfl)
    simp only
    rw [← h]
    split
    · split
      · exact balance_set rfl rfl
      · exact ((balance_emit _ _ rfl).trans (balance_set rfl rfl)).trans (balance_emit _ _ rfl)
    · split
      · exact balance_set rfl rfl
      · exact ((balance_emit _ _ rfl).trans (balance_set rfl rfl)).trans ((balance_emit _ _ rfl).trans (balance_set rfl rfl))
    · exact balance_set rfl rfl

theorem balance_step (s : Drv σ) (x : Step) : balance (step env s x) = balance s + begins s x := by
  have e : ∀ (e : Ev) {s' : Drv σ}, returns e = false → s'.trace = s.trace → s'.receiving = s.receiving → balance (emit e s') = balance s :=
    fun e _ h1 h2 h3 => (balance_emit e _ h1).trans (balance_set h2 h3)
  cases x with
  | call c =>
    simp only [step]
    split
    · exact balance_call c s
    · rfl
  | receive m =>
    simp only [step, begins]
    split
    · rename_i h
      split
      · rename_i ha
        rw [h.1, h.2, ha]
        simp only [balance, pendingReceive, h.2]
        rfl
      · rename_i ha
        rw [e _ rfl rfl rfl, Bool.eq_false_iff.2 ha, Bool.and_false]
        rfl
    · rename_i h
      have : (s.phase == .ready && s.receiving.isNone && s.alive) = false := by
        apply Bool.eq_false_iff.2
        intro ha
        simp only [Bool.and_eq_true, beq_iff_eq, Option.isNone_iff_eq_none] at ha
        exact h ha.1
      rw [this]
      rfl
  | round timeUp acts raises =>
    simp only [step]
    split
    · rfl
    · rename_i h
      exact balance_round _ _ _ _ h
  | empty =>
    simp only [step]
    split
    · rfl
    · rename_i h
      exact balance_return _ s _ rfl (fun hn => h (.inl hn)) rfl rfl
  | construct =>
    simp only [step]
    split
    · unfold construct
      split
      · rfl
      · rename_i m rest _
        have h : balance (emit (.swallowed m) { s with rx := rest }) = balance s := e _ rfl rfl rfl
        simp only
        split
        · exact ((balance_emit _ _ rfl).trans (balance_set rfl rfl)).trans h
        · exact ((balance_emit _ _ rfl).trans (balance_set rfl rfl)).trans h
        · exact h
    · rfl
  | constructTimeout =>
    simp only [step]
    split
    · exact e _ rfl rfl rfl
    · rfl
  | announce =>
    simp only [step]
    split
    · exact e _ rfl rfl rfl
    · rfl
  | take =>
    simp only [step]
    split
    · exact balance_take s
    · rfl
  | write error =>
    simp only [step]
    split
    · unfold write
      split
      · rfl
      · split
        · exact e _ rfl rfl rfl
        · exact ((balance_emit _ _ rfl).trans (balance_set rfl rfl)).trans (e _ rfl rfl rfl)
    · rfl
  | read new ts now =>
    simp only [step]
    split
    · simp only [read]
      rw [balance_puts]
      exact e _ rfl rfl rfl
    · rfl
  | giveUp =>
    simp only [step]
    split
    · exact balance_set rfl rfl
    · rfl
  | exit =>
    simp only [step]
    split
    · exact (balance_emit _ _ rfl).trans (e _ rfl rfl rfl)
    · rfl
  | die =>
    simp only [step]
    split
    · exact e _ rfl rfl rfl
    · rfl

/-- C100, the calls of `receive`: each call of `receive` ends once, by returning a frame, by raising, or by returning nothing. -/
theorem C100_receive (s : Drv σ) (hist : List Step) : ∀ (_ : Fresh s),
    finished (steps env s hist).trace + pendingReceive (steps env s hist) = begun env s hist := by
  have key : ∀ (hist : List Step) (s : Drv σ), balance (steps env s hist) = balance s + begun env s hist := by
    intro hist
    induction hist with
    | nil => exact fun s => rfl
    | cons x hist ih =>
      intro s
      show balance (steps env (step env s x) hist) = balance s + (begins s x + begun env (step env s x) hist)
      rw [ih, balance_step]
      omega
  intro h
  have := key hist s
  simp only [balance, h.trace, pendingReceive, h.receiving] at this
  simpa [finished, pendingReceive] using this

/-- C100, the deadline of a command: the timeout given, or one second. -/
theorem C100_deadline (s : Drv σ) (command : List Byte) (cb : Nat) (timeout : Option Int) (now : Int) (hp : s.phase = .ready) (hr : s.receiving = none)
    (ha : s.alive = true) (hl : s.tx.length < 1000) :
    ∃ c : Cmd, (step env s (.call (.execute command cb timeout now))).trace = s.trace ++ [.asked c cb] ∧
      (step env s (.call (.execute command cb timeout now))).tx = s.tx ++ [.command c] ∧
      (timeout = none ∨ timeout = some 0 → c.deadline = now + 1000000) ∧ (∀ t, timeout = some t → t ≠ 0 → c.deadline = now + t) ∧
      ∃ blanks, command = blanks ++ c.text ∧ (∀ b ∈ blanks, b ∈ [9, 10, 11, 12, 13, 28, 29, 30, 31, 32]) ∧
        ∀ b, c.text.head? = some b → b ∉ [9, 10, 11, 12, 13, 28, 29, 30, 31, (32 : Byte)] := by
  have hq : ¬ queueSize ≤ s.tx.length := by show ¬ 1000 ≤ s.tx.length; omega
  refine ⟨request command timeout now, ?_, ?_, ?_, ?_, command.takeWhile isSpace, ?_, ?_, ?_⟩
  · simp only [step, hp, hr, and_self, if_true, call, ha, Bool.not_true, Bool.false_eq_true, if_false, if_neg hq]
    rfl
  · simp only [step, hp, hr, and_self, if_true, call, ha, Bool.not_true, Bool.false_eq_true, if_false, if_neg hq]
    rfl
  · rintro (rfl | rfl) <;> simp [request]
  · rintro t rfl ht
    simp [request, ht]
  · exact List.takeWhile_append_dropWhile.symm
  · have key : ∀ b : Byte, isSpace b = true → b ∈ [9, 10, 11, 12, 13, 28, 29, 30, 31, 32] := by decide +kernel
    intro b hb
    have : ∀ (l : List Byte), b ∈ l.takeWhile isSpace → isSpace b = true := by
      intro l
      induction l with
      | nil => intro h; cases h
      | cons x l ih =>
        intro h
        rw [List.takeWhile_cons] at h
        split at h
        · rename_i hx
          rcases List.mem_cons.1 h with rfl | h
          · exact hx
          · exact ih h
        · cases h
    exact key b (this _ hb)
  · have key : ∀ b : Byte, isSpace b = false → b ∉ [9, 10, 11, 12, 13, 28, 29, 30, 31, (32 : Byte)] := by decide +kernel
    intro b hb
    have : ∀ (l : List Byte), (l.dropWhile isSpace).head? = some b → isSpace b = false := by
      intro l
      induction l with
      | nil => intro h; cases h
      | cons x l ih =>
        intro h
        rw [List.dropWhile_cons] at h
        split at h
        · exact ih h
        · rename_i hx
          cases h
          exact Bool.eq_false_iff.2 hx
    exact key b (this _ hb)

/-- C101, when a frame is accepted: the process is alive, and less than 1000 items are waiting. Otherwise, `send` raises, and nothing else
happens. -/
theorem C101_accepts (s : Drv σ) (f : CANFrame) (hp : s.phase = .ready) (hr : s.receiving = none) :
    (step env s (.call (.send f))).trace = s.trace ++ (if s.alive ∧ s.tx.length < 1000 then [.sent f, .hooks false f]
      else [.refused (.send f) s.alive]) ∧
    (step env s (.call (.send f))).tx = s.tx ++ (if s.alive ∧ s.tx.length < 1000 then [.frame f] else []) := by
  have hq : queueSize = 1000 := rfl
  simp only [step, hp, hr, and_self, if_true, call, hq]
  cases ha : s.alive with
  | false => simp [emit]
  | true =>
    by_cases hl : s.tx.length < 1000
    · have : ¬ 1000 ≤ s.tx.length := by omega
      simp [emit, hl, this]
    · have : 1000 ≤ s.tx.length := by omega
      simp [emit, hl, this]

/-- Three calls of `receive`: the first two return a frame and raise the exception of a callback, the third is in progress. -/
example : begun exampleEnv fresh (exampleHistory ++ [.receive .block]) = 3 ∧
    finished (steps exampleEnv fresh (exampleHistory ++ [.receive .block])).trace = 2 := by decide +kernel

/-- A history that ends with the command to stop in the queue (`C100_stops`), and one with the response to a command in the other queue
(`C100_response`). -/
example : let s := steps exampleEnv fresh [.announce, .construct, .call .close, .call (.send ⟨0x123, [0xAB], true, false⟩)]
    s.alive = true ∧ s.announced = true ∧ s.stopping = false ∧ s.writing = none ∧ s.tx = [.stop, .frame ⟨0x123, [0xAB], true, false⟩] := by decide +kernel

example : let s := steps exampleEnv fresh (exampleHistory.take (exampleHistory.length - 1))
    s.receiving = some .block ∧ s.rx.length = 1 ∧ ∃ m ∈ s.rx.head?, ∃ i ∈ content [m], i = .response ("b".toList.map ch) [] true := by decide +kernel

end SlcanDriver
end Dronecan
