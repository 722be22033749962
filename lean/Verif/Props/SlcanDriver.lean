import Verif.Model.SlcanDriver
import Verif.Props.SlcanCommands

/-!
# The SLCAN driver hands over everything its I/O process reports (C100), and writes what it has accepted (C101)
-/

namespace Dronecan
namespace SlcanDriver
open Can Slcan

variable {σ : Type} (env : REnv σ)

/-! ## Specification -/

/-- What the I/O process has put into the reception queue, in order. -/
def reported (t : List Ev) : List Msg := t.filterMap fun
  | .put _ m => some m
  | _ => none

/-- What the constructor has taken from the reception queue. -/
def swallowed (t : List Ev) : List Msg := t.filterMap fun
  | .swallowed m => some m
  | _ => none

/-- What `receive` has handed to the application: frames returned, exceptions raised, responses passed to callbacks. -/
def handed (t : List Ev) : List Item := t.filterMap fun
  | .frame f ts => some (.frame f ts)
  | .raised e => some (.failure e)
  | .called _ cmd lines expired => some (.response cmd lines expired)
  | _ => none

/-- The commands accepted by `execute_cli_command`, each with its callback. -/
def asked (t : List Ev) : List (List Byte × Nat) := t.filterMap fun
  | .asked c cb => some (c.text, cb)
  | _ => none

/-- The callbacks called, each with the command of the response that it was given. -/
def called (t : List Ev) : List (List Byte × Nat) := t.filterMap fun
  | .called cb cmd _ _ => some (cmd, cb)
  | _ => none

/-- The bytes read from the port. -/
def received (t : List Ev) : List Byte := (t.filterMap fun
  | .read b => some b
  | _ => none).flatten

/-- A driver whose constructor has just been called: nothing has happened. -/
structure Fresh (s : Drv σ) : Prop where
  alive : s.alive = true
  announced : s.announced = false
  stopping : s.stopping = false
  tx : s.tx = []
  writing : s.writing = none
  worker : Started s.worker
  data : s.worker.data = []
  rx : s.rx = []
  phase : s.phase = .starting
  receiving : s.receiving = none
  reqs : s.reqs = []
  trace : s.trace = []

/-! ## Proofs -/

theorem processLines_grows (ts : Stamp) (lines : List (List Byte)) : ∀ s : Rx σ, s.out <+: (processLines env ts s lines).out := by
  induction lines with
  | nil => exact fun s => List.prefix_rfl
  | cons l ls ih =>
    intro s
    have h : s.out <+: (processLine env ts s l).out := by
      unfold processLine
      split
      · exact List.prefix_rfl
      · exact List.prefix_rfl
      · split
        · exact List.prefix_append _ _
        · split
          · exact List.prefix_rfl
          · exact List.prefix_append _ _
    exact h.trans (ih _)

theorem processLines_grows' (ts : Stamp) (lines : List (List Byte)) (s : Rx σ) {o : List Item} (h : o <+: s.out) :
    o <+: (processLines env ts s lines).out := h.trans (processLines_grows env ts lines s)

theorem fetch_grows (now : Int) (expire : List Item → Cmd → List Item) (he : ∀ o c, o <+: expire o c) (l : List Cmd) : ∀ s : Rx σ,
    s.out <+: (checkCommands.fetch now expire s l).out := by
  induction l with
  | nil => exact fun s => List.prefix_rfl
  | cons c cs ih =>
    intro s
    simp only [checkCommands.fetch]
    split
    · exact (he _ _).trans (ih { s with resp := [], out := expire s.out c })
    · exact List.prefix_rfl

theorem fetch_grows' (now : Int) (expire : List Item → Cmd → List Item) (he : ∀ o c, o <+: expire o c) (l : List Cmd) (s : Rx σ)
    {o : List Item} (h : o <+: s.out) : o <+: (checkCommands.fetch now expire s l).out := h.trans (fetch_grows now expire he l s)

theorem checkCommands_grows (now : Int) (s : Rx σ) : s.out <+: (checkCommands now s).out := by
  unfold checkCommands
  simp only
  split
  · split
    · exact fetch_grows' now _ (fun _ _ => List.prefix_append _ _) _ _ (List.prefix_append _ _)
    · exact List.prefix_rfl
  · exact fetch_grows now _ (fun _ _ => List.prefix_append _ _) _ _

theorem processCli_grows (s : Rx σ) (line : List Byte) : s.out <+: (processCli env s line).2.out := by
  unfold processCli
  simp only
  repeat' split
  all_goals first | exact List.prefix_rfl | exact List.prefix_append _ _

theorem processCliLines_grows (ts : Stamp) (lines : List (List Byte)) : ∀ s : Rx σ,
    s.out <+: (processCliLines env ts s lines).2.out := by
  induction lines with
  | nil => exact fun s => List.prefix_rfl
  | cons l ls ih =>
    intro s
    simp only [processCliLines]
    have h := (processLines_grows env ts (unsnoc (splitOn CR l)).1 s).trans
      (processCli_grows env (processLines env ts s (unsnoc (splitOn CR l)).1) (unsnoc (splitOn CR l)).2)
    split
    · rename_i heq
      rw [heq] at h
      exact h.trans (ih _)
    · rename_i heq
      rw [heq] at h
      exact h

theorem iteration_grows (s : Rx σ) (new : List Byte) (ts : Stamp) (now : Int) : s.out <+: (iteration env s new ts now).out := by
  unfold iteration
  simp only
  have h := checkCommands_grows now { s with data := s.data ++ new }
  split
  · exact processLines_grows' env ts _ _ h
  · have h2 := h.trans (processCliLines_grows env ts (unsnoc (splitCrLf (checkCommands now { s with data := s.data ++ new }).data)).1
      { checkCommands now { s with data := s.data ++ new } with
        data := (unsnoc (splitCrLf (checkCommands now { s with data := s.data ++ new }).data)).2 })
    split
    · rename_i heq
      rw [heq] at h2
      exact h2.trans (List.prefix_append _ _)
    · rename_i heq
      rw [heq] at h2
      exact processLines_grows' env ts _ _ h2

/-- The commands of the responses in the reception queue. -/
def answers (l : List Msg) : List (List Byte) := l.filterMap fun
  | .item (.response cmd _ _) => some cmd
  | _ => none

/-- The commands in the transmission queue. -/
def commands (l : List TxItem) : List Cmd := l.filterMap fun
  | .command c => some c
  | _ => none

/-- The commands the TX worker has taken. -/
def executed (t : List Ev) : List Cmd := t.filterMap fun
  | .taken (.command c) => some c
  | _ => none

/-- The commands accepted. -/
def accepted (t : List Ev) : List Cmd := t.filterMap fun
  | .asked c _ => some c
  | _ => none

/-- What the RX worker has put into the reception queue. -/
def byWorker (t : List Ev) : List Item := t.filterMap fun
  | .put false (.item i) => some i
  | _ => none

/-- The frames and the responses in the reception queue. -/
def content (l : List Msg) : List Item := l.filterMap fun
  | .item (.frame f ts) => some (.frame f ts)
  | .item (.response cmd lines expired) => some (.response cmd lines expired)
  | _ => none

/-- The frames and the responses of a worker. -/
def results (l : List Item) : List Item := l.filterMap fun
  | .failure _ => none
  | i => some i

/-- 1 once the constructor has returned. -/
def isReady : Phase → Nat
  | .ready => 1
  | _ => 0

structure Inv (w₀ : Rx σ) (s : Drv σ) : Prop where
  queue : reported s.trace = swallowed s.trace ++ (handed s.trace).map .item ++ s.rx
  reports : byWorker s.trace = s.worker.out
  content : content (reported s.trace) = results s.worker.out
  worker : ∃ reads extra, s.worker = { run env w₀ reads with pending := (run env w₀ reads).pending ++ extra } ∧
    reads.flatMap (·.cmds) ++ extra = executed s.trace ∧ bytesOf reads = received s.trace
  sent : accepted s.trace = executed s.trace ++ commands s.tx
  same : (accepted s.trace).map (·.text) = (asked s.trace).map (·.1)
  calls : asked s.trace = called s.trace ++ s.reqs
  swallow : answers (swallowed s.trace) = []
  early : s.phase ≠ .ready → asked s.trace = [] ∧ handed s.trace = [] ∧ s.receiving = none
  once : s.rx.count .initOk + isReady s.phase ≤ s.announced.toNat

theorem answers_append (a b : List Msg) : answers (a ++ b) = answers a ++ answers b := List.filterMap_append

theorem answers_handed (t : List Ev) : answers ((handed t).map .item) = (called t).map (·.1) := by
  induction t with
  | nil => rfl
  | cons e t ih => cases e <;> simp_all [answers, handed, called]

theorem content_append (a b : List Msg) : content (a ++ b) = content a ++ content b := List.filterMap_append

theorem answers_content (l : List Msg) : answers l = (responses (content l)).map (·.1) := by
  induction l with
  | nil => rfl
  | cons m l ih => rcases m with _ | (_ | _ | _) <;> simp_all [answers, responses, content]

theorem responses_results (l : List Item) : responses (results l) = responses l := by
  induction l with
  | nil => rfl
  | cons i l ih => cases i <;> simp_all [responses, results]

theorem framesOf_results (l : List Item) : framesOf (results l) = framesOf l := by
  induction l with
  | nil => rfl
  | cons i l ih => cases i <;> simp_all [framesOf, results, itemFrame, List.filterMap_cons]

theorem content_items (l : List Item) : content (l.map .item) = results l := by
  induction l with
  | nil => rfl
  | cons i l ih => cases i <;> simp_all [content, results]

theorem Inv.texts {w₀ : Rx σ} {s : Drv σ} (h : Inv env w₀ s) :
    answers (reported s.trace) = (responses s.worker.out).map (·.1) := by
  rw [answers_content, h.content, responses_results]

/-- The stored requests are those of the responses on the way, of the commands being executed, and of those queued. -/
theorem Inv.outstanding {w₀ : Rx σ} (h0 : Started w₀) {s : Drv σ} (h : Inv env w₀ s) :
    s.reqs.map (·.1) = answers s.rx ++ (waiting s.worker).map (·.text) ++ (commands s.tx).map (·.text) := by
  obtain ⟨reads, extra, hw, hc, -⟩ := h.worker
  have h1 := C74_order env w₀ h0 reads
  have h2 := h.texts
  rw [h.queue, answers_append, answers_append, h.swallow, List.nil_append, answers_handed] at h2
  have h3 : (waiting s.worker).map (·.text) = (waiting (run env w₀ reads)).map (·.text) ++ extra.map (·.text) := by
    rw [hw]; simp [waiting]
  have h4 : s.worker.out = (run env w₀ reads).out := by rw [hw]
  have h5 := h.same
  rw [h.calls, h.sent, ← hc] at h5
  simp only [List.map_append] at h5
  rw [h3]
  rw [h4] at h2
  rw [← h1, ← h2] at h5
  simp only [List.append_assoc] at h5 ⊢
  exact (List.append_cancel_left h5).symm

/-- Nothing but what the invariant does not speak of has changed. -/
theorem Inv.congr {w₀ : Rx σ} {s s' : Drv σ} (h : Inv env w₀ s) (h1 : s'.trace = s.trace) (h2 : s'.rx = s.rx) (h3 : s'.worker = s.worker)
    (h4 : commands s'.tx = commands s.tx) (h5 : s'.reqs = s.reqs) (h6 : s'.phase = s.phase) (h7 : s'.announced = s.announced)
    (h8 : s.phase ≠ .ready → s'.receiving = none) : Inv env w₀ s' := by
  constructor
  · rw [h1, h2]; exact h.queue
  · rw [h1, h3]; exact h.reports
  · rw [h1, h3]; exact h.content
  · rw [h1, h3]; exact h.worker
  · rw [h1, h4]; exact h.sent
  · rw [h1]; exact h.same
  · rw [h1, h5]; exact h.calls
  · rw [h1]; exact h.swallow
  · rw [h1, h6]; exact fun hp => ⟨(h.early hp).1, (h.early hp).2.1, h8 hp⟩
  · rw [h2, h6, h7]; exact h.once

/-- The events that the invariant does not speak of. -/
def neutral : Ev → Bool
  | .put _ _ | .swallowed _ | .frame _ _ | .raised _ | .called _ _ _ _ | .asked _ _ | .taken _ | .read _ => false
  | _ => true

theorem Inv.neutral {w₀ : Rx σ} {s : Drv σ} (h : Inv env w₀ s) (e : Ev) (he : neutral e = true) : Inv env w₀ (emit e s) := by
  have h1 : reported (emit e s).trace = reported s.trace := by cases e <;> simp_all [reported, emit, SlcanDriver.neutral]
  have h2 : swallowed (emit e s).trace = swallowed s.trace := by cases e <;> simp_all [swallowed, emit, SlcanDriver.neutral]
  have h3 : handed (emit e s).trace = handed s.trace := by cases e <;> simp_all [handed, emit, SlcanDriver.neutral]
  have h4 : byWorker (emit e s).trace = byWorker s.trace := by cases e <;> simp_all [byWorker, emit, SlcanDriver.neutral]
  have h5 : executed (emit e s).trace = executed s.trace := by cases e <;> simp_all [executed, emit, SlcanDriver.neutral]
  have h6 : accepted (emit e s).trace = accepted s.trace := by cases e <;> simp_all [accepted, emit, SlcanDriver.neutral]
  have h7 : asked (emit e s).trace = asked s.trace := by cases e <;> simp_all [asked, emit, SlcanDriver.neutral]
  have h8 : called (emit e s).trace = called s.trace := by cases e <;> simp_all [called, emit, SlcanDriver.neutral]
  have h9 : received (emit e s).trace = received s.trace := by cases e <;> simp_all [received, emit, SlcanDriver.neutral]
  constructor
  · rw [h1, h2, h3]; exact h.queue
  · rw [h4]; exact h.reports
  · rw [h1]; exact h.content
  · rw [h5, h9]; exact h.worker
  · rw [h5, h6]; exact h.sent
  · rw [h6, h7]; exact h.same
  · rw [h7, h8]; exact h.calls
  · rw [h2]; exact h.swallow
  · rw [h7, h3]; exact h.early
  · exact h.once

theorem commands_append (a b : List TxItem) : commands (a ++ b) = commands a ++ commands b := List.filterMap_append

theorem call_phase (c : Call) (s : Drv σ) : (call c s).phase = s.phase ∧ (call c s).receiving = s.receiving ∧
    (call c s).announced = s.announced ∧ (call c s).rx = s.rx := by
  unfold call
  repeat' split
  all_goals exact ⟨rfl, rfl, rfl, rfl⟩

theorem Inv.call {w₀ : Rx σ} {s : Drv σ} (h : Inv env w₀ s) (c : Call) (hp : s.phase = .ready) : Inv env w₀ (call c s) := by
  unfold SlcanDriver.call
  split
  · split
    · exact h.neutral env _ rfl
    · split
      · exact h.neutral env _ rfl
      · refine Inv.neutral env ?_ _ rfl
        refine Inv.neutral env ?_ _ rfl
        refine h.congr env rfl rfl rfl ?_ rfl rfl rfl ?_
        · simp [commands]
        · exact fun hn => absurd hp hn
  · split
    · exact h.neutral env _ rfl
    · split
      · split
        · exact h
        · exact h.neutral env _ rfl
      · constructor
        · simpa [emit, reported, swallowed, handed] using h.queue
        · simpa [emit, byWorker] using h.reports
        · simpa [emit, reported] using h.content
        · simpa [emit, executed, received] using h.worker
        · have := h.sent
          simp only [emit, accepted, executed, commands, List.filterMap_append, List.filterMap_cons, List.filterMap_nil,
            List.append_nil] at this ⊢
          rw [this, List.append_assoc]
        · have := h.same
          simp only [emit, accepted, asked, List.filterMap_append, List.filterMap_cons, List.filterMap_nil, List.map_append] at this ⊢
          rw [this]
          rfl
        · have := h.calls
          simp only [emit, asked, called, List.filterMap_append, List.filterMap_cons, List.filterMap_nil, List.append_nil] at this ⊢
          rw [this, List.append_assoc]
        · simpa [emit, swallowed] using h.swallow
        · exact fun hn => absurd hp hn
        · exact h.once
  · split
    · exact h
    · split
      · exact h
      · refine h.congr env rfl rfl rfl ?_ rfl rfl rfl ?_
        · simp [commands]
        · exact fun hn => absurd hp hn

theorem Inv.calls' {w₀ : Rx σ} (acts : List Call) : ∀ {s : Drv σ}, Inv env w₀ s → s.phase = .ready →
    Inv env w₀ (acts.foldl (fun s c => SlcanDriver.call c s) s) ∧ (acts.foldl (fun s c => SlcanDriver.call c s) s).phase = .ready := by
  induction acts with
  | nil => exact fun h hp => ⟨h, hp⟩
  | cons c cs ih => exact fun h hp => ih (h.call env c hp) ((call_phase c _).1.trans hp)

theorem Inv.again {w₀ : Rx σ} {s : Drv σ} (h : Inv env w₀ s) (timeUp : Bool) : Inv env w₀ (again timeUp s) := by
  unfold SlcanDriver.again
  have h' : Inv env w₀ (emit .nothing { s with receiving := none }) := by
    refine Inv.neutral env ?_ _ rfl
    exact h.congr env rfl rfl rfl rfl rfl rfl rfl fun _ => rfl
  repeat' split
  all_goals first | exact h | exact h'

/-- A response is answered by the callback of the first stored request. -/
theorem Inv.answer {w₀ : Rx σ} (h0 : Started w₀) {s : Drv σ} (h : Inv env w₀ s) (timeUp : Bool) (acts : List Call) (raises : Bool)
    (cmd : List Byte) (lines : List (List Byte)) (expired : Bool) (rest : List Msg) (hp : s.phase = .ready)
    (hrx : s.rx = .item (.response cmd lines expired) :: rest) :
    Inv env w₀ (answer timeUp acts raises cmd lines expired { s with rx := rest }) := by
  have ho := h.outstanding env h0
  rw [hrx] at ho
  match hq : s.reqs, ho with
  | [], ho => simp [answers] at ho
  | (text, cb) :: reqs, ho =>
    have ht : text = cmd := by
      simp only [answers, List.filterMap_cons, List.map_cons, List.cons_append, List.cons.injEq] at ho
      exact ho.1
    subst ht
    have h1 : Inv env w₀ (emit (.called cb text lines expired) { s with
        rx := rest
        reqs := reqs }) := by
      constructor
      · have := h.queue
        rw [hrx] at this
        simp only [emit, reported, swallowed, handed, List.filterMap_append, List.filterMap_cons, List.filterMap_nil,
          List.append_nil, List.map_append, List.map_cons, List.map_nil, List.append_assoc] at this ⊢
        exact this
      · simpa [emit, byWorker] using h.reports
      · simpa [emit, reported] using h.content
      · simpa [emit, executed, received] using h.worker
      · simpa [emit, executed, accepted] using h.sent
      · simpa [emit, asked, accepted] using h.same
      · have := h.calls
        rw [hq] at this
        simp only [emit, asked, called, List.filterMap_append, List.filterMap_cons, List.filterMap_nil, List.append_nil,
          List.append_assoc] at this ⊢
        exact this
      · simpa [emit, swallowed] using h.swallow
      · exact fun hn => absurd hp hn
      · have := h.once
        rw [hrx] at this
        simpa [emit, List.count_cons] using this
    obtain ⟨h2, h3⟩ := h1.calls' env acts hp
    simp only [SlcanDriver.answer, hq, lookup, if_true, List.foldl_nil]
    cases raises with
    | true =>
      refine Inv.neutral env ?_ _ rfl
      exact h2.congr env rfl rfl rfl rfl rfl rfl rfl fun _ => rfl
    | false => exact h2.again env timeUp

theorem Inv.round {w₀ : Rx σ} (h0 : Started w₀) {s : Drv σ} (h : Inv env w₀ s) (timeUp : Bool) (acts : List Call) (raises : Bool)
    (hp : s.phase = .ready) : Inv env w₀ (round timeUp acts raises s) := by
  unfold SlcanDriver.round
  split
  · exact h
  · rename_i m rest hrx
    simp only
    split
    · rename_i f ts
      constructor
      · have := h.queue
        rw [hrx] at this
        simp only [emit, reported, swallowed, handed, List.filterMap_append, List.filterMap_cons, List.filterMap_nil,
          List.append_nil, List.map_append, List.map_cons, List.map_nil, List.append_assoc] at this ⊢
        exact this
      · simpa [emit, byWorker] using h.reports
      · simpa [emit, reported] using h.content
      · simpa [emit, executed, received] using h.worker
      · simpa [emit, executed, accepted] using h.sent
      · simpa [emit, asked, accepted] using h.same
      · simpa [emit, asked, called] using h.calls
      · simpa [emit, swallowed] using h.swallow
      · exact fun hn => absurd hp hn
      · have := h.once
        rw [hrx] at this
        simpa [emit, List.count_cons] using this
    · rename_i e
      constructor
      · have := h.queue
        rw [hrx] at this
        simp only [emit, reported, swallowed, handed, List.filterMap_append, List.filterMap_cons, List.filterMap_nil,
          List.append_nil, List.map_append, List.map_cons, List.map_nil, List.append_assoc] at this ⊢
        exact this
      · simpa [emit, byWorker] using h.reports
      · simpa [emit, reported] using h.content
      · simpa [emit, executed, received] using h.worker
      · simpa [emit, executed, accepted] using h.sent
      · simpa [emit, asked, accepted] using h.same
      · simpa [emit, asked, called] using h.calls
      · simpa [emit, swallowed] using h.swallow
      · exact fun hn => absurd hp hn
      · have := h.once
        rw [hrx] at this
        simpa [emit, List.count_cons] using this
    · exact h.answer env h0 timeUp acts raises _ _ _ rest hp hrx
    · exfalso
      have := h.once
      rw [hrx, hp] at this
      simp only [List.count_cons_self, isReady] at this
      have := Bool.toNat_le s.announced
      omega

/-- Before the constructor has returned there are no responses. -/
theorem Inv.early_rx {w₀ : Rx σ} (h0 : Started w₀) {s : Drv σ} (h : Inv env w₀ s) (hp : s.phase ≠ .ready) : answers s.rx = [] := by
  have he := (h.early hp).1
  have hq : s.reqs = [] := by
    have := h.calls
    rw [he] at this
    simp_all
  have ho := h.outstanding env h0
  rw [hq] at ho
  simp only [List.map_nil, List.append_assoc] at ho
  exact (List.append_eq_nil_iff.1 ho.symm).1

theorem Inv.construct {w₀ : Rx σ} (h0 : Started w₀) {s : Drv σ} (h : Inv env w₀ s) (hp : s.phase = .starting) :
    Inv env w₀ (construct s) := by
  obtain ⟨he, hh, hr⟩ := h.early (by rw [hp]; exact fun h => nomatch h)
  have ho' := h.early_rx env h0 (by rw [hp]; exact fun h => nomatch h)
  unfold SlcanDriver.construct
  split
  · exact h
  · rename_i m rest hrx
    have hm : answers [m] = [] := by
      rw [hrx] at ho'
      have : answers ([m] ++ rest) = [] := ho'
      rw [answers_append] at this
      exact (List.append_eq_nil_iff.1 this).1
    have h1 : ∀ p : Phase, isReady p + rest.count .initOk ≤ s.rx.count .initOk → Inv env w₀ (emit (.swallowed m) { s with
        rx := rest
        phase := p }) := by
      intro p hpm
      constructor
      · have := h.queue
        rw [hrx, hh] at this
        have hh' : handed (s.trace ++ [Ev.swallowed m]) = [] := by simpa [handed] using hh
        simp only [emit]
        rw [hh']
        simp only [reported, swallowed, List.filterMap_append, List.filterMap_cons, List.filterMap_nil,
          List.append_nil, List.map_nil, List.append_assoc] at this ⊢
        exact this
      · simpa [emit, byWorker] using h.reports
      · simpa [emit, reported] using h.content
      · simpa [emit, executed, received] using h.worker
      · simpa [emit, executed, accepted] using h.sent
      · simpa [emit, asked, accepted] using h.same
      · simpa [emit, asked, called] using h.calls
      · have := h.swallow
        simp only [emit, swallowed, List.filterMap_append, List.filterMap_cons, List.filterMap_nil] at this ⊢
        rw [answers_append, this, hm]
        rfl
      · intro _
        exact ⟨by simpa [emit, asked] using he, by simpa [emit, handed] using hh, hr⟩
      · have := h.once
        rw [hp] at this
        have hz : isReady .starting = 0 := rfl
        rw [hz] at this
        simp only [emit]
        omega
    simp only
    split
    · refine Inv.neutral env ?_ _ rfl
      refine (h1 .ready ?_).congr env rfl rfl rfl rfl rfl rfl rfl fun _ => hr
      simp [hrx, isReady, Nat.add_comm]
    · refine Inv.neutral env ?_ _ rfl
      refine (h1 .failed ?_).congr env rfl rfl rfl ?_ rfl rfl rfl fun _ => hr
      · simp [hrx, isReady]
      · simp [commands, emit]
    · refine (h1 .starting ?_).congr env rfl rfl rfl rfl rfl hp rfl fun _ => hr
      rw [hrx]
      exact Nat.le_trans (by simp [isReady]) (List.count_le_count_cons)

theorem Inv.put {w₀ : Rx σ} {s : Drv σ} (h : Inv env w₀ s) (m : Msg) (hm : SlcanDriver.content [m] = [])
    (ho : m = .initOk → s.announced = true ∧ s.rx.count .initOk + isReady s.phase = 0) :
    Inv env w₀ (put true m s) := by
  constructor
  · have := h.queue
    simp only [SlcanDriver.put, emit, reported, swallowed, handed, List.filterMap_append, List.filterMap_cons, List.filterMap_nil,
      List.append_nil, List.append_assoc] at this ⊢
    rw [this]
    simp only [List.append_assoc]
  · simpa [SlcanDriver.put, emit, byWorker] using h.reports
  · have := h.content
    simp only [SlcanDriver.put, emit, reported, List.filterMap_append, List.filterMap_cons, List.filterMap_nil] at this ⊢
    rw [content_append, this, hm, List.append_nil]
  · simpa [SlcanDriver.put, emit, executed, received] using h.worker
  · simpa [SlcanDriver.put, emit, executed, accepted] using h.sent
  · simpa [SlcanDriver.put, emit, asked, accepted] using h.same
  · simpa [SlcanDriver.put, emit, asked, called] using h.calls
  · simpa [SlcanDriver.put, emit, swallowed] using h.swallow
  · simpa [SlcanDriver.put, emit, asked, handed] using h.early
  · have h1 := h.once
    simp only [SlcanDriver.put, emit, List.count_append] at h1 ⊢
    by_cases hi : m = .initOk
    · obtain ⟨h2, h3⟩ := ho hi
      rw [h2, hi]
      simp only [List.count_cons_self, List.count_nil, Bool.toNat_true]
      omega
    · rw [List.count_cons_of_ne (Ne.symm (fun h => hi h.symm))]
      simp only [List.count_nil]
      omega

theorem Inv.take {w₀ : Rx σ} {s : Drv σ} (h : Inv env w₀ s) : Inv env w₀ (take s) := by
  unfold SlcanDriver.take
  split
  · exact h
  · rename_i i rest htx
    have key : ∀ w : Rx σ, (w = match i with
        | .command c => { s.worker with pending := s.worker.pending ++ [c] }
        | _ => s.worker) → Inv env w₀ { (emit (.taken i) { s with tx := rest }) with worker := w } := by
      intro w hw
      have hout : w.out = s.worker.out := by rw [hw]; split <;> rfl
      constructor
      · simpa [emit, reported, swallowed, handed] using h.queue
      · simpa [emit, byWorker, hout] using h.reports
      · simpa [emit, reported, hout] using h.content
      · obtain ⟨reads, extra, h1, h2, h3⟩ := h.worker
        cases i with
        | frame f =>
          refine ⟨reads, extra, ?_, ?_, ?_⟩
          · simp only [emit]; rw [hw]; exact h1
          · simpa [emit, executed] using h2
          · simpa [emit, received] using h3
        | command c =>
          refine ⟨reads, extra ++ [c], ?_, ?_, ?_⟩
          · simp only [emit]; rw [hw, h1]; simp only [List.append_assoc]
          · simp only [emit, executed, List.filterMap_append, List.filterMap_cons, List.filterMap_nil] at h2 ⊢
            rw [← h2, List.append_assoc]
          · simpa [emit, received] using h3
        | stop =>
          refine ⟨reads, extra, ?_, ?_, ?_⟩
          · simp only [emit]; rw [hw]; exact h1
          · simpa [emit, executed] using h2
          · simpa [emit, received] using h3
      · have := h.sent
        rw [htx] at this
        cases i <;> simpa [emit, executed, accepted, commands] using this
      · simpa [emit, asked, accepted] using h.same
      · simpa [emit, asked, called] using h.calls
      · simpa [emit, swallowed] using h.swallow
      · simpa [emit, asked, handed] using h.early
      · exact h.once
    have hrec : s.phase ≠ .ready → s.receiving = none := fun hp => (h.early hp).2.2
    simp only
    split
    · rename_i f
      have hk := key s.worker rfl
      split
      · exact hk.congr env rfl rfl rfl rfl rfl rfl rfl hrec
      · refine Inv.put env ?_ _ rfl (fun h => nomatch h)
        refine Inv.neutral env ?_ _ rfl
        exact hk.congr env rfl rfl rfl rfl rfl rfl rfl hrec
    · rename_i c
      have hk := key _ rfl
      split
      · exact hk.congr env rfl rfl rfl rfl rfl rfl rfl hrec
      · refine Inv.put env ?_ _ rfl (fun h => nomatch h)
        refine Inv.neutral env ?_ _ rfl
        exact hk.congr env rfl rfl rfl rfl rfl rfl rfl hrec
    · exact (key s.worker rfl).congr env rfl rfl rfl rfl rfl rfl rfl hrec

theorem Inv.write {w₀ : Rx σ} {s : Drv σ} (h : Inv env w₀ s) (error : Option Err) : Inv env w₀ (write error s) := by
  have hrec : s.phase ≠ .ready → s.receiving = none := fun hp => (h.early hp).2.2
  unfold SlcanDriver.write
  split
  · exact h
  · split
    · refine Inv.neutral env ?_ _ rfl
      exact h.congr env rfl rfl rfl rfl rfl rfl rfl hrec
    · refine Inv.put env ?_ _ rfl (fun h => nomatch h)
      refine Inv.neutral env ?_ _ rfl
      exact h.congr env rfl rfl rfl rfl rfl rfl rfl hrec

/-- Everything but the trace and the reception queue is the same after putting things there. -/
theorem puts_spec (items : List Item) : ∀ s : Drv σ,
    items.foldl (fun s i => SlcanDriver.put false (.item i) s) s = { s with
      trace := s.trace ++ items.map (fun i => .put false (.item i))
      rx := s.rx ++ items.map .item } := by
  induction items with
  | nil => intro s; simp
  | cons i is ih =>
    intro s
    rw [List.foldl_cons, ih]
    simp [SlcanDriver.put, emit]

theorem count_items (l : List Item) : (l.map Msg.item).count .initOk = 0 := by
  rw [List.count_eq_zero]
  simp

theorem Inv.read {w₀ : Rx σ} {s : Drv σ} (h : Inv env w₀ s) (new : List Byte) (ts : Stamp) (now : Int) :
    Inv env w₀ (read env new ts now s) := by
  obtain ⟨items, hi⟩ := iteration_grows env s.worker new ts now
  have hd : (iteration env s.worker new ts now).out.drop s.worker.out.length = items := by rw [← hi]; simp
  unfold SlcanDriver.read
  simp only [hd, puts_spec, emit]
  have p1 : reported (items.map fun i => Ev.put false (.item i)) = items.map .item := by
    simp [reported, List.filterMap_map, Function.comp_def]
  have p2 : byWorker (items.map fun i => Ev.put false (.item i)) = items := by
    simp [byWorker, List.filterMap_map, Function.comp_def]
  have e : ∀ {α : Type} (g : Ev → Option α), (∀ i, g (.put false (.item i)) = none) →
      (items.map fun i => Ev.put false (.item i)).filterMap g = [] := by
    intro α g hg
    simp [List.filterMap_map, Function.comp_def, hg]
  constructor
  · have := h.queue
    simp only [reported, swallowed, handed, List.filterMap_append, List.filterMap_cons, List.filterMap_nil,
      List.append_nil, List.append_assoc] at this p1 ⊢
    rw [p1, this, e _ (fun _ => rfl), e _ (fun _ => rfl)]
    simp only [List.append_assoc, List.append_nil, List.nil_append]
  · have := h.reports
    simp only [byWorker, List.filterMap_append, List.filterMap_cons, List.filterMap_nil, List.append_nil] at this p2 ⊢
    rw [p2, this, hi]
  · have := h.content
    simp only [reported, List.filterMap_append, List.filterMap_cons, List.filterMap_nil, List.append_nil] at this p1 ⊢
    rw [content_append, p1, this, content_items, ← hi]
    simp only [results, List.filterMap_append]
  · obtain ⟨reads, extra, h1, h2, h3⟩ := h.worker
    refine ⟨reads ++ [⟨new, ts, now, extra⟩], [], ?_, ?_, ?_⟩
    · simp only [run, List.foldl_append, List.foldl_cons, List.foldl_nil, List.append_nil]
      rw [h1]
      rfl
    · simp only [executed, List.filterMap_append, List.filterMap_cons, List.filterMap_nil, List.append_nil] at h2 ⊢
      rw [e _ (fun _ => rfl), List.append_nil, ← h2]
      simp
    · simp only [received, bytesOf, List.filterMap_append, List.filterMap_cons, List.filterMap_nil] at h3 ⊢
      rw [e _ (fun _ => rfl), List.append_nil, List.flatten_append, ← h3]
      simp
  · have := h.sent
    simp only [executed, accepted, List.filterMap_append, List.filterMap_cons, List.filterMap_nil, List.append_nil] at this ⊢
    rw [e _ (fun _ => rfl), e _ (fun _ => rfl), List.append_nil, List.append_nil, this]
  · have := h.same
    simp only [asked, accepted, List.filterMap_append, List.filterMap_cons, List.filterMap_nil, List.append_nil] at this ⊢
    rw [e _ (fun _ => rfl), e _ (fun _ => rfl), List.append_nil, List.append_nil, this]
  · have := h.calls
    simp only [asked, called, List.filterMap_append, List.filterMap_cons, List.filterMap_nil, List.append_nil] at this ⊢
    rw [e _ (fun _ => rfl), e _ (fun _ => rfl), List.append_nil, List.append_nil, this]
  · have := h.swallow
    simp only [swallowed, List.filterMap_append, List.filterMap_cons, List.filterMap_nil, List.append_nil] at this ⊢
    rw [e _ (fun _ => rfl), List.append_nil, this]
  · have := h.early
    simp only [asked, handed, List.filterMap_append, List.filterMap_cons, List.filterMap_nil, List.append_nil] at this ⊢
    rw [e _ (fun _ => rfl), e _ (fun _ => rfl), List.append_nil, List.append_nil]
    exact this
  · have := h.once
    rw [List.count_append, count_items]
    exact this

theorem Inv.step {w₀ : Rx σ} (h0 : Started w₀) {s : Drv σ} (h : Inv env w₀ s) (x : Step) : Inv env w₀ (step env s x) := by
  have hrec : s.phase ≠ .ready → s.receiving = none := fun hp => (h.early hp).2.2
  cases x with
  | call c =>
    simp only [SlcanDriver.step]
    split
    · rename_i hc; exact h.call env c hc.1
    · exact h
  | receive m =>
    simp only [SlcanDriver.step]
    split
    · rename_i hc
      split
      · exact h.congr env rfl rfl rfl rfl rfl rfl rfl fun hp => absurd hc.1 hp
      · exact h.neutral env _ rfl
    · exact h
  | round timeUp acts raises =>
    simp only [SlcanDriver.step]
    split
    · exact h
    · rename_i hc
      refine h.round env h0 timeUp acts raises ?_
      cases hp : s.phase with
      | ready => rfl
      | starting => exact absurd (hrec (by rw [hp]; exact fun h => nomatch h)) hc
      | failed => exact absurd (hrec (by rw [hp]; exact fun h => nomatch h)) hc
  | empty =>
    simp only [SlcanDriver.step]
    split
    · exact h
    · refine Inv.neutral env ?_ _ rfl
      exact h.congr env rfl rfl rfl rfl rfl rfl rfl fun _ => rfl
  | construct =>
    simp only [SlcanDriver.step]
    split
    · rename_i hc; exact h.construct env h0 hc
    · exact h
  | constructTimeout =>
    simp only [SlcanDriver.step]
    split
    · rename_i hc
      refine Inv.neutral env ?_ _ rfl
      have hne : s.phase ≠ .ready := by rw [hc]; exact fun h => nomatch h
      refine ⟨h.queue, h.reports, h.content, h.worker, ?_, h.same, h.calls, h.swallow, fun _ => h.early hne, ?_⟩
      · rw [h.sent]; simp [commands]
      · have := h.once
        rw [hc] at this
        exact this
    · exact h
  | announce =>
    simp only [SlcanDriver.step]
    split
    · rename_i hc
      have hz := h.once
      have ha : s.announced = false := by simpa using hc.2
      rw [ha] at hz
      have hz' : s.rx.count .initOk + isReady s.phase = 0 := Nat.le_zero.1 hz
      refine Inv.put env ?_ _ rfl fun _ => ⟨rfl, hz'⟩
      refine ⟨h.queue, h.reports, h.content, h.worker, h.sent, h.same, h.calls, h.swallow, h.early, ?_⟩
      simp only
      rw [hz']
      exact Nat.zero_le _
    · exact h
  | take =>
    simp only [SlcanDriver.step]
    split
    · exact h.take env
    · exact h
  | write error =>
    simp only [SlcanDriver.step]
    split
    · exact h.write env error
    · exact h
  | read new ts now =>
    simp only [SlcanDriver.step]
    split
    · exact h.read env new ts now
    · exact h
  | giveUp =>
    simp only [SlcanDriver.step]
    split
    · exact h.congr env rfl rfl rfl rfl rfl rfl rfl hrec
    · exact h
  | exit =>
    simp only [SlcanDriver.step]
    split
    · refine Inv.neutral env ?_ _ rfl
      refine Inv.neutral env ?_ _ rfl
      exact h.congr env rfl rfl rfl rfl rfl rfl rfl hrec
    · exact h
  | die =>
    simp only [SlcanDriver.step]
    split
    · refine Inv.neutral env ?_ _ rfl
      exact h.congr env rfl rfl rfl rfl rfl rfl rfl hrec
    · exact h

theorem Inv.fresh {s : Drv σ} (h : Fresh s) : Inv env s.worker s := by
  constructor
  · simp [h.trace, h.rx, reported, swallowed, handed]
  · simp [h.trace, byWorker, h.worker.2.2.2.1]
  · simp [h.trace, reported, SlcanDriver.content, h.worker.2.2.2.1, results]
  · exact ⟨[], [], by simp [run], by simp [h.trace, executed], by simp [bytesOf, h.trace, received]⟩
  · simp [h.trace, h.tx, accepted, executed, commands]
  · simp [h.trace, accepted, asked]
  · simp [h.trace, asked, called, h.reqs]
  · simp [h.trace, swallowed, answers]
  · exact fun _ => ⟨by simp [h.trace, asked], by simp [h.trace, handed], h.receiving⟩
  · simp [h.rx, h.phase, isReady]

theorem Inv.steps {s : Drv σ} (h0 : Fresh s) (hist : List Step) : Inv env s.worker (steps env s hist) := by
  have key : ∀ (hist : List Step) (s' : Drv σ), Inv env s.worker s' → Inv env s.worker (SlcanDriver.steps env s' hist) := by
    intro hist
    induction hist with
    | nil => exact fun s' h => h
    | cons x xs ih => exact fun s' h => ih _ (h.step env h0.worker x)
  exact key hist s (Inv.fresh env h0)

/-! ### The constructor -/

def isFrame : Msg → Prop
  | .item (.frame _ _) => True
  | _ => False

/-- Events of neither the constructor nor its reception. -/
def later : Ev → Prop
  | .swallowed _ | .constructed => False
  | _ => True

/-- The step has nothing to do with the constructor. -/
def Quiet (s s' : Drv σ) : Prop := s'.phase = s.phase ∧ ∃ l, s'.trace = s.trace ++ l ∧ ∀ e ∈ l, later e

theorem Quiet.refl (s : Drv σ) : Quiet s s := ⟨rfl, [], by simp⟩

theorem Quiet.trans {a b c : Drv σ} (h : Quiet a b) (h' : Quiet b c) : Quiet a c := by
  obtain ⟨h1, l1, h2, h3⟩ := h
  obtain ⟨h1', l2, h2', h3'⟩ := h'
  refine ⟨h1'.trans h1, l1 ++ l2, by rw [h2', h2, List.append_assoc], ?_⟩
  intro e he
  rcases List.mem_append.1 he with he | he
  · exact h3 e he
  · exact h3' e he

theorem quiet_set {s s' : Drv σ} (h1 : s'.phase = s.phase) (h2 : s'.trace = s.trace) : Quiet s s' := ⟨h1, [], by simp [h2]⟩

theorem quiet_one {s s' : Drv σ} {e : Ev} (h1 : s'.phase = s.phase) (h2 : s'.trace = s.trace ++ [e]) (he : later e) : Quiet s s' :=
  ⟨h1, [e], h2, by simpa using he⟩

theorem quiet_emit {s s' : Drv σ} (h : Quiet s s') (e : Ev) (he : later e) : Quiet s (emit e s') :=
  h.trans ⟨rfl, [e], rfl, by simpa using he⟩

theorem quiet_put {s s' : Drv σ} (h : Quiet s s') (b : Bool) (m : Msg) : Quiet s (put b m s') :=
  h.trans ⟨rfl, [.put b m], rfl, by simp [later]⟩

theorem quiet_call (c : Call) (s : Drv σ) : Quiet s (call c s) := by
  unfold call
  repeat' split
  all_goals first
    | exact .refl s
    | exact quiet_emit (.refl s) _ trivial
    | exact (quiet_set rfl rfl)
    | exact (quiet_one rfl rfl trivial)
    | (refine quiet_emit (quiet_emit (quiet_set rfl rfl) _ ?_) _ ?_ <;> trivial)

theorem quiet_calls (acts : List Call) : ∀ s : Drv σ, Quiet s (acts.foldl (fun s c => call c s) s) := by
  induction acts with
  | nil => exact fun s => .refl s
  | cons c cs ih => exact fun s => (quiet_call c s).trans (ih _)

theorem quiet_again (timeUp : Bool) (s : Drv σ) : Quiet s (again timeUp s) := by
  unfold again
  repeat' split
  all_goals first
    | exact .refl s
    | exact (quiet_one rfl rfl trivial)

theorem quiet_mismatches (l : List Nat) : ∀ s : Drv σ, Quiet s (l.foldl (fun s cb => emit (.mismatch cb) s) s) := by
  induction l with
  | nil => exact fun s => .refl s
  | cons c cs ih => exact fun s => (quiet_emit (.refl s) (.mismatch c) trivial).trans (ih _)

theorem quiet_answer (timeUp : Bool) (acts : List Call) (raises : Bool) (cmd : List Byte) (lines : List (List Byte)) (expired : Bool)
    (s : Drv σ) : Quiet s (answer timeUp acts raises cmd lines expired s) := by
  unfold answer
  simp only
  have h := quiet_mismatches (lookup cmd s.reqs).1 s
  split
  · refine Quiet.trans ?_ (quiet_again _ _)
    exact quiet_emit (h.trans (quiet_set rfl rfl)) _ trivial
  · rename_i cb rest _
    have h' : Quiet s (emit (.called cb cmd lines expired)
        { (lookup cmd s.reqs).1.foldl (fun s cb => emit (.mismatch cb) s) s with reqs := rest }) :=
      quiet_emit (h.trans (quiet_set rfl rfl)) _ trivial
    have h2 := h'.trans (quiet_calls acts _)
    split
    · exact quiet_emit (h2.trans (quiet_set rfl rfl)) _ trivial
    · exact h2.trans (quiet_again _ _)

theorem quiet_round (timeUp : Bool) (acts : List Call) (raises : Bool) (s : Drv σ) : Quiet s (round timeUp acts raises s) := by
  unfold round
  split
  · exact .refl s
  · simp only
    split
    · refine quiet_emit (quiet_emit (quiet_set rfl rfl) _ ?_) _ ?_ <;> trivial
    · exact (quiet_one rfl rfl trivial)
    · refine Quiet.trans ?_ (quiet_answer _ _ _ _ _ _ _)
      exact (quiet_set rfl rfl)
    · exact (quiet_one rfl rfl trivial)

theorem quiet_take (s : Drv σ) : Quiet s (take s) := by
  unfold take
  split
  · exact .refl s
  · rename_i i rest _
    have h : Quiet s (emit (.taken i) { s with tx := rest }) := (quiet_one rfl rfl trivial)
    simp only
    split
    · split
      · exact h.trans (quiet_set rfl rfl)
      · refine quiet_put (quiet_emit h _ ?_) _ _; trivial
    · split
      · exact h.trans (quiet_set rfl rfl)
      · refine quiet_put (quiet_emit (h.trans (quiet_set rfl rfl)) _ ?_) _ _; trivial
    · exact h.trans (quiet_set rfl rfl)

theorem quiet_write (error : Option Err) (s : Drv σ) : Quiet s (write error s) := by
  unfold write
  split
  · exact .refl s
  · have h : Quiet s { s with writing := none } := (quiet_set rfl rfl)
    split
    · exact quiet_emit h _ trivial
    · refine quiet_put (quiet_emit h _ ?_) _ _; trivial

theorem quiet_read (new : List Byte) (ts : Stamp) (now : Int) (s : Drv σ) : Quiet s (read env new ts now s) := by
  unfold read
  simp only [puts_spec]
  refine ⟨rfl, [.read new] ++ _, List.append_assoc _ _ _, ?_⟩
  intro e he
  simp only [List.singleton_append, List.mem_cons, List.mem_map] at he
  rcases he with rfl | ⟨i, -, rfl⟩ <;> trivial

/-- What the constructor has seen. -/
structure Shape (s : Drv σ) : Prop where
  starting : s.phase = .starting → ∀ m ∈ swallowed s.trace, isFrame m
  ready : s.phase = .ready → ∃ before, swallowed s.trace = before ++ [.initOk] ∧ ∀ m ∈ before, isFrame m
  constructed : .constructed ∈ s.trace ↔ s.phase = .ready

theorem Shape.quiet {s s' : Drv σ} (h : Shape s) (hq : Quiet s s') : Shape s' := by
  obtain ⟨h1, l, h2, h3⟩ := hq
  have hs : swallowed s'.trace = swallowed s.trace := by
    have : ∀ l : List Ev, (∀ e ∈ l, later e) → swallowed l = [] := by
      intro l
      induction l with
      | nil => exact fun _ => rfl
      | cons e l ih =>
        intro hl
        have he := hl e (by simp)
        have := ih fun e' he' => hl e' (by simp [he'])
        cases e <;> simp_all [swallowed, later]
    rw [h2]
    have := this l h3
    simp only [swallowed, List.filterMap_append] at this ⊢
    rw [this, List.append_nil]
  constructor
  · rw [h1, hs]; exact h.starting
  · rw [h1, hs]; exact h.ready
  · rw [h1, h2, List.mem_append, ← h.constructed]
    exact ⟨fun hm => hm.elim id fun hm => (h3 _ hm).elim, Or.inl⟩

theorem Shape.step {w₀ : Rx σ} (h0 : Started w₀) {s : Drv σ} (hi : Inv env w₀ s) (h : Shape s) (x : Step) :
    Shape (step env s x) := by
  cases x with
  | construct =>
    simp only [SlcanDriver.step]
    split
    · rename_i hp
      have hne : s.phase ≠ .ready := by rw [hp]; exact fun h => nomatch h
      have hn : Ev.constructed ∉ s.trace := fun hm => hne (h.constructed.1 hm)
      have hrx := hi.early_rx env h0 hne
      have hs := h.starting hp
      unfold SlcanDriver.construct
      split
      · exact h
      · rename_i m rest hm
        have hsw : swallowed (s.trace ++ [Ev.swallowed m]) = swallowed s.trace ++ [m] := by simp [swallowed]
        simp only
        split
        · have hsw' : swallowed (s.trace ++ [Ev.swallowed .initOk] ++ [Ev.constructed]) = swallowed s.trace ++ [.initOk] := by
            simp [swallowed]
          refine ⟨fun h => (nomatch h), fun _ => ⟨swallowed s.trace, hsw', hs⟩, ?_⟩
          simp [emit]
        · refine ⟨fun h => (nomatch h), fun h => (nomatch h), ?_⟩
          simp [emit, hn]
        · rename_i i hnf
          refine ⟨fun _ => ?_, fun hr => absurd hr hne, ?_⟩
          · intro m hm'
            simp only [emit] at hm'
            rw [hsw, List.mem_append, List.mem_singleton] at hm'
            rcases hm' with hm' | rfl
            · exact hs m hm'
            · cases i with
              | frame f ts => trivial
              | failure e => exact (hnf e rfl).elim
              | response c l e =>
                rw [hm] at hrx
                simp [answers] at hrx
          · simp [emit, hn, hp]
    · exact h
  | constructTimeout =>
    simp only [SlcanDriver.step]
    split
    · rename_i hp
      have hn : Ev.constructed ∉ s.trace := fun hm => by have := h.constructed.1 hm; rw [hp] at this; cases this
      refine ⟨fun h => (nomatch h), fun h => (nomatch h), ?_⟩
      simp [emit, hn]
    · exact h
  | call c =>
    simp only [SlcanDriver.step]
    split
    · exact h.quiet (quiet_call _ _)
    · exact h
  | round timeUp acts raises =>
    simp only [SlcanDriver.step]
    split
    · exact h
    · exact h.quiet (quiet_round _ _ _ _)
  | take =>
    simp only [SlcanDriver.step]
    split
    · exact h.quiet (quiet_take _)
    · exact h
  | write error =>
    simp only [SlcanDriver.step]
    split
    · exact h.quiet (quiet_write _ _)
    · exact h
  | read new ts now =>
    simp only [SlcanDriver.step]
    split
    · exact h.quiet (quiet_read _ _ _ _ _)
    · exact h
  | receive m =>
    simp only [SlcanDriver.step]
    repeat' split
    all_goals first | exact h | exact h.quiet (quiet_set rfl rfl) | exact h.quiet (quiet_one rfl rfl trivial)
  | empty =>
    simp only [SlcanDriver.step]
    repeat' split
    all_goals first | exact h | exact h.quiet (quiet_set rfl rfl) | exact h.quiet (quiet_one rfl rfl trivial)
  | announce =>
    simp only [SlcanDriver.step]
    repeat' split
    all_goals first | exact h | exact h.quiet (quiet_set rfl rfl) | exact h.quiet (quiet_one rfl rfl trivial)
  | giveUp =>
    simp only [SlcanDriver.step]
    repeat' split
    all_goals first | exact h | exact h.quiet (quiet_set rfl rfl) | exact h.quiet (quiet_one rfl rfl trivial)
  | exit =>
    simp only [SlcanDriver.step]
    split
    · refine h.quiet (quiet_emit (quiet_emit (quiet_set rfl rfl) _ ?_) _ ?_) <;> trivial
    · exact h
  | die =>
    simp only [SlcanDriver.step]
    repeat' split
    all_goals first | exact h | exact h.quiet (quiet_set rfl rfl) | exact h.quiet (quiet_one rfl rfl trivial)

theorem Shape.steps {s : Drv σ} (h0 : Fresh s) (hist : List Step) : Shape (steps env s hist) := by
  have key : ∀ (hist : List Step) (s' : Drv σ), Inv env s.worker s' → Shape s' → Shape (SlcanDriver.steps env s' hist) := by
    intro hist
    induction hist with
    | nil => exact fun s' _ h => h
    | cons x xs ih => exact fun s' hi h => ih _ (hi.step env h0.worker x) (h.step env h0.worker hi x)
  refine key hist s (Inv.fresh env h0) ⟨?_, ?_, ?_⟩
  · simp [h0.trace, swallowed]
  · simp [h0.phase]
  · simp [h0.trace, h0.phase]

/-! ## C100 -/

/-- What `receive` hands over is what the I/O process has reported since it announced that it is ready, in order; the rest is in the queue. Only
frames reported before that are lost. -/
theorem C100_order (s : Drv σ) (h : Fresh s) (hist : List Step) (hc : .constructed ∈ (steps env s hist).trace) :
    ∃ before, reported (steps env s hist).trace =
        before ++ .initOk :: ((handed (steps env s hist).trace).map .item ++ (steps env s hist).rx) ∧
      ∀ m ∈ before, ∃ f ts, m = .item (.frame f ts) := by
  have hi := Inv.steps env h hist
  have hs := Shape.steps env h hist
  obtain ⟨before, h1, h2⟩ := hs.ready (hs.constructed.1 hc)
  refine ⟨before, ?_, ?_⟩
  · rw [hi.queue, h1]
    simp
  · intro m hm
    have := h2 m hm
    match m, this with
    | .item (.frame f ts), _ => exact ⟨f, ts, rfl⟩

/-- The callbacks are called in the order of the calls of `execute_cli_command`, each at most once, with the response for its command; those not
called yet belong to the responses in the queue, the commands being executed and the commands queued. -/
theorem C100_callbacks (s : Drv σ) (h : Fresh s) (hist : List Step) :
    ∃ waitingFor, asked (steps env s hist).trace = called (steps env s hist).trace ++ waitingFor ∧
      waitingFor.map (·.1) = answers (steps env s hist).rx ++ (waiting (steps env s hist).worker).map (·.text) ++
        (commands (steps env s hist).tx).map (·.text) := by
  have hi := Inv.steps env h hist
  exact ⟨_, hi.calls, hi.outstanding env h.worker⟩

/-- A response that has expired has no lines. -/
theorem expired_lines (reads : List Read) : ∀ w : Rx σ, Collecting env w → AllSaid env w →
    (∀ x ∈ responses w.out, x.2.2 = true → x.2.1 = []) → ∀ x ∈ responses (run env w reads).out, x.2.2 = true → x.2.1 = [] := by
  induction reads with
  | nil => exact fun w _ _ h => h
  | cons r reads ih =>
    intro w h1 h2 h3
    obtain ⟨done, a1, a2, -, a4, a5⟩ := iteration_commands env { w with pending := w.pending ++ r.cmds } r.new r.ts r.now h1 h2
    refine ih _ a4 a5 ?_
    intro x hx he
    rw [a1] at hx
    rcases List.mem_append.1 hx with hx | hx
    · rcases List.mem_append.1 hx with hx | hx
      · exact h3 x hx he
      · obtain ⟨c, -, rfl⟩ := List.mem_map.1 hx
        rfl
    · rw [a2 x hx] at he
      cases he

/-- The lines that a callback gets are what the adapter said between the echo of the command and the end of text, and valid UTF-8; a response that
has expired has no lines. -/
theorem C100_lines (s : Drv σ) (h : Fresh s) (hist : List Step) (cb : Nat) (cmd : List Byte) (lines : List (List Byte)) (expired : Bool)
    (hx : .called cb cmd lines expired ∈ (steps env s hist).trace) :
    if expired then lines = [] else Said (steps env s hist).worker.cli cmd lines ∧ ∀ l ∈ lines, env.utf8 l = true := by
  have hi := Inv.steps env h hist
  obtain ⟨reads, extra, hw, -, -⟩ := hi.worker
  have hm : (cmd, lines, expired) ∈ responses (run env s.worker reads).out := by
    have h1 : Item.response cmd lines expired ∈ handed (steps env s hist).trace :=
      List.mem_filterMap.2 ⟨_, hx, rfl⟩
    have h2 : Msg.item (.response cmd lines expired) ∈ reported (steps env s hist).trace := by
      rw [hi.queue]
      exact List.mem_append_left _ (List.mem_append_right _ (List.mem_map.2 ⟨_, h1, rfl⟩))
    have h3 : Item.response cmd lines expired ∈ results (steps env s hist).worker.out := by
      rw [← hi.content]
      exact List.mem_filterMap.2 ⟨_, h2, rfl⟩
    have h4 : (cmd, lines, expired) ∈ responses (results (steps env s hist).worker.out) := List.mem_filterMap.2 ⟨_, h3, rfl⟩
    rw [responses_results, hw] at h4
    exact h4
  cases expired with
  | true =>
    obtain ⟨c1, c2, -⟩ := started_collecting env h.worker
    refine expired_lines env reads s.worker c1 c2 ?_ _ hm rfl
    simp [h.worker.2.2.2.1, responses]
  | false =>
    have := C74_lines env s.worker h.worker reads cmd lines hm
    rw [hw]
    exact ⟨this.1, List.all_eq_true.1 this.2⟩

/-- Without commands, and if no time stamp estimator raises (C142), the frames that `receive` returns are the frames among the lines received from the
adapter, in order, after those lost during the construction; the rest is in the queue. (Missing: lines for which an estimator raises,
`C100_counterexample`.) -/
theorem C100_frames_partial (s : Drv σ) (h : Fresh s) (hist : List Step) (hc : asked (steps env s hist).trace = []) (hn : NoneLost (steps env s hist).worker) :
    framesOf (content (swallowed (steps env s hist).trace)) ++ framesOf (handed (steps env s hist).trace) ++
        framesOf (content (steps env s hist).rx) =
      (linesOf [] (received (steps env s hist).trace)).filterMap frameOf := by
  have hi := Inv.steps env h hist
  obtain ⟨reads, extra, hw, he, hb⟩ := hi.worker
  have hnone : reads.flatMap (·.cmds) = [] := by
    have h1 := hi.same
    rw [hc, hi.sent, ← he] at h1
    have h2 := List.append_eq_nil_iff.1 (List.map_eq_nil_iff.1 h1)
    exact (List.append_eq_nil_iff.1 h2.1).1
  have hstream := C48_stream_partial env s.worker ⟨h.worker.1, h.worker.2.2.1⟩ (by rw [h.data]; simp) reads
    (fun r hr => List.flatMap_eq_nil_iff.1 hnone r hr)
  have h1 := congrArg framesOf hi.content
  rw [framesOf_results, hw, hi.queue, content_append, content_append, content_items, framesOf_append, framesOf_append,
    framesOf_results] at h1
  have hall := (C48_delivered env reads s.worker).all (by rw [hw] at hn; exact hn) _ hstream.1
  rw [h1, hall, h.worker.2.2.2.1, h.data, ← hb]
  rfl

/-! ## The orderly end of the I/O process -/

/-- Why the TX worker's loop may end: it was told to, or had nothing left to do when it found that the parent process or the RX worker was dead. -/
def Reason (env : REnv σ) (s : Drv σ) (hist : List Step) : Prop :=
  .taken .stop ∈ (steps env s hist).trace ∨
    ∃ h₁ h₂, hist = h₁ ++ .giveUp :: h₂ ∧ (steps env s h₁).tx = [] ∧ (steps env s h₁).writing = none ∧ (steps env s h₁).announced = true

/-- The TX worker's loop has not ended meanwhile, nor the port been closed. -/
def Goes (s s' : Drv σ) : Prop := s'.stopping = s.stopping ∧ ∃ extra, s'.trace = s.trace ++ extra ∧ ∀ b, .closing b ∉ extra

theorem Goes.refl (s : Drv σ) : Goes s s := ⟨rfl, [], by simp, by simp⟩

theorem Goes.trans {a b c : Drv σ} (h : Goes a b) (g : Goes b c) : Goes a c := by
  obtain ⟨h1, x, h2, h3⟩ := h
  obtain ⟨g1, y, g2, g3⟩ := g
  refine ⟨g1.trans h1, x ++ y, by rw [g2, h2, List.append_assoc], fun b hb => ?_⟩
  rcases List.mem_append.1 hb with hb | hb
  · exact h3 b hb
  · exact g3 b hb

theorem Goes.set {s s' : Drv σ} (h1 : s'.stopping = s.stopping) (h2 : s'.trace = s.trace) : Goes s s' := ⟨h1, [], by simp [h2], by simp⟩

theorem Goes.emit {s s' : Drv σ} (h : Goes s s') (e : Ev) (he : ∀ b, e ≠ .closing b) : Goes s (emit e s') :=
  h.trans ⟨rfl, [e], rfl, fun b hb => he b (List.mem_singleton.1 hb).symm⟩

theorem Goes.put {s s' : Drv σ} (h : Goes s s') (tx : Bool) (m : Msg) : Goes s (put tx m s') :=
  (h.trans (Goes.set (s' := { s' with rx := s'.rx ++ [m] }) rfl rfl)).emit _ (by exact fun _ => nofun)

theorem goes_call (c : Call) (s : Drv σ) : Goes s (call c s) := by
  cases c with
  | send f =>
    simp only [call]
    repeat' split
    · exact (Goes.refl s).emit _ (by exact fun _ => nofun)
    · exact (Goes.refl s).emit _ (by exact fun _ => nofun)
    · exact ((Goes.set (s' := { s with tx := s.tx ++ [.frame f] }) rfl rfl).emit _ (by exact fun _ => nofun)).emit _ (fun _ => nofun)
  | execute a b t n =>
    simp only [call]
    repeat' split
    · exact (Goes.refl s).emit _ (by exact fun _ => nofun)
    · exact Goes.refl s
    · exact (Goes.refl s).emit _ (by exact fun _ => nofun)
    · refine Goes.emit (Goes.set ?_ ?_) _ (by exact fun _ => nofun) <;> rfl
  | close =>
    simp only [call]
    repeat' split
    · exact Goes.refl s
    · exact Goes.refl s
    · exact Goes.set rfl rfl

theorem goes_foldl {α : Type} (f : Drv σ → α → Drv σ) (hf : ∀ s a, Goes s (f s a)) (l : List α) (s : Drv σ) : Goes s (l.foldl f s) := by
  induction l generalizing s with
  | nil => exact Goes.refl s
  | cons a l ih => exact (hf s a).trans (ih _)

theorem goes_again (timeUp : Bool) (s : Drv σ) : Goes s (again timeUp s) := by
  unfold again
  repeat' split
  all_goals first | exact Goes.refl s | exact Goes.emit (Goes.set rfl rfl) _ (by exact fun _ => nofun)

theorem goes_answer (timeUp : Bool) (acts : List Call) (raises : Bool) (cmd : List Byte) (lines : List (List Byte)) (expired : Bool) (s : Drv σ) :
    Goes s (answer timeUp acts raises cmd lines expired s) := by
  have h1 : Goes s ((lookup cmd s.reqs).1.foldl (fun s cb => emit (.mismatch cb) s) s) :=
    goes_foldl _ (fun s cb => (Goes.refl s).emit _ (by exact fun _ => nofun)) _ _
  unfold answer
  simp only []
  split
  · exact ((h1.trans (Goes.set rfl rfl)).emit _ (by exact fun _ => nofun)).trans (goes_again _ _)
  · rename_i cb rest _
    have h2 := (h1.trans (Goes.set (s' := { (lookup cmd s.reqs).1.foldl (fun s cb => emit (.mismatch cb) s) s with reqs := rest }) rfl rfl)).emit
      (.called cb cmd lines expired) (by exact fun _ => nofun)
    have h3 := h2.trans (goes_foldl (fun s c => call c s) (fun s c => goes_call c s) acts _)
    split
    · exact (h3.trans (Goes.set rfl rfl)).emit _ (by exact fun _ => nofun)
    · exact h3.trans (goes_again _ _)

theorem goes_round (timeUp : Bool) (acts : List Call) (raises : Bool) (s : Drv σ) : Goes s (round timeUp acts raises s) := by
  unfold round
  split
  · exact Goes.refl s
  · rename_i m rest _
    have h1 : Goes s { s with rx := rest } := Goes.set rfl rfl
    simp only []
    split
    · exact ((Goes.set rfl rfl).emit _ (by exact fun _ => nofun)).emit _ (fun _ => nofun)
    · exact (Goes.set rfl rfl).emit _ (by exact fun _ => nofun)
    · exact h1.trans (goes_answer _ _ _ _ _ _ _)
    · exact (Goes.set rfl rfl).emit _ (by exact fun _ => nofun)

theorem goes_construct (s : Drv σ) : Goes s (construct s) := by
  unfold construct
  split
  · exact Goes.refl s
  · rename_i m rest _
    have h1 : Goes s (emit (.swallowed m) { s with rx := rest }) := (Goes.set rfl rfl).emit _ (by exact fun _ => nofun)
    simp only []
    split
    · exact (h1.trans (Goes.set rfl rfl)).emit _ (by exact fun _ => nofun)
    · exact (h1.trans (Goes.set rfl rfl)).emit _ (by exact fun _ => nofun)
    · exact h1

theorem goes_write (error : Option Err) (s : Drv σ) : Goes s (write error s) := by
  unfold write
  repeat' split
  · exact Goes.refl s
  · exact (Goes.set rfl rfl).emit _ (by exact fun _ => nofun)
  · exact ((Goes.set rfl rfl).emit _ (by exact fun _ => nofun)).put _ _

theorem goes_read (new : List Byte) (ts : Stamp) (now : Int) (s : Drv σ) : Goes s (read env new ts now s) := by
  unfold read
  exact ((Goes.set rfl rfl).emit _ (by exact fun _ => nofun)).trans (goes_foldl _ (fun s i => (Goes.refl s).put _ _) _ _)

theorem goes_take (s : Drv σ) (h : s.tx.head? ≠ some .stop) : Goes s (take s) := by
  unfold take
  split
  · exact Goes.refl s
  · rename_i i rest htx
    have h1 : Goes s (emit (.taken i) { s with tx := rest }) := (Goes.set rfl rfl).emit _ (by exact fun _ => nofun)
    simp only []
    split
    · split
      · exact h1.trans (Goes.set rfl rfl)
      · exact (h1.emit _ (by exact fun _ => nofun)).put _ _
    · split
      · exact h1.trans (Goes.set rfl rfl)
      · exact ((h1.trans (Goes.set rfl rfl)).emit _ (by exact fun _ => nofun)).put _ _
    · rw [htx] at h; exact absurd rfl h

theorem take_stop (s : Drv σ) (h : s.tx.head? = some .stop) : (take s).trace = s.trace ++ [.taken .stop] := by
  unfold take
  split
  · rename_i htx; rw [htx] at h; cases h
  · rename_i i rest htx
    rw [htx] at h
    cases h
    rfl

theorem steps_snoc (s : Drv σ) (hist : List Step) (x : Step) : steps env s (hist ++ [x]) = step env (steps env s hist) x := by
  simp [steps]

/-- The I/O process closes the port in an orderly way, after telling the adapter to close its channel, only if it was told to stop, or its queue was empty when it found that
the parent process or the RX worker was dead. -/
theorem C100_end (s : Drv σ) (h : Fresh s) (hist : List Step) :
    ((steps env s hist).stopping = true → Reason env s hist) ∧
    ∀ b, .closing b ∈ (steps env s hist).trace → b = (List.replicate 10 [0x43#8, 0x0D#8]).flatten ∧ Reason env s hist := by
  generalize hn : hist.length = n
  induction n generalizing hist with
  | zero =>
    rw [List.length_eq_zero_iff.1 hn]
    refine ⟨fun hh => ?_, fun b hb => ?_⟩
    · change s.stopping = true at hh; rw [h.stopping] at hh; cases hh
    · change _ ∈ s.trace at hb; rw [h.trace] at hb; cases hb
  | succ n ih =>
    rcases List.eq_nil_or_concat hist with rfl | ⟨pre, x, rfl⟩
    · cases hn
    rw [List.concat_eq_append] at hn ⊢
    obtain ⟨i1, i2⟩ := ih pre (by simpa using hn)
    have mono : ∀ extra, (steps env s (pre ++ [x])).trace = (steps env s pre).trace ++ extra → Reason env s pre → Reason env s (pre ++ [x]) := by
      rintro extra he (hr | ⟨h₁, h₂, rfl, hr⟩)
      · exact .inl (by rw [he]; exact List.mem_append_left _ hr)
      · exact .inr ⟨h₁, h₂ ++ [x], by simp, hr⟩
    have goes : Goes (steps env s pre) (steps env s (pre ++ [x])) →
        ((steps env s (pre ++ [x])).stopping = true → Reason env s (pre ++ [x])) ∧
        ∀ b, .closing b ∈ (steps env s (pre ++ [x])).trace → b = (List.replicate 10 [0x43#8, 0x0D#8]).flatten ∧ Reason env s (pre ++ [x]) := by
      rintro ⟨g1, extra, g2, g3⟩
      refine ⟨fun hh => mono extra g2 (i1 (by rw [← g1]; exact hh)), fun b hb => ?_⟩
      rw [g2] at hb
      rcases List.mem_append.1 hb with hb | hb
      · exact ⟨(i2 b hb).1, mono extra g2 (i2 b hb).2⟩
      · exact absurd hb (g3 b)
    generalize hs : steps env s pre = t at *
    have he : steps env s (pre ++ [x]) = step env t x := by rw [steps_snoc, hs]
    cases x with
    | take =>
      by_cases hst : t.alive ∧ t.announced ∧ ¬ t.stopping ∧ t.writing = none
      · by_cases hh : t.tx.head? = some .stop
        · have htr : (steps env s (pre ++ [.take])).trace = t.trace ++ [.taken .stop] := by
            rw [he]; simp only [step, if_pos hst]; exact take_stop t hh
          have hr : Reason env s (pre ++ [.take]) := .inl (by rw [htr]; simp)
          refine ⟨fun _ => hr, fun b hb => ⟨?_, hr⟩⟩
          rw [htr] at hb
          rcases List.mem_append.1 hb with hb | hb
          · exact (i2 b hb).1
          · cases List.mem_singleton.1 hb
        · refine goes ?_
          rw [he]; simp only [step, if_pos hst]; exact goes_take t hh
      · refine goes ?_
        rw [he]; simp only [step, if_neg hst]; exact Goes.refl t
    | giveUp =>
      by_cases hst : t.alive ∧ t.announced ∧ t.tx = [] ∧ t.writing = none
      · have hr : Reason env s (pre ++ [.giveUp]) := .inr ⟨pre, [], rfl, by rw [hs]; exact hst.2.2.1, by rw [hs]; exact hst.2.2.2, by rw [hs]; exact hst.2.1⟩
        refine ⟨fun _ => hr, fun b hb => ⟨?_, hr⟩⟩
        rw [he] at hb
        simp only [step, if_pos hst] at hb
        exact (i2 b hb).1
      · refine goes ?_
        rw [he]; simp only [step, if_neg hst]; exact Goes.refl t
    | exit =>
      by_cases hst : t.alive ∧ t.stopping ∧ t.writing = none
      · have htr : (steps env s (pre ++ [.exit])).trace = t.trace ++ [.closing stopBytes, .ended] := by
          rw [he]; simp [step, if_pos hst, emit]
        have hr := mono _ htr (i1 hst.2.1)
        refine ⟨fun _ => hr, fun b hb => ⟨?_, hr⟩⟩
        rw [htr] at hb
        rcases List.mem_append.1 hb with hb | hb
        · exact (i2 b hb).1
        · simp only [List.mem_cons, Ev.closing.injEq, reduceCtorEq, List.not_mem_nil, or_false] at hb
          rw [hb]; decide +kernel
      · refine goes ?_
        rw [he]; simp only [step, if_neg hst]; exact Goes.refl t
    | call c =>
      refine goes ?_
      rw [he]; simp only [step]; split
      · exact goes_call c t
      · exact Goes.refl t
    | receive m =>
      refine goes ?_
      rw [he]; simp only [step]; repeat' split
      · exact Goes.set rfl rfl
      · exact (Goes.refl t).emit _ (by exact fun _ => nofun)
      · exact Goes.refl t
    | round a b c =>
      refine goes ?_
      rw [he]; simp only [step]; split
      · exact Goes.refl t
      · exact goes_round _ _ _ t
    | empty =>
      refine goes ?_
      rw [he]; simp only [step]; split
      · exact Goes.refl t
      · exact (Goes.set rfl rfl).emit _ (by exact fun _ => nofun)
    | construct =>
      refine goes ?_
      rw [he]; simp only [step]; split
      · exact goes_construct t
      · exact Goes.refl t
    | constructTimeout =>
      refine goes ?_
      rw [he]; simp only [step]; split
      · exact (Goes.set rfl rfl).emit _ (by exact fun _ => nofun)
      · exact Goes.refl t
    | announce =>
      refine goes ?_
      rw [he]; simp only [step]; split
      · exact (Goes.set rfl rfl).put _ _
      · exact Goes.refl t
    | write error =>
      refine goes ?_
      rw [he]; simp only [step]; split
      · exact goes_write error t
      · exact Goes.refl t
    | read new ts now =>
      refine goes ?_
      rw [he]; simp only [step]; split
      · exact goes_read env new ts now t
      · exact Goes.refl t
    | die =>
      refine goes ?_
      rw [he]; simp only [step]; split
      · exact (Goes.set rfl rfl).emit _ (by exact fun _ => nofun)
      · exact Goes.refl t

/-- And a process whose queue is empty does end so, if it finds that. -/
theorem C100_gives_up (s : Drv σ) (ha : s.alive = true) (hn : s.announced = true) (ht : s.tx = []) (hw : s.writing = none) :
    (steps env s [.giveUp, .exit]).alive = false ∧
      (steps env s [.giveUp, .exit]).trace = s.trace ++ [.closing (List.replicate 10 [0x43#8, 0x0D#8]).flatten, .ended] := by
  have e : stopBytes = (List.replicate 10 [0x43#8, 0x0D#8]).flatten := by decide +kernel
  simp [steps, step, ha, hn, ht, hw, emit, e]

/-- A process that takes the command to stop from the queue ends so too; what is in the queue behind the command is not sent. -/
theorem C100_stops (s : Drv σ) (ha : s.alive = true) (hn : s.announced = true) (hp : s.stopping = false) (hw : s.writing = none)
    (rest : List TxItem) (ht : s.tx = .stop :: rest) (n : Nat) :
    let s' := steps env s (.take :: List.replicate n .take ++ [.exit])
    s'.alive = false ∧ s'.tx = rest ∧
      s'.trace = s.trace ++ [.taken .stop, .closing (List.replicate 10 [0x43#8, 0x0D#8]).flatten, .ended] := by
  have e : stopBytes = (List.replicate 10 [0x43#8, 0x0D#8]).flatten := by decide +kernel
  have h1 : step env s .take = { emit (.taken .stop) { s with tx := rest } with stopping := true } := by
    simp only [step]
    rw [if_pos ⟨ha, hn, by simp [hp], hw⟩]
    simp only [take, ht]
  have h2 : ∀ k (t : Drv σ), t.stopping = true → steps env t (List.replicate k .take) = t := by
    intro k
    induction k with
    | zero => intro t _; rfl
    | succ k ih =>
      intro t h
      rw [List.replicate_succ]
      change steps env (step env t .take) _ = t
      have : step env t .take = t := by simp [step, h]
      rw [this]
      exact ih t h
  intro s'
  have h3 : s' = step env (step env s .take) .exit := by
    change steps env s (.take :: List.replicate n .take ++ [.exit]) = _
    rw [steps_snoc]
    change step env (steps env (step env s .take) _) _ = _
    rw [h2 n _ (by rw [h1])]
  rw [h3, h1]
  simp [step, ha, hw, emit, e]

/-- Nothing is returned, and `receive` is where it was. -/
def Same (s t : Drv σ) : Prop := t.receiving = s.receiving ∧ t.trace.count .nothing = s.trace.count .nothing

theorem same_call (c : Call) (s : Drv σ) : Same s (call c s) := by
  unfold call
  cases c <;> simp only <;> (repeat' split) <;> exact ⟨rfl, by simp [emit]⟩

theorem same_foldl {α : Type} (f : Drv σ → α → Drv σ) (hf : ∀ s a, Same s (f s a)) (l : List α) (s : Drv σ) : Same s (l.foldl f s) := by
  induction l generalizing s with
  | nil => exact ⟨rfl, rfl⟩
  | cons a l ih => exact ⟨(ih _).1.trans (hf s a).1, (ih _).2.trans (hf s a).2⟩

/-- Is this call of `receive` over after a response? The calls without a limit go on; those with a time limit do until it has passed. -/
def over (timeUp : Bool) : Mode → Bool
  | .block => false
  | .poll => true
  | .timed => timeUp

theorem again_spec (timeUp : Bool) (m : Mode) (s : Drv σ) (h : s.receiving = some m) :
    (again timeUp s).receiving = (if over timeUp m then none else some m) ∧
    (again timeUp s).trace.count .nothing = s.trace.count .nothing + (if over timeUp m then 1 else 0) := by
  unfold again
  rw [h]
  cases m <;> cases timeUp <;> simp [over, emit, h]

/-- After the response to a command, unless its callback raises, `receive` goes on if it was called without a timeout, or if the timeout has not passed
yet; it returns `None` if it was called with timeout 0 or the timeout has passed. It does not matter whether the response had a callback. -/
theorem C100_response (s : Drv σ) (m : Mode) (hr : s.receiving = some m) (cmd : List Byte) (lines : List (List Byte)) (expired : Bool) (rest : List Msg)
    (hx : s.rx = .item (.response cmd lines expired) :: rest) (timeUp : Bool) (acts : List Call) :
    let s' := step env s (.round timeUp acts false)
    s'.receiving = (if over timeUp m then none else some m) ∧
    s'.trace.count .nothing = s.trace.count .nothing + (if over timeUp m then 1 else 0) := by
  have e : step env s (.round timeUp acts false) = answer timeUp acts false cmd lines expired { s with rx := rest } := by
    simp [step, hr, round, hx]
  intro s'
  change (step env s (.round timeUp acts false)).receiving = _ ∧ (step env s (.round timeUp acts false)).trace.count .nothing = _
  rw [e]
  unfold answer
  have h1 := same_foldl (fun (s : Drv σ) cb => emit (.mismatch cb) s) (fun s a => ⟨rfl, by simp [emit]⟩) (lookup cmd s.reqs).1 { s with rx := rest }
  simp only
  generalize (lookup cmd s.reqs).1.foldl (fun (s : Drv σ) cb => emit (.mismatch cb) s) { s with rx := rest } = t at *
  obtain ⟨h1, h2⟩ := h1
  simp only at h1 h2
  split
  · obtain ⟨a, b⟩ := again_spec timeUp m (emit (.orphan cmd lines expired) { t with reqs := [] }) (by simp only [emit]; rw [h1]; exact hr)
    exact ⟨a, by rw [b, ← h2]; simp [emit]⟩
  · rename_i cb l _
    have h3 := same_foldl (fun (s : Drv σ) c => call c s) (fun s a => same_call a s) acts (emit (.called cb cmd lines expired) { t with reqs := l })
    generalize acts.foldl (fun (s : Drv σ) c => call c s) (emit (.called cb cmd lines expired) { t with reqs := l }) = u at *
    obtain ⟨h3, h4⟩ := h3
    obtain ⟨a, b⟩ := again_spec timeUp m u (by rw [h3]; simp only [emit]; rw [h1]; exact hr)
    simp only [Bool.false_eq_true, if_false]
    exact ⟨a, by rw [b, h4, ← h2]; simp [emit]⟩

/-- `send_frame` never waits; `execute_cli_command` waits for room in the queue for as long as it takes if it has no timeout. -/
def Impatient : Call → Prop
  | .send _ => True
  | .execute _ _ timeout _ => timeout ≠ none
  | .close => False

/-- A call other than `close` raises `DriverError` just if the I/O process is dead; if it is alive, and the queue has 1000 items, a call that does not wait
raises `TxQueueFullError`. A call that raises changes nothing. -/
theorem C100_refused (s : Drv σ) (c : Call) :
    (.refused c false ∈ (call c s).trace ↔ .refused c false ∈ s.trace ∨ (c ≠ .close ∧ s.alive = false)) ∧
    (.refused c true ∈ (call c s).trace ↔ .refused c true ∈ s.trace ∨ (Impatient c ∧ s.alive = true ∧ 1000 ≤ s.tx.length)) ∧
    (s.alive = false ∨ 1000 ≤ s.tx.length → call c s = { s with trace := (call c s).trace }) := by
  unfold call
  have hq : queueSize = 1000 := rfl
  simp only [hq]
  obtain ⟨alive, announced, stopping, tx, writing, worker, rx, phase, receiving, reqs, trace⟩ := s
  simp only
  cases alive <;> by_cases hf : 1000 ≤ tx.length <;> cases c with
  | send f => simp [hf, emit, Impatient]
  | execute a b t n => cases t <;> simp [hf, emit, Impatient]
  | close => simp [hf, Impatient]

/-- A full queue, and a process that is dead. -/
example (w : Rx σ) :
    let full : Drv σ := { worker := w, tx := List.replicate 1000 .stop }
    (call (.execute [] 1 (some 5) 0) full).trace = [.refused (.execute [] 1 (some 5) 0) true] ∧
    (call (.execute [] 1 none 0) full).trace = [] ∧
    (call (.execute [] 1 none 0) { full with alive := false }).trace = [.refused (.execute [] 1 none 0) false] := by
  refine ⟨?_, ?_, ?_⟩ <;> simp only [call, queueSize, List.length_replicate] <;> rfl

end SlcanDriver
end Dronecan
