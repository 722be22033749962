import Verif.Model.PythonCan

/-!
# The python-can driver: transmission (C104) and reception (C105)

The theorems are about every interleaving of the main thread and the writer thread, and every outcome of the calls of the bus.
-/

namespace Dronecan
namespace PythonCan
open Can

/-! ## Specification -/

def acceptedOf (t : List Ev) : List CANFrame := t.filterMap fun
  | .accepted f => some f
  | _ => none

def busOf (t : List Ev) : List Message := t.filterMap fun
  | .bus m => some m
  | _ => none

/-- What the caller was told about transmissions: hooks called and exceptions raised. -/
def reportsOf (t : List Ev) : List Report := t.filterMap fun
  | .hook false f => some (.sent f)
  | .raised e => some (.failed e)
  | _ => none

/-- How often `flush_tx_buffer` has raised. -/
def flushFailures (t : List Ev) : Nat := t.countP (· == .flushFailed)

/-- The frames returned by `receive`. -/
def returnedOf (t : List Ev) : List CANFrame := t.filterMap fun
  | .returned f _ => f
  | _ => none

def receivedHooks (t : List Ev) : List CANFrame := t.filterMap fun
  | .hook true f => some f
  | _ => none

/-- A driver that has just been constructed; messages may arrive later. -/
structure Fresh (s : State) : Prop where
  queue : s.queue = []
  feedback : s.feedback = []
  phase : s.phase = .idle
  stop : s.stop = false
  trace : s.trace = []

/-- The message that carries a frame. -/
def carries (m : Message) (f : CANFrame) : Prop :=
  f.canfd = false ∧ m.id = f.canId.toNat ∧ m.data = f.data ∧ m.extended = f.extended ∧ m.remote = false ∧ m.error = false

/-- Each message carries the frame at its place. -/
def Carried : List Message → List CANFrame → Prop
  | [], [] => True
  | m :: ms, f :: fs => carries m f ∧ Carried ms fs
  | _, _ => False

/-- C104 in full: when everything has been dealt with, and no exception was raised, the frames accepted have been put on the bus, each once, in
order, and the hooks have been called for them, likewise. -/
def C104_statement : Prop :=
  ∀ (polls : Bool) (s : State) (steps : List Step), Fresh s → (run polls s steps).stop = false → (run polls s steps).phase = .idle →
    (run polls s steps).queue = [] → (run polls s steps).feedback = [] → (∀ e, Ev.raised e ∉ (run polls s steps).trace) →
    Carried (busOf (run polls s steps).trace) (acceptedOf (run polls s steps).trace) ∧
    reportsOf (run polls s steps).trace = (acceptedOf (run polls s steps).trace).map .sent

/-- The frame that a message carries, if it carries one. -/
def frameOf (m : Message) : Option CANFrame := if m.remote ∨ m.error then none else some ⟨m.id, m.data, m.extended, false⟩

/-- C105, what is received: the frames of the messages taken from the bus. -/
def C105_content : Prop :=
  ∀ (polls : Bool) (s : State) (steps : List Step), Fresh s → ∃ taken, s.incoming = taken ++ (run polls s steps).incoming ∧
    returnedOf (run polls s steps).trace = taken.filterMap (fun x => frameOf x.2)

/-- C105, the timeout: `receive` returns within it. -/
def C105_deadline : Prop :=
  ∀ (polls : Bool) (s : State) (t : Int), 0 ≤ t → (step polls s (.receive (some t))).now ≤ s.now + t

/-- C105, no timeout: `receive` returns when there is a message (or raises what the writer has reported). -/
def C105_blocking : Prop :=
  ∀ (polls : Bool) (s : State) (t : Int) (m : Message) (rest : List (Int × Message)), s.feedback = [] → s.incoming = (t, m) :: rest →
    (step polls s (.receive none)).incoming = rest

/-! ## Invariant -/

/-- The end of an accepted frame: sent, failed, or forgotten on closing. -/
inductive Fate where
  | sent
  | failed (e : Nat)
  | forgotten
deriving DecidableEq, Repr

/-- A frame dealt with: how often `flush_tx_buffer` raised, and its end. -/
structure Done where
  frame : CANFrame
  flushes : Nat
  fate : Fate

def Done.report (d : Done) : Option Report :=
  match d.fate with
  | .sent => some (.sent d.frame)
  | .failed e => some (.failed e)
  | .forgotten => none

/-- How often a frame was put on the bus: once for each failure of the flush, and once more if it was sent in the end. -/
def Done.copies (d : Done) : List Message :=
  match d.fate with
  | .sent => List.replicate (d.flushes + 1) (message d.frame)
  | _ => List.replicate d.flushes (message d.frame)

def Phase.frames : Phase → List CANFrame
  | .idle => []
  | .working f | .flushing f | .reporting f => [f]

def Phase.copies (k : Nat) : Phase → List Message
  | .idle => []
  | .working f => List.replicate k (message f)
  | .flushing f | .reporting f => List.replicate (k + 1) (message f)

def flushes (l : List Done) : Nat := (l.map Done.flushes).sum

structure Inv (s : State) (done : List Done) (k : Nat) : Prop where
  accepted : acceptedOf s.trace = done.map Done.frame ++ s.phase.frames ++ s.queue
  bus : busOf s.trace = done.flatMap Done.copies ++ s.phase.copies k
  reports : reportsOf s.trace ++ s.feedback = done.filterMap Done.report
  failures : flushFailures s.trace = flushes done + k
  idle : s.phase = .idle → k = 0
  running : s.stop = false → ∀ d ∈ done, d.fate ≠ .forgotten
  room : s.queue.length ≤ queueSize
  classic : ∀ f ∈ acceptedOf s.trace, f.canfd = false

/-- An event that has nothing to do with transmission. -/
def silent : Ev → Bool
  | .full _ | .notFd _ | .hook true _ | .returned _ _ => true
  | _ => false

theorem Inv.emit {s : State} {done : List Done} {k : Nat} (h : Inv s done k) (e : Ev) (he : silent e = true) : Inv (emit e s) done k := by
  have h1 : acceptedOf (s.trace ++ [e]) = acceptedOf s.trace := by
    cases e <;> first | (cases he; done) | simp [acceptedOf]
  have h2 : busOf (s.trace ++ [e]) = busOf s.trace := by
    cases e <;> first | (cases he; done) | simp [busOf]
  have h3 : reportsOf (s.trace ++ [e]) = reportsOf s.trace := by
    cases e with
    | hook i f => cases i with
      | true => simp [reportsOf]
      | false => cases he
    | full => simp [reportsOf]
    | notFd => simp [reportsOf]
    | returned => simp [reportsOf]
    | _ => cases he
  have h4 : flushFailures (s.trace ++ [e]) = flushFailures s.trace := by
    cases e <;> first | (cases he; done) | simp [flushFailures]
  constructor
  · show acceptedOf (s.trace ++ [e]) = _; rw [h1]; exact h.accepted
  · show busOf (s.trace ++ [e]) = _; rw [h2]; exact h.bus
  · show reportsOf (s.trace ++ [e]) ++ _ = _; rw [h3]; exact h.reports
  · show flushFailures (s.trace ++ [e]) = _; rw [h4]; exact h.failures
  · exact h.idle
  · exact h.running
  · exact h.room
  · show ∀ f ∈ acceptedOf (s.trace ++ [e]), _; rw [h1]; exact h.classic

theorem Inv.congr {s s' : State} {done : List Done} {k : Nat} (h : Inv s done k) (h1 : s'.trace = s.trace) (h2 : s'.queue = s.queue)
    (h3 : s'.feedback = s.feedback) (h4 : s'.phase = s.phase) (h5 : s'.stop = s.stop) : Inv s' done k := by
  constructor
  · rw [h1, h2, h4]; exact h.accepted
  · rw [h1, h4]; exact h.bus
  · rw [h1, h3]; exact h.reports
  · rw [h1]; exact h.failures
  · rw [h4]; exact h.idle
  · rw [h5]; exact h.running
  · rw [h2]; exact h.room
  · rw [h1]; exact h.classic

theorem Inv.check {s : State} {done : List Done} {k : Nat} (h : Inv s done k) : Inv (check s).1 done k := by
  unfold PythonCan.check
  split
  · exact h
  · rename_i e rest hf
    constructor
    · show acceptedOf (s.trace ++ [.raised e]) = _
      rw [show acceptedOf (s.trace ++ [.raised e]) = acceptedOf s.trace by simp [acceptedOf]]; exact h.accepted
    · show busOf (s.trace ++ [.raised e]) = _
      rw [show busOf (s.trace ++ [.raised e]) = busOf s.trace by simp [busOf]]; exact h.bus
    · show reportsOf (s.trace ++ [.raised e]) ++ rest = _
      have := h.reports
      rw [hf] at this
      rw [show reportsOf (s.trace ++ [.raised e]) = reportsOf s.trace ++ [.failed e] by simp [reportsOf], List.append_assoc]; exact this
    · show flushFailures (s.trace ++ [.raised e]) = _
      rw [show flushFailures (s.trace ++ [.raised e]) = flushFailures s.trace by simp [flushFailures]]; exact h.failures
    · exact h.idle
    · exact h.running
    · exact h.room
    · show ∀ f ∈ acceptedOf (s.trace ++ [.raised e]), _
      rw [show acceptedOf (s.trace ++ [.raised e]) = acceptedOf s.trace by simp [acceptedOf]]; exact h.classic
  · rename_i g rest hf
    constructor
    · show acceptedOf (s.trace ++ [.hook false g]) = _
      rw [show acceptedOf (s.trace ++ [.hook false g]) = acceptedOf s.trace by simp [acceptedOf]]; exact h.accepted
    · show busOf (s.trace ++ [.hook false g]) = _
      rw [show busOf (s.trace ++ [.hook false g]) = busOf s.trace by simp [busOf]]; exact h.bus
    · show reportsOf (s.trace ++ [.hook false g]) ++ rest = _
      have := h.reports
      rw [hf] at this
      rw [show reportsOf (s.trace ++ [.hook false g]) = reportsOf s.trace ++ [.sent g] by simp [reportsOf], List.append_assoc]; exact this
    · show flushFailures (s.trace ++ [.hook false g]) = _
      rw [show flushFailures (s.trace ++ [.hook false g]) = flushFailures s.trace by simp [flushFailures]]; exact h.failures
    · exact h.idle
    · exact h.running
    · exact h.room
    · show ∀ f ∈ acceptedOf (s.trace ++ [.hook false g]), _
      rw [show acceptedOf (s.trace ++ [.hook false g]) = acceptedOf s.trace by simp [acceptedOf]]; exact h.classic

theorem recv_same (polls : Bool) (t : Int) (s : State) : (recv polls t s).2.trace = s.trace ∧ (recv polls t s).2.queue = s.queue ∧
    (recv polls t s).2.feedback = s.feedback ∧ (recv polls t s).2.phase = s.phase ∧ (recv polls t s).2.stop = s.stop := by
  unfold recv
  repeat' split
  all_goals exact ⟨rfl, rfl, rfl, rfl, rfl⟩

/-- A frame has been dealt with. -/
theorem Inv.finish {s s' : State} {done : List Done} {k : Nat} (h : Inv s done k) (d : Done) (report : List Report) (k' : Nat)
    (hk : d.flushes = k') (hp : s.phase.frames = [d.frame]) (hp' : s'.phase = .idle) (hq : s'.queue = s.queue)
    (hf : s'.feedback = s.feedback ++ report) (hr : d.report.toList = report) (hst : s'.stop = s.stop)
    (hrun : s.stop = false → d.fate ≠ .forgotten)
    (ht1 : acceptedOf s'.trace = acceptedOf s.trace) (ht2 : reportsOf s'.trace = reportsOf s.trace)
    (hb : busOf s'.trace = done.flatMap Done.copies ++ d.copies) (hfl : flushFailures s'.trace = flushes done + k') :
    Inv s' (done ++ [d]) 0 := by
  constructor
  · rw [ht1, h.accepted, hp, hp', hq]; simp [Phase.frames]
  · rw [hb, hp']; simp [Phase.copies]
  · rw [ht2, hf, ← List.append_assoc, h.reports, ← hr, List.filterMap_append]
    cases hdr : d.report <;> simp [hdr]
  · rw [hfl]; simp [flushes, hk]
  · exact fun _ => rfl
  · rw [hst]
    intro hs x hx
    rcases List.mem_append.1 hx with hx | hx
    · exact h.running hs x hx
    · rw [List.mem_singleton] at hx
      rw [hx]
      exact hrun hs
  · rw [hq]; exact h.room
  · rw [ht1]; exact h.classic

theorem Inv.step {s : State} {done : List Done} {k : Nat} (h : Inv s done k) (polls : Bool) (x : Step) :
    ∃ more k', Inv (step polls s x) (done ++ more) k' := by
  have same : ∀ {s' k'}, Inv s' done k' → ∃ more k', Inv s' (done ++ more) k' := fun {s' k'} h' => ⟨[], k', by rw [List.append_nil]; exact h'⟩
  cases x with
  | send f =>
    apply same (k' := k)
    simp only [PythonCan.step, sendFrame]
    split
    · exact h.emit _ rfl
    · rename_i hfd
      have hc := h.check
      split
      · rename_i t heq
        rw [heq] at hc
        exact hc
      · rename_i t heq
        rw [heq] at hc
        replace hc : Inv t done k := hc
        split
        · rename_i hl
          have ha : acceptedOf (t.trace ++ [.accepted f]) = acceptedOf t.trace ++ [f] := by simp [acceptedOf]
          constructor
          · show acceptedOf (t.trace ++ [.accepted f]) = _ ++ _ ++ (t.queue ++ [f])
            rw [ha, hc.accepted]
            simp [PythonCan.emit]
          · show busOf (t.trace ++ [.accepted f]) = _
            rw [show busOf (t.trace ++ [.accepted f]) = busOf t.trace by simp [busOf]]; exact hc.bus
          · show reportsOf (t.trace ++ [.accepted f]) ++ _ = _
            rw [show reportsOf (t.trace ++ [.accepted f]) = reportsOf t.trace by simp [reportsOf]]; exact hc.reports
          · show flushFailures (t.trace ++ [.accepted f]) = _
            rw [show flushFailures (t.trace ++ [.accepted f]) = flushFailures t.trace by simp [flushFailures]]; exact hc.failures
          · exact hc.idle
          · exact hc.running
          · show (t.queue ++ [f]).length ≤ queueSize
            simp only [List.length_append, List.length_singleton]
            omega
          · show ∀ g ∈ acceptedOf (t.trace ++ [.accepted f]), _
            rw [ha]
            intro g hg
            rcases List.mem_append.1 hg with hg | hg
            · exact hc.classic g hg
            · rw [List.mem_singleton] at hg
              rw [hg]
              simpa using hfd
        · exact hc.emit _ rfl
  | receive timeout =>
    apply same (k' := k)
    simp only [PythonCan.step, receive]
    have hc := h.check
    split
    · rename_i t heq
      rw [heq] at hc
      exact hc
    · rename_i t heq
      rw [heq] at hc
      replace hc : Inv t done k := hc
      obtain ⟨r1, r2, r3, r4, r5⟩ := recv_same polls (busTimeout timeout) t
      have hr := hc.congr r1 r2 r3 r4 r5
      split
      · rename_i heq'
        rw [heq'] at hr
        exact hr.emit _ rfl
      · rename_i heq'
        rw [heq'] at hr
        exact (hr.emit _ rfl).emit _ rfl
  | close =>
    apply same (k' := k)
    exact ⟨h.accepted, h.bus, h.reports, h.failures, h.idle, (by intro hs; cases hs), h.room, h.classic⟩
  | take =>
    apply same (k' := k)
    simp only [PythonCan.step]
    split
    · rename_i f rest h1 h2 h3
      have hk := h.idle h1
      constructor
      · show acceptedOf s.trace = done.map Done.frame ++ [f] ++ rest
        rw [h.accepted, h1, h3]
        simp [Phase.frames]
      · show busOf s.trace = done.flatMap Done.copies ++ List.replicate k (message f)
        rw [h.bus, h1, hk]
        rfl
      · exact h.reports
      · exact h.failures
      · exact fun hi => nomatch hi
      · exact h.running
      · have := h.room
        rw [h3, List.length_cons] at this
        show rest.length ≤ queueSize
        omega
      · exact h.classic
    · exact h
  | transmit o =>
    simp only [PythonCan.step]
    split
    · rename_i f h1
      have hb := h.bus
      rw [h1] at hb
      have hp : s.phase.frames = [f] := by rw [h1]; rfl
      split
      · rename_i hst
        exact ⟨[⟨f, k, .forgotten⟩], 0, h.finish ⟨f, k, .forgotten⟩ [] k rfl hp rfl rfl (by simp) rfl rfl (fun hs => by rw [hs] at hst; cases hst)
          rfl rfl hb h.failures⟩
      · split
        · apply same (k' := k)
          constructor
          · show acceptedOf (s.trace ++ [.bus (message f)]) = done.map Done.frame ++ [f] ++ s.queue
            rw [show acceptedOf (s.trace ++ [.bus (message f)]) = acceptedOf s.trace by simp [acceptedOf], h.accepted, hp]
          · show busOf (s.trace ++ [.bus (message f)]) = done.flatMap Done.copies ++ List.replicate (k + 1) (message f)
            rw [show busOf (s.trace ++ [.bus (message f)]) = busOf s.trace ++ [message f] by simp [busOf], hb, List.append_assoc,
              List.replicate_succ']
            rfl
          · show reportsOf (s.trace ++ [.bus (message f)]) ++ s.feedback = _
            rw [show reportsOf (s.trace ++ [.bus (message f)]) = reportsOf s.trace by simp [reportsOf]]; exact h.reports
          · show flushFailures (s.trace ++ [.bus (message f)]) = _
            rw [show flushFailures (s.trace ++ [.bus (message f)]) = flushFailures s.trace by simp [flushFailures]]; exact h.failures
          · exact fun hi => nomatch hi
          · exact h.running
          · exact h.room
          · show ∀ g ∈ acceptedOf (s.trace ++ [.bus (message f)]), _
            rw [show acceptedOf (s.trace ++ [.bus (message f)]) = acceptedOf s.trace by simp [acceptedOf]]; exact h.classic
        · exact same h
        · rename_i e
          exact ⟨[⟨f, k, .failed e⟩], 0, h.finish ⟨f, k, .failed e⟩ [.failed e] k rfl hp rfl rfl rfl rfl rfl (fun _ => fun hi => nomatch hi)
            rfl rfl hb h.failures⟩
    · exact same h
  | flush o =>
    simp only [PythonCan.step]
    split
    · rename_i f h1
      have hb := h.bus
      rw [h1] at hb
      have hp : s.phase.frames = [f] := by rw [h1]; rfl
      have ht1 : acceptedOf (s.trace ++ [.flushFailed]) = acceptedOf s.trace := by simp [acceptedOf]
      have ht2 : reportsOf (s.trace ++ [.flushFailed]) = reportsOf s.trace := by simp [reportsOf]
      have ht3 : busOf (s.trace ++ [.flushFailed]) = busOf s.trace := by simp [busOf]
      have ht4 : flushFailures (s.trace ++ [.flushFailed]) = flushes done + (k + 1) := by
        have : flushFailures (s.trace ++ [.flushFailed]) = flushFailures s.trace + 1 := by simp [flushFailures]
        rw [this, h.failures]
        omega
      split
      · apply same (k' := k)
        constructor
        · show acceptedOf s.trace = done.map Done.frame ++ [f] ++ s.queue
          rw [h.accepted, hp]
        · exact hb
        · exact h.reports
        · exact h.failures
        · exact fun hi => nomatch hi
        · exact h.running
        · exact h.room
        · exact h.classic
      · apply same (k' := k + 1)
        constructor
        · show acceptedOf (s.trace ++ [.flushFailed]) = done.map Done.frame ++ [f] ++ s.queue
          rw [ht1, h.accepted, hp]
        · show busOf (s.trace ++ [.flushFailed]) = done.flatMap Done.copies ++ List.replicate (k + 1) (message f)
          rw [ht3]; exact hb
        · show reportsOf (s.trace ++ [.flushFailed]) ++ s.feedback = _
          rw [ht2]; exact h.reports
        · exact ht4
        · exact fun hi => nomatch hi
        · exact h.running
        · exact h.room
        · show ∀ g ∈ acceptedOf (s.trace ++ [.flushFailed]), _
          rw [ht1]; exact h.classic
      · rename_i e
        refine ⟨[⟨f, k + 1, .failed e⟩], 0, h.finish ⟨f, k + 1, .failed e⟩ [.failed e] (k + 1) rfl hp rfl rfl rfl rfl rfl
          (fun _ => fun hi => nomatch hi) ht1 ht2 ?_ ht4⟩
        show busOf (s.trace ++ [.flushFailed]) = done.flatMap Done.copies ++ List.replicate (k + 1) (message f)
        rw [ht3]; exact hb
    · exact same h
  | report =>
    simp only [PythonCan.step]
    split
    · rename_i f h1
      have hb := h.bus
      rw [h1] at hb
      have hp : s.phase.frames = [f] := by rw [h1]; rfl
      exact ⟨[⟨f, k, .sent⟩], 0, h.finish ⟨f, k, .sent⟩ [.sent f] k rfl hp rfl rfl rfl rfl rfl (fun _ => fun hi => nomatch hi)
        rfl rfl hb h.failures⟩
    · exact same h
  | wait t => exact same (h.congr rfl rfl rfl rfl rfl)

theorem Inv.fresh {s : State} (h : Fresh s) : Inv s [] 0 := by
  constructor
  · rw [h.trace, h.phase, h.queue]; rfl
  · rw [h.trace, h.phase]; rfl
  · rw [h.trace, h.feedback]; rfl
  · rw [h.trace]; rfl
  · exact fun _ => rfl
  · exact fun _ _ hx => nomatch hx
  · rw [h.queue]; exact Nat.zero_le _
  · rw [h.trace]; exact fun _ hf => nomatch hf

theorem Inv.run (polls : Bool) (steps : List Step) : ∀ {s : State} {done : List Done} {k : Nat}, Inv s done k →
    ∃ more k', Inv (run polls s steps) (done ++ more) k' := by
  induction steps with
  | nil => exact fun h => ⟨[], _, by rw [List.append_nil]; exact h⟩
  | cons x steps ih =>
    intro s done k h
    obtain ⟨m1, k1, h1⟩ := h.step polls x
    obtain ⟨m2, k2, h2⟩ := ih h1
    exact ⟨m1 ++ m2, k2, by rw [← List.append_assoc]; exact h2⟩

theorem run_inv (polls : Bool) {s : State} (h : Fresh s) (steps : List Step) : ∃ done k, Inv (run polls s steps) done k := by
  obtain ⟨m, k, h⟩ := (Inv.fresh h).run polls steps
  exact ⟨m, k, h⟩

theorem carries_message (f : CANFrame) (h : f.canfd = false) : carries (message f) f := ⟨h, rfl, rfl, rfl, rfl, rfl⟩

theorem carried_map (l : List CANFrame) (h : ∀ f ∈ l, f.canfd = false) : Carried (l.map message) l := by
  induction l with
  | nil => trivial
  | cons f l ih => exact ⟨carries_message f (h f (by simp)), ih fun g hg => h g (by simp [hg])⟩

/-! ## C104 -/

/-- C104 in general: the frames dealt with are a beginning of those accepted, in order; each is on the bus once for each exception of
`flush_tx_buffer`, and once more if it was sent; what was reported is a beginning of what there is to report. At most 1000 frames wait. -/
theorem C104_order (polls : Bool) (s : State) (h : Fresh s) (steps : List Step) : ∃ (done : List Done) (rest : List CANFrame) (k : Nat),
    acceptedOf (run polls s steps).trace = done.map Done.frame ++ rest ∧ rest.length ≤ 1001 ∧
    (busOf (run polls s steps).trace = done.flatMap Done.copies ∨
      ∃ f tail, rest = f :: tail ∧ busOf (run polls s steps).trace = done.flatMap Done.copies ++ List.replicate k (message f)) ∧
    reportsOf (run polls s steps).trace <+: done.filterMap Done.report ∧
    flushes done ≤ flushFailures (run polls s steps).trace ∧ k ≤ flushFailures (run polls s steps).trace + 1 := by
  obtain ⟨done, k, hi⟩ := run_inv polls h steps
  have hroom := hi.room
  have hph : (run polls s steps).phase.frames.length ≤ 1 := by cases (run polls s steps).phase <;> simp [Phase.frames]
  have hq : queueSize = 1000 := rfl
  refine ⟨done, (run polls s steps).phase.frames ++ (run polls s steps).queue, ((run polls s steps).phase.copies k).length, ?_, ?_, ?_, ?_, ?_, ?_⟩
  · rw [hi.accepted, List.append_assoc]
  · rw [List.length_append]; omega
  · have := hi.bus
    cases hp : (run polls s steps).phase with
    | idle => rw [hp] at this; left; rw [this]; simp [Phase.copies]
    | working f => rw [hp] at this; right; exact ⟨f, _, rfl, by rw [this]; simp [Phase.copies]⟩
    | flushing f => rw [hp] at this; right; exact ⟨f, _, rfl, by rw [this]; simp [Phase.copies]⟩
    | reporting f => rw [hp] at this; right; exact ⟨f, _, rfl, by rw [this]; simp [Phase.copies]⟩
  · rw [← hi.reports]; exact List.prefix_append _ _
  · rw [hi.failures]; omega
  · rw [hi.failures]
    have : ((run polls s steps).phase.copies k).length ≤ k + 1 := by cases (run polls s steps).phase <;> simp [Phase.copies]
    omega

/-- C104 if `flush_tx_buffer` never raises. (Missing: that it does, `C104_counterexample`.) -/
theorem C104_partial (polls : Bool) (s : State) (steps : List Step) (h : Fresh s) (h1 : (run polls s steps).stop = false)
    (h2 : (run polls s steps).phase = .idle) (h3 : (run polls s steps).queue = []) (h4 : (run polls s steps).feedback = [])
    (h5 : ∀ e, Ev.raised e ∉ (run polls s steps).trace) (h6 : Ev.flushFailed ∉ (run polls s steps).trace) :
    Carried (busOf (run polls s steps).trace) (acceptedOf (run polls s steps).trace) ∧
    reportsOf (run polls s steps).trace = (acceptedOf (run polls s steps).trace).map .sent := by
  obtain ⟨done, k, hi⟩ := run_inv polls h steps
  have hr := hi.reports
  rw [h4, List.append_nil] at hr
  have hfl := hi.failures
  have h0 : flushFailures (run polls s steps).trace = 0 := by
    rw [flushFailures, List.countP_eq_zero]
    intro e he heq
    rw [eq_of_beq heq] at he
    exact h6 he
  rw [h0] at hfl
  have hsent : ∀ d ∈ done, d.fate = .sent ∧ d.flushes = 0 := by
    intro d hd
    refine ⟨?_, ?_⟩
    · cases hf : d.fate with
      | sent => rfl
      | forgotten => exact absurd hf (hi.running h1 d hd)
      | failed e =>
        have hm : Report.failed e ∈ reportsOf (run polls s steps).trace := by
          rw [hr]
          exact List.mem_filterMap.2 ⟨d, hd, by simp [Done.report, hf]⟩
        obtain ⟨ev, hev, he⟩ := List.mem_filterMap.1 hm
        cases ev with
        | raised e' => exact absurd hev (h5 e')
        | hook i f => cases i <;> simp at he
        | _ => simp at he
    · have hz : flushes done = 0 := by omega
      exact List.sum_eq_zero_iff_forall_eq_nat.1 hz _ (List.mem_map.2 ⟨d, hd, rfl⟩)
  have key : ∀ l : List Done, (∀ d ∈ l, d.fate = .sent ∧ d.flushes = 0) → l.flatMap Done.copies = (l.map Done.frame).map message ∧
      l.filterMap Done.report = (l.map Done.frame).map .sent := by
    intro l
    induction l with
    | nil => exact fun _ => ⟨rfl, rfl⟩
    | cons d l ih =>
      intro hl
      obtain ⟨i1, i2⟩ := ih fun x hx => hl x (by simp [hx])
      obtain ⟨d1, d2⟩ := hl d (by simp)
      constructor
      · rw [List.flatMap_cons, i1]; simp [Done.copies, d1, d2]
      · rw [List.filterMap_cons, i2]; simp [Done.report, d1]
  obtain ⟨k1, k2⟩ := key done hsent
  have ha : acceptedOf (run polls s steps).trace = done.map Done.frame := by rw [hi.accepted, h2, h3]; simp [Phase.frames]
  refine ⟨?_, by rw [hr, k2, ha]⟩
  have hb := hi.bus
  rw [h2, k1] at hb
  simp only [Phase.copies, List.append_nil] at hb
  rw [hb, ha]
  exact carried_map _ fun f hf => hi.classic f (ha ▸ hf)

/-- CAN FD frames are refused, and nothing else happens. -/
theorem C104_fd (polls : Bool) (s : State) (f : CANFrame) (h : f.canfd = true) :
    step polls s (.send f) = { s with trace := s.trace ++ [.notFd f] } := by
  simp [step, sendFrame, h, emit]

/-- A frame is refused because of an exception of an earlier one, which is raised instead. -/
theorem C104_send_raises (polls : Bool) (s : State) (f : CANFrame) (hf : f.canfd = false) (e : Nat) (rest : List Report)
    (h : s.feedback = .failed e :: rest) :
    (step polls s (.send f)).trace = s.trace ++ [.raised e] ∧ (step polls s (.send f)).queue = s.queue := by
  simp [step, sendFrame, check, h, hf, emit]

/-- Otherwise, it is accepted if fewer than 1000 are waiting, and refused if not. -/
theorem C104_send (polls : Bool) (s : State) (f : CANFrame) (hf : f.canfd = false) (h : ∀ e rest, s.feedback ≠ .failed e :: rest) :
    (s.queue.length < 1000 → (step polls s (.send f)).queue = s.queue ++ [f] ∧ (step polls s (.send f)).trace.getLast? = some (.accepted f)) ∧
    (1000 ≤ s.queue.length → (step polls s (.send f)).queue = s.queue ∧ (step polls s (.send f)).trace.getLast? = some (.full f)) := by
  have hc : (check s).2 = false ∧ (check s).1.queue = s.queue := by
    unfold check
    split
    · exact ⟨rfl, rfl⟩
    · rename_i e rest heq
      exact absurd heq (h e rest)
    · exact ⟨rfl, rfl⟩
  obtain ⟨c1, c2⟩ := hc
  have hq : queueSize = 1000 := rfl
  simp only [step, sendFrame, hf, Bool.false_eq_true, if_false]
  generalize check s = c at c1 c2
  obtain ⟨t, b⟩ := c
  simp only at c1 c2
  subst c1
  simp only [hq, c2]
  constructor
  · intro hl
    simp [hl, emit, c2]
  · intro hl
    have : ¬ s.queue.length < 1000 := by omega
    simp [this, emit, c2]

def f1 : CANFrame := ⟨0x123, [1, 2], true, false⟩

/-- ENOBUFS raised by `flush_tx_buffer`: the frame is sent again. -/
theorem C104_counterexample : ¬ C104_statement := by
  intro h
  have := h true {} [.send f1, .take, .transmit .ok, .flush .noBufs, .transmit .ok, .flush .ok, .report, .receive (some 0)]
    ⟨rfl, rfl, rfl, rfl, rfl⟩ rfl rfl rfl rfl (by
      have hall : ∀ ev ∈ (run true {} [.send f1, .take, .transmit .ok, .flush .noBufs, .transmit .ok, .flush .ok, .report, .receive (some 0)]).trace,
          (match ev with
          | .raised _ => false
          | _ => true) = true := by decide +kernel
      exact fun e he => absurd (hall _ he) (by simp))
  have e1 : busOf (run true {} [.send f1, .take, .transmit .ok, .flush .noBufs, .transmit .ok, .flush .ok, .report, .receive (some 0)]).trace =
      [message f1, message f1] := by decide +kernel
  have e2 : acceptedOf (run true {} [.send f1, .take, .transmit .ok, .flush .noBufs, .transmit .ok, .flush .ok, .report, .receive (some 0)]).trace =
      [f1] := by decide +kernel
  rw [e1, e2] at this
  exact this.1.2

/-- A bus on which `flush_tx_buffer` always raises: the frame is on the bus, but an exception is reported. -/
example : (run true {} [.send f1, .take, .transmit .ok, .flush (.error 1), .send f1]).trace =
    [.accepted f1, .bus (message f1), .flushFailed, .raised 1] := by decide +kernel

/-- The partial theorem is about something. -/
example : (run true {} [.send f1, .send f1, .take, .transmit .noBufs, .transmit .ok, .flush .ok, .report, .take, .transmit .ok, .receive (some 0),
    .flush .ok, .report, .receive (some 0)]).trace =
    [.accepted f1, .accepted f1, .bus (message f1), .bus (message f1), .hook false f1, .returned none 0, .hook false f1, .returned none 0] := by
  decide +kernel

/-! ## C105 -/

theorem check_rx (s : State) : (check s).1.incoming = s.incoming ∧ (check s).1.now = s.now ∧
    returnedOf (check s).1.trace = returnedOf s.trace ∧ receivedHooks (check s).1.trace = receivedHooks s.trace := by
  unfold check
  split
  · exact ⟨rfl, rfl, rfl, rfl⟩
  · exact ⟨rfl, rfl, by simp [emit, returnedOf], by simp [emit, receivedHooks]⟩
  · exact ⟨rfl, rfl, by simp [emit, returnedOf], by simp [emit, receivedHooks]⟩

theorem recv_spec (polls : Bool) (t : Int) (s : State) : ((recv polls t s).1 = none ∧ (recv polls t s).2.incoming = s.incoming) ∨
    ∃ a m, (recv polls t s).1 = some m ∧ s.incoming = (a, m) :: (recv polls t s).2.incoming := by
  unfold recv
  split
  · rename_i h; exact .inl ⟨rfl, by simp [h]⟩
  · rename_i a m rest h
    split
    · exact .inl ⟨rfl, rfl⟩
    · split
      · exact .inr ⟨a, m, rfl, by simp [h]⟩
      · exact .inl ⟨rfl, rfl⟩

/-- What a message becomes. -/
def becomes (m : Message) : CANFrame := ⟨m.id, m.data, true, false⟩

theorem step_rx (polls : Bool) (s : State) (x : Step) : ∃ taken, s.incoming = taken ++ (step polls s x).incoming ∧
    returnedOf (step polls s x).trace = returnedOf s.trace ++ taken.map (fun y => becomes y.2) ∧
    receivedHooks (step polls s x).trace = receivedHooks s.trace ++ taken.map (fun y => becomes y.2) := by
  have same : ∀ {s' : State}, s'.incoming = s.incoming → returnedOf s'.trace = returnedOf s.trace → receivedHooks s'.trace = receivedHooks s.trace →
      ∃ taken, s.incoming = taken ++ s'.incoming ∧ returnedOf s'.trace = returnedOf s.trace ++ taken.map (fun y => becomes y.2) ∧
        receivedHooks s'.trace = receivedHooks s.trace ++ taken.map (fun y => becomes y.2) :=
    fun h1 h2 h3 => ⟨[], by simp [h1], by simp [h2], by simp [h3]⟩
  have quiet : ∀ (t : State) (e : Ev), (match e with
      | .returned _ _ | .hook _ _ => false
      | _ => true) = true → returnedOf (emit e t).trace = returnedOf t.trace ∧ receivedHooks (emit e t).trace = receivedHooks t.trace := by
    intro t e he
    cases e <;> first | (cases he; done) | simp [emit, returnedOf, receivedHooks]
  obtain ⟨c1, c2, c3, c4⟩ := check_rx s
  cases x with
  | send f =>
    simp only [step, sendFrame]
    split
    · exact same rfl (quiet _ _ rfl).1 (quiet _ _ rfl).2
    · split
      · rename_i t heq; rw [heq] at c1 c3 c4; exact same c1 c3 c4
      · rename_i t heq
        rw [heq] at c1 c3 c4
        split
        · exact same c1 ((quiet _ _ rfl).1.trans c3) ((quiet _ _ rfl).2.trans c4)
        · exact same c1 ((quiet _ _ rfl).1.trans c3) ((quiet _ _ rfl).2.trans c4)
  | receive timeout =>
    simp only [step, receive]
    split
    · rename_i t heq; rw [heq] at c1 c3 c4; exact same c1 c3 c4
    · rename_i t heq
      rw [heq] at c1 c3 c4
      simp only at c1 c3 c4
      obtain ⟨r1, -⟩ := recv_same polls (busTimeout timeout) t
      rcases recv_spec polls (busTimeout timeout) t with ⟨h1, h2⟩ | ⟨a, m, h1, h2⟩
      · split
        · rename_i u heq'
          rw [heq'] at h2 r1
          simp only at h2 r1
          refine same (h2.trans c1) ?_ ?_
          · rw [← c3, ← r1]; simp [emit, returnedOf]
          · rw [← c4, ← r1]; simp [emit, receivedHooks]
        · rename_i u heq'; rw [heq'] at h1; cases h1
      · split
        · rename_i u heq'; rw [heq'] at h1; cases h1
        · rename_i m' u heq'
          rw [heq'] at h1 h2 r1
          simp only at h1 h2 r1
          cases h1
          refine ⟨[(a, m)], ?_, ?_, ?_⟩
          · rw [← c1, h2]; rfl
          · rw [← c3, ← r1]; simp [emit, returnedOf, received, becomes]
          · rw [← c4, ← r1]; simp [emit, receivedHooks, received, becomes]
  | close => exact same rfl rfl rfl
  | take =>
    simp only [step]
    split <;> exact same rfl rfl rfl
  | transmit o =>
    simp only [step]
    split
    · split
      · exact same rfl rfl rfl
      · split
        · exact same rfl (quiet _ _ rfl).1 (quiet _ _ rfl).2
        · exact same rfl rfl rfl
        · exact same rfl rfl rfl
    · exact same rfl rfl rfl
  | flush o =>
    simp only [step]
    split
    · split
      · exact same rfl rfl rfl
      · exact same rfl (quiet _ _ rfl).1 (quiet _ _ rfl).2
      · exact same rfl (quiet _ _ rfl).1 (quiet _ _ rfl).2
    · exact same rfl rfl rfl
  | report =>
    simp only [step]
    split <;> exact same rfl rfl rfl
  | wait t => exact same rfl rfl rfl

/-- C105, what is received: every message taken from the bus is returned by `receive` and passed to the hooks, in order, without loss or
repetition, with its identifier and data; as an extended frame. -/
theorem C105_order (polls : Bool) (s : State) (h : Fresh s) (steps : List Step) : ∃ taken, s.incoming = taken ++ (run polls s steps).incoming ∧
    returnedOf (run polls s steps).trace = taken.map (fun x => ⟨x.2.id, x.2.data, true, false⟩) ∧
    receivedHooks (run polls s steps).trace = returnedOf (run polls s steps).trace := by
  have key : ∀ (steps : List Step) (s : State), ∃ taken, s.incoming = taken ++ (run polls s steps).incoming ∧
      returnedOf (run polls s steps).trace = returnedOf s.trace ++ taken.map (fun y => becomes y.2) ∧
      receivedHooks (run polls s steps).trace = receivedHooks s.trace ++ taken.map (fun y => becomes y.2) := by
    intro steps
    induction steps with
    | nil => exact fun s => ⟨[], rfl, by simp [run], by simp [run]⟩
    | cons x steps ih =>
      intro s
      obtain ⟨t1, a1, a2, a3⟩ := step_rx polls s x
      obtain ⟨t2, b1, b2, b3⟩ := ih (step polls s x)
      refine ⟨t1 ++ t2, ?_, ?_, ?_⟩
      · rw [a1, b1, List.append_assoc]; rfl
      · show returnedOf (run polls (step polls s x) steps).trace = _
        rw [b2, a2, List.append_assoc, List.map_append]
      · show receivedHooks (run polls (step polls s x) steps).trace = _
        rw [b3, a3, List.append_assoc, List.map_append]
  obtain ⟨taken, h1, h2, h3⟩ := key steps s
  rw [h.trace] at h2 h3
  refine ⟨taken, h1, ?_, ?_⟩
  · rw [h2]; rfl
  · rw [h2, h3]; rfl

/-- C105, what is received, if all messages are extended data frames. (Missing: other messages, `C105_counterexample`.) -/
theorem C105_partial (polls : Bool) (s : State) (h : Fresh s) (hm : ∀ x ∈ s.incoming, x.2.extended = true ∧ x.2.remote = false ∧ x.2.error = false)
    (steps : List Step) : ∃ taken, s.incoming = taken ++ (run polls s steps).incoming ∧
    returnedOf (run polls s steps).trace = taken.filterMap (fun x => frameOf x.2) := by
  obtain ⟨taken, h1, h2, -⟩ := C105_order polls s h steps
  refine ⟨taken, h1, ?_⟩
  rw [h2]
  have : ∀ x ∈ taken, x.2.extended = true ∧ x.2.remote = false ∧ x.2.error = false := fun x hx => hm x (by rw [h1]; simp [hx])
  clear h1 h2
  induction taken with
  | nil => rfl
  | cons x l ih =>
    obtain ⟨e1, e2, e3⟩ := this x (by simp)
    rw [List.map_cons, List.filterMap_cons, ih fun y hy => this y (by simp [hy])]
    simp [frameOf, e1, e2, e3]

/-- C105, the timeout: `receive` gives the bus a thousand times the time it was given; with this, it waits no longer than necessary. -/
theorem C105_waits (polls : Bool) (s : State) (t : Int) (ht : 0 ≤ t) (hf : s.feedback = []) :
    (step polls s (.receive (some t))).now ≤ s.now + 1000 * t ∧
    (∀ a m rest, s.incoming = (a, m) :: rest → a ≤ s.now + 1000 * t →
      (step polls s (.receive (some t))).incoming = rest ∧ (step polls s (.receive (some t))).now = max s.now a) ∧
    ((∀ x ∈ s.incoming.head?, s.now + 1000 * t < x.1) → (step polls s (.receive (some t))).incoming = s.incoming ∧
      (step polls s (.receive (some t))).now = s.now + 1000 * t) := by
  have hc : check s = (s, false) := by simp [check, hf]
  have hm : max (t * 1000) 0 = 1000 * t := by omega
  have hneg : ¬ (t * 1000 < 0 ∧ polls = false) := fun h => by omega
  simp only [step, receive, hc, busTimeout]
  unfold recv
  cases hi : s.incoming with
  | nil =>
    simp only [emit, hm, hi]
    exact ⟨by omega, fun _ _ _ h => (nomatch h), fun _ => ⟨trivial, trivial⟩⟩
  | cons x rest =>
    obtain ⟨a, m⟩ := x
    simp only [if_neg hneg, hm]
    by_cases ha : a ≤ s.now + 1000 * t
    · simp only [if_pos ha, emit]
      refine ⟨by omega, ?_, ?_⟩
      · intro a' m' rest' h _
        cases h
        exact ⟨rfl, rfl⟩
      · intro h
        have := h (a, m) rfl
        simp only at this
        omega
    · simp only [if_neg ha, emit, hi]
      refine ⟨by omega, ?_, fun _ => ⟨trivial, trivial⟩⟩
      intro a' m' rest' h h'
      cases h
      exact absurd h' ha

/-- C105, no timeout: `receive` does not wait; whether it looks at all depends on the bus. -/
theorem C105_no_wait (polls : Bool) (s : State) (hf : s.feedback = []) : (step polls s (.receive none)).now = s.now ∨
    ∃ a m rest, s.incoming = (a, m) :: rest ∧ polls = true ∧ a ≤ s.now ∧ (step polls s (.receive none)).incoming = rest := by
  have hc : check s = (s, false) := by simp [check, hf]
  have hm : max (-1000000 : Int) 0 = 0 := by omega
  simp only [step, receive, hc, busTimeout]
  unfold recv
  cases hi : s.incoming with
  | nil => left; simp [emit, hm]
  | cons x rest =>
    obtain ⟨a, m⟩ := x
    cases polls with
    | false => left; simp [emit]
    | true =>
      by_cases ha : a ≤ s.now
      · right
        refine ⟨a, m, rest, rfl, rfl, ha, ?_⟩
        simp [hm, ha, emit]
      · left
        simp [hm, ha, emit]

/-- A standard frame becomes an extended one; `receive` waits longer than its timeout; without a timeout it does not wait for a message. -/
theorem C105_counterexample : ¬ C105_content ∧ ¬ C105_deadline ∧ ¬ C105_blocking := by
  refine ⟨?_, ?_, ?_⟩
  · intro h
    obtain ⟨taken, h1, h2⟩ := h true { incoming := [(0, ⟨5, [], false, false, false⟩)] } [.receive (some 0)] ⟨rfl, rfl, rfl, rfl, rfl⟩
    have e1 : (run true { incoming := [(0, ⟨5, [], false, false, false⟩)] } [.receive (some 0)]).incoming = [] := by decide +kernel
    have e2 : returnedOf (run true { incoming := [(0, ⟨5, [], false, false, false⟩)] } [.receive (some 0)]).trace = [⟨5, [], true, false⟩] := by
      decide +kernel
    rw [e1, List.append_nil] at h1
    rw [e2, ← h1] at h2
    exact absurd h2 (by decide +kernel)
  · intro h
    have := h true {} 1 (by decide)
    exact absurd this (by decide +kernel)
  · intro h
    have := h true { incoming := [(1, ⟨5, [], true, false, false⟩)] } 1 ⟨5, [], true, false, false⟩ [] rfl rfl
    exact absurd this (by decide +kernel)

example : returnedOf (run false { incoming := [(3, ⟨5, [1], true, false, false⟩), (7000, ⟨6, [], true, false, false⟩)] }
    [.receive (some 0), .receive (some 1), .wait 6000, .receive none, .receive (some 1)]).trace = [⟨5, [1], true, false⟩, ⟨6, [], true, false⟩] := by
  decide +kernel

end PythonCan
end Dronecan
